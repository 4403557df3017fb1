import Verif.Lemmas.ElemArg
import Verif.Lemmas.Ideal
import Verif.Lemmas.Domain
import Verif.LibmAcc

/-! # Propagation of relative errors through the operations of the elementary functions -/

namespace Takum

/-- `x` is a finite number within a relative error `ε` of `y`. -/
def Near (F : Fmt) (ε y : ℝ) (x : Fl) : Prop := ∃ z : ℚ, x.Is z ∧ F.In z ∧ |(z : ℝ) - y| ≤ ε * |y|

/-- 0 or of moderate magnitude. -/
def Mod (y : ℝ) : Prop := y = 0 ∨ ((2 : ℝ) ^ (-1000 : ℤ) ≤ |y| ∧ |y| ≤ (2 : ℝ) ^ (1000 : ℤ))

theorem Near.mono {F : Fmt} {ε δ y : ℝ} {x : Fl} (h : Near F ε y x) (hd : ε ≤ δ) : Near F δ y x := by
  obtain ⟨z, a, b, c⟩ := h
  exact ⟨z, a, b, c.trans (mul_le_mul_of_nonneg_right hd (abs_nonneg y))⟩

theorem Near.zero {F : Fmt} {ε : ℝ} {x : Fl} (h : x.Is 0) : Near F ε 0 x :=
  ⟨0, h, ⟨Fmt.Rep.zero F, by rw [abs_zero]; positivity⟩, by simp⟩

theorem zp1001 : (2 : ℝ) ^ (1001 : ℤ) = 2 * (2 : ℝ) ^ (1000 : ℤ) := by
  rw [show (1001 : ℤ) = 1 + 1000 by norm_num, zpow_add₀ (by norm_num)]; norm_num
theorem zm1001 : (2 : ℝ) ^ (-1001 : ℤ) = (2 : ℝ) ^ (-1000 : ℤ) / 2 := by
  rw [show (-1001 : ℤ) = -1000 - 1 by norm_num, zpow_sub₀ (by norm_num)]; norm_num

theorem round_near {F : Fmt} (hF : F = b64 ∨ F = x80) {q : ℚ} {y ε : ℝ} (hy : Mod y) (h : |(q : ℝ) - y| ≤ ε * |y|) (he : ε ≤ 1 / 4) (z : Bool) :
    Near F (ε + 1.25 / 2 ^ F.prec) y (Fl.round F z q) := by
  have hp : 1 ≤ F.prec ∧ F.emin + F.prec ≤ -1001 ∧ F.emin ≤ 1001 ∧ 1001 < F.emax := by
    rcases hF with rfl | rfl <;> decide
  rcases hy with rfl | ⟨h1, h2⟩
  · rw [abs_zero, mul_zero, sub_zero] at h
    have : q = 0 := by
      have := abs_nonpos_iff.mp h; exact_mod_cast this
    subst this
    apply Near.zero
    have := Fl.Is.round (F := F) z (q := 0) (by rw [F.rq_zero, abs_zero]; positivity)
    rwa [F.rq_zero] at this
  have p2 : (0 : ℝ) < (2 : ℝ) ^ (-1000 : ℤ) := by positivity
  have p3 : (0 : ℝ) < (2 : ℝ) ^ (1000 : ℤ) := by positivity
  have h3 : ε * |y| ≤ 1 / 4 * |y| := mul_le_mul_of_nonneg_right he (abs_nonneg y)
  have h4 : |(q : ℝ)| ≤ 1.25 * |y| := by
    have := abs_add_le ((q : ℝ) - y) y
    rw [sub_add_cancel] at this; norm_num at *; linarith
  have h5 : 3 / 4 * |y| ≤ |(q : ℝ)| := by
    have := abs_add_le (y - (q : ℝ)) q
    rw [sub_add_cancel, abs_sub_comm] at this; linarith
  have h6 : (2 : ℝ) ^ (F.emin + F.prec) ≤ |(q : ℝ)| :=
    (zpow_le_zpow_right₀ (by norm_num) hp.2.1).trans (by rw [zm1001]; linarith)
  have h7 := rq_real_err (F := F) h6
  rw [Fmt.rq_cast] at h7
  have h8 : |F.rq q| ≤ (2 : ℚ) ^ (1001 : ℤ) := by
    apply F.abs_rq_le hp.1 (Fmt.Rep.zpow hp.1 hp.2.2.1)
    apply (Rat.cast_le (K := ℝ)).mp
    rw [Rat.cast_zpow, Rat.cast_abs, Rat.cast_ofNat, zp1001]
    generalize (2 : ℝ) ^ (1000 : ℤ) = A at *
    norm_num at h4; linarith
  have h9 : |F.rq q| < (2 : ℚ) ^ F.emax := h8.trans_lt (zpow_lt_zpow_right₀ (by norm_num) hp.2.2.2)
  refine ⟨F.rq q, Fl.Is.round z h9, ⟨F.rq_rep hp.1 q, h9⟩, ?_⟩
  have h10 := abs_add_le ((F.rq q : ℝ) - q) (q - y)
  rw [sub_add_sub_cancel] at h10
  have p4 : (0 : ℝ) < 2 ^ F.prec := by positivity
  have h11 : |(q : ℝ)| / 2 ^ F.prec ≤ 1.25 / 2 ^ F.prec * |y| := by
    rw [div_mul_eq_mul_div]; exact div_le_div_of_nonneg_right h4 p4.le
  rw [add_mul]; linarith

theorem cast_round {F : Fmt} {x : Fl} {q : ℚ} (h : x.Is q) : ∃ z, Fl.cast F x = Fl.round F z q := by
  rcases h.cases with ⟨_, rfl⟩ | ⟨rfl, s, rfl⟩
  · exact ⟨false, rfl⟩
  · exact ⟨s, by simp [Fl.cast, Fl.round]⟩

theorem Near.cast {ε y : ℝ} {x : Fl} (h : Near x80 ε y x) (hy : Mod y) (he : ε ≤ 1 / 4) : Near b64 (ε + 1.25 / 2 ^ 53) y (Fl.cast b64 x) := by
  obtain ⟨z, a, b, c⟩ := h
  obtain ⟨s, e⟩ := cast_round (F := b64) a
  rw [e]; exact round_near (Or.inl rfl) hy c he s

theorem Near.mulc {c : ℚ} {γ δ ε y : ℝ} {x : Fl} (hc : c ≠ 0) (hγ : 0 < γ) (hd : |(c : ℝ) - γ| ≤ δ * γ) (h : Near x80 ε y x) (hy : Mod (γ * y))
    (he' : ε + δ + ε * δ ≤ 1 / 4) : Near x80 (ε + δ + ε * δ + 1.25 / 2 ^ 64) (γ * y) (Fl.mul x80 (.num c) x) := by
  obtain ⟨z, a, b, e⟩ := h
  rw [Fl.mul_eq (Fl.Is.num hc) a]
  refine round_near (Or.inr rfl) hy ?_ he' _
  have e1 : ((c * z : ℚ) : ℝ) - γ * y = (c - γ) * z + γ * (z - y) := by push_cast; ring
  have h1 : |(z : ℝ)| ≤ (1 + ε) * |y| := by
    have := abs_add_le ((z : ℝ) - y) y; rw [sub_add_cancel] at this; linarith
  rw [e1, abs_mul γ, abs_of_pos hγ]
  refine (abs_add_le _ _).trans ?_
  rw [abs_mul, abs_mul, abs_of_pos hγ]
  have d0 : 0 ≤ δ * γ := (abs_nonneg _).trans hd
  have h2 := mul_le_mul hd h1 (abs_nonneg _) d0
  have h3 := mul_le_mul_of_nonneg_left e hγ.le
  linarith

theorem Near.divc {c : ℚ} {γ δ ε y : ℝ} {x : Fl} (hγ : 0 < γ) (hd : |(c : ℝ) - γ| ≤ δ * γ) (hd1 : δ ≤ 1 / 2 ^ 40)
    (h : Near x80 ε y x) (hy : Mod (y / γ)) (he : 0 ≤ ε) (he' : ε ≤ 1 / 2 ^ 40) :
    Near x80 ((ε + δ) * (1 + 1 / 2 ^ 30) + 1.25 / 2 ^ 64) (y / γ) (Fl.div x80 x (.num c)) := by
  obtain ⟨z, a, b, e⟩ := h
  have d0 : 0 ≤ δ := by
    have := (abs_nonneg _).trans hd
    exact nonneg_of_mul_nonneg_left this hγ
  have hc : γ * (1 - δ) ≤ c := by have := (abs_le.mp hd).1; linarith
  have g0 : 0 < γ * (1 - δ) := mul_pos hγ (by norm_num at hd1; linarith)
  have c0 : (0 : ℝ) < c := lt_of_lt_of_le g0 hc
  have c0' : c ≠ 0 := by rintro rfl; simp at c0
  rw [Fl.div_eq a (Fl.Is.num c0') c0']
  refine round_near (Or.inr rfl) hy ?_ (by norm_num at *; linarith) _
  have e1 : ((z / c : ℚ) : ℝ) - y / γ = (γ * (z - y) - (c - γ) * y) / (γ * c) := by
    push_cast; field_simp; ring
  have n1 : |γ * (z - y) - (c - γ) * y| ≤ γ * ((ε + δ) * |y|) := by
    refine (abs_sub _ _).trans ?_
    rw [abs_mul, abs_mul, abs_of_pos hγ]
    have h2 := mul_le_mul_of_nonneg_right hd (abs_nonneg y)
    have h3 := mul_le_mul_of_nonneg_left e hγ.le
    linarith
  rw [e1, abs_div, abs_of_pos (mul_pos hγ c0), abs_div, abs_of_pos hγ, div_le_iff₀ (mul_pos hγ c0)]
  refine n1.trans ?_
  have h4 : (1 : ℝ) ≤ (1 + 1 / 2 ^ 30) * (1 - δ) := by
    norm_num at *; nlinarith
  have h5 : γ ≤ (1 + 1 / 2 ^ 30) * c := by
    have := mul_le_mul_of_nonneg_left hc (by norm_num : (0 : ℝ) ≤ 1 + 1 / 2 ^ 30)
    have := mul_le_mul_of_nonneg_left h4 hγ.le
    linarith
  have h6 : 0 ≤ (ε + δ) * |y| := by positivity
  have h7 := mul_le_mul_of_nonneg_left h5 h6
  have e2 : (ε + δ) * (1 + 1 / 2 ^ 30) * (|y| / γ) * (γ * c) = (ε + δ) * |y| * ((1 + 1 / 2 ^ 30) * c) := by
    field_simp
  rw [e2]; linarith

theorem Mod.inv {y : ℝ} (h : Mod y) : Mod (1 / y) := by
  rcases h with rfl | ⟨h1, h2⟩
  · left; simp
  · right
    have hp : 0 < |y| := lt_of_lt_of_le (by positivity) h1
    rw [abs_div, abs_one]
    constructor
    · rw [zpow_neg, ← one_div]; exact one_div_le_one_div_of_le hp h2
    · rw [show (1000 : ℤ) = -(-1000) by norm_num, zpow_neg, ← one_div]
      exact one_div_le_one_div_of_le (by positivity) h1

theorem Near.inv {F : Fmt} (hF : F = b64 ∨ F = x80) {ε y : ℝ} {x : Fl} (h : Near F ε y x) (hy : Mod y) (h0 : y ≠ 0)
    (he' : ε ≤ 1 / 2 ^ 40) : Near F (ε * (1 + 1 / 2 ^ 30) + 1.25 / 2 ^ F.prec) (1 / y) (Fl.div F (.num 1) x) := by
  obtain ⟨z, a, b, e⟩ := h
  have y0 := abs_pos.mpr h0
  have he : 0 ≤ ε := nonneg_of_mul_nonneg_left ((abs_nonneg _).trans e) y0
  have hz : (1 - ε) * |y| ≤ |(z : ℝ)| := by
    have := abs_add_le (y - (z : ℝ)) z; rw [sub_add_cancel, abs_sub_comm] at this; linarith
  have z0 : 0 < |(z : ℝ)| := lt_of_lt_of_le (mul_pos (by norm_num at *; linarith) y0) hz
  have z0' : z ≠ 0 := by rintro rfl; simp at z0
  have z0'' : (z : ℝ) ≠ 0 := abs_pos.mp z0
  rw [Fl.div_eq (Fl.Is.num one_ne_zero) a z0']
  refine round_near hF hy.inv ?_ (by norm_num at *; linarith) _
  have e1 : ((1 / z : ℚ) : ℝ) - 1 / y = (y - z) / (z * y) := by push_cast; field_simp
  rw [e1, abs_div, abs_mul, abs_div, abs_one, div_le_iff₀ (by positivity), abs_sub_comm]
  refine e.trans ?_
  have h4 : (1 : ℝ) ≤ (1 + 1 / 2 ^ 30) * (1 - ε) := by
    norm_num at *; nlinarith
  have h5 : |y| ≤ (1 + 1 / 2 ^ 30) * |(z : ℝ)| := by
    have := mul_le_mul_of_nonneg_left hz (by norm_num : (0 : ℝ) ≤ 1 + 1 / 2 ^ 30)
    have := mul_le_mul_of_nonneg_right h4 y0.le
    linarith
  have e2 : ε * (1 + 1 / 2 ^ 30) * (1 / |y|) * (|(z : ℝ)| * |y|) = ε * ((1 + 1 / 2 ^ 30) * |(z : ℝ)|) := by
    field_simp
  rw [e2]; exact mul_le_mul_of_nonneg_left h5 he

/-- Tiny numbers of the same sign, or 0. -/
def Tiny (F : Fmt) (y : ℝ) (x : Fl) : Prop :=
  y ≠ 0 ∧ |y| ≤ (2 : ℝ) ^ (-990 : ℤ) ∧ ∃ z : ℚ, x.Is z ∧ F.In z ∧ |z| ≤ (2 : ℚ) ^ (-990 : ℤ) ∧ 0 ≤ (z : ℝ) * y
/-- Huge numbers of the same sign. -/
def Huge (F : Fmt) (y : ℝ) (x : Fl) : Prop :=
  (2 : ℝ) ^ (990 : ℤ) ≤ |y| ∧ (x = .inf (decide (y < 0)) ∨ ∃ z : ℚ, x = .num z ∧ F.In z ∧ (2 : ℚ) ^ (990 : ℤ) ≤ |z| ∧ 0 ≤ (z : ℝ) * y)
/-- A correct result of any magnitude. -/
def Ext (F : Fmt) (ε y : ℝ) (x : Fl) : Prop := (Mod y ∧ Near F ε y x) ∨ Tiny F y x ∨ Huge F y x

theorem in_of {F : Fmt} {x : Fl} {z : ℚ} (h : x.In F) (hz : x.Is z) : F.In z := by
  rcases hz.cases with ⟨h0, rfl⟩ | ⟨rfl, s, rfl⟩
  · exact h.2
  · exact ⟨Fmt.Rep.zero F, by rw [abs_zero]; positivity⟩

theorem Approx.ext {F : Fmt} {y : ℝ} {x : Fl} (h : Approx F y x) : Ext F (4 / 2 ^ F.prec) y x := by
  by_cases h0 : y = 0
  · subst h0; exact Or.inl ⟨Or.inl rfl, Near.zero (h.zero rfl)⟩
  rcases lt_or_ge |y| ((2 : ℝ) ^ (-1000 : ℤ)) with h1 | h1
  · right; left
    obtain ⟨z, a, b, c⟩ := h.tiny h0 h1
    exact ⟨h0, h1.le.trans (zpow_le_zpow_right₀ (by norm_num) (by norm_num)), z, a, in_of h.isIn a,
      b.trans (zpow_le_zpow_right₀ (by norm_num) (by norm_num)), c⟩
  rcases lt_or_ge ((2 : ℝ) ^ (1000 : ℤ)) |y| with h2 | h2
  · right; right
    refine ⟨(zpow_le_zpow_right₀ (by norm_num) (by norm_num)).trans h2.le, ?_⟩
    rcases h.huge h2 with h3 | ⟨z, a, b, c⟩
    · exact Or.inl h3
    · refine Or.inr ⟨z, a, ?_, (zpow_le_zpow_right₀ (by norm_num) (by norm_num)).trans b, c⟩
      have := h.isIn; rw [a] at this; exact this.2
  · left
    obtain ⟨z, a, b⟩ := h.mid h1 h2
    exact ⟨Or.inr ⟨h1, h2⟩, z, a, in_of h.isIn a, b⟩

theorem Approx.near {F : Fmt} {y : ℝ} {x : Fl} (h : Approx F y x) (hy : Mod y) : Near F (4 / 2 ^ F.prec) y x := by
  rcases hy with rfl | ⟨h1, h2⟩
  · exact Near.zero (h.zero rfl)
  · obtain ⟨z, a, b⟩ := h.mid h1 h2
    exact ⟨z, a, in_of h.isIn a, b⟩

theorem rq_keep {F : Fmt} (q : ℚ) {y : ℝ} (h : 0 ≤ (q : ℝ) * y) : 0 ≤ (F.rq q : ℝ) * y := by
  rcases lt_trichotomy q 0 with h1 | h1 | h1
  · have h2 : y ≤ 0 := by
      by_contra hc
      have : (q : ℝ) < 0 := by exact_mod_cast h1
      nlinarith
    have h3 : (F.rq q : ℝ) ≤ 0 := by
      have := F.rq_nonneg (x := -q) (by linarith)
      rw [F.rq_neg] at this
      exact_mod_cast (by linarith : F.rq q ≤ 0)
    exact mul_nonneg_of_nonpos_of_nonpos h3 h2
  · subst h1; simp
  · have h2 : 0 ≤ y := by
      by_contra hc
      have : (0 : ℝ) < q := by exact_mod_cast h1
      nlinarith
    have h3 : (0 : ℝ) ≤ F.rq q := by exact_mod_cast F.rq_nonneg h1.le
    positivity

theorem Ext.cast {ε y : ℝ} {x : Fl} (h : Ext x80 ε y x) (he : ε ≤ 1 / 4) : Ext b64 (ε + 1.25 / 2 ^ 53) y (Fl.cast b64 x) := by
  rcases h with ⟨h1, h2⟩ | ⟨h0, h1, z, a, b, c, d⟩ | ⟨h1, h2⟩
  · exact Or.inl ⟨h1, h2.cast h1 he⟩
  · have h2 : |b64.rq z| ≤ (2 : ℚ) ^ (-990 : ℤ) := b64.abs_rq_le (by decide) (Fmt.Rep.zpow (by decide) (by decide)) c
    have h3 : |b64.rq z| < (2 : ℚ) ^ b64.emax := h2.trans_lt (zpow_lt_zpow_right₀ (by norm_num) (by decide))
    exact Or.inr (Or.inl ⟨h0, h1, _, a.cast h3, ⟨b64.rq_rep (by decide) z, h3⟩, h2, rq_keep z d⟩)
  · refine Or.inr (Or.inr ⟨h1, ?_⟩)
    rcases h2 with rfl | ⟨z, rfl, b, c, d⟩
    · exact Or.inl rfl
    have h2 : (2 : ℚ) ^ (990 : ℤ) ≤ |b64.rq z| := by
      rw [← b64.abs_rq]; exact b64.le_rq (by decide) (Fmt.Rep.zpow (by decide) (by decide)) c
    have z0 : z ≠ 0 := by rintro rfl; rw [abs_zero] at c; exact absurd c (not_le.mpr (by positivity))
    have r0 : b64.rq z ≠ 0 := by intro h; rw [h, abs_zero] at h2; exact absurd h2 (not_le.mpr (by positivity))
    by_cases h3 : |b64.rq z| < (2 : ℚ) ^ b64.emax
    · right
      exact ⟨_, (Fl.Is.cast (Fl.Is.num z0) h3).eq_num r0, ⟨b64.rq_rep (by decide) z, h3⟩, h2, rq_keep z d⟩
    · left
      have y0 : y ≠ 0 := by rintro rfl; rw [abs_zero] at h1; exact absurd h1 (not_le.mpr (by positivity))
      have e : z < 0 ↔ y < 0 := by
        have hz : (z : ℝ) ≠ 0 := by exact_mod_cast z0
        have hd : 0 < (z : ℝ) * y := lt_of_le_of_ne d (Ne.symm (mul_ne_zero hz y0))
        rcases mul_pos_iff.mp hd with ⟨p, q⟩ | ⟨p, q⟩
        · have p : 0 < z := by exact_mod_cast p
          constructor <;> intro <;> linarith
        · have p : z < 0 := by exact_mod_cast p
          exact ⟨fun _ => q, fun _ => p⟩
      simp only [Fl.cast, Fl.round, if_neg z0]
      rw [if_pos (not_lt.mp h3)]
      simp [e]

theorem Ext.inv {F : Fmt} (hF : F = b64 ∨ F = x80) {ε y : ℝ} {x : Fl} (h : Ext F ε y x) (h0 : y ≠ 0) (hy : (2 : ℝ) ^ (-900 : ℤ) ≤ |y|)
    (he : ε ≤ 1 / 2 ^ 40) : Ext F (ε * (1 + 1 / 2 ^ 30) + 1.25 / 2 ^ F.prec) (1 / y) (Fl.div F (.num 1) x) := by
  have hp : 1 ≤ F.prec ∧ F.emin ≤ -990 ∧ -990 < F.emax := by
    rcases hF with rfl | rfl <;> decide
  rcases h with ⟨h1, h2⟩ | ⟨-, h1, -⟩ | ⟨h1, h2⟩
  · exact Or.inl ⟨h1.inv, h2.inv hF h1 h0 he⟩
  · exact absurd (hy.trans h1) (not_le.mpr (zpow_lt_zpow_right₀ (by norm_num) (by norm_num)))
  · right; left
    refine ⟨one_div_ne_zero h0, ?_, ?_⟩
    · rw [abs_div, abs_one, zpow_neg, ← one_div]; exact one_div_le_one_div_of_le (by positivity) h1
    rcases h2 with rfl | ⟨z, rfl, b, c, d⟩
    · refine ⟨0, ?_, ⟨Fmt.Rep.zero F, by rw [abs_zero]; positivity⟩, by rw [abs_zero]; positivity, by simp⟩
      exact Fl.Is.zero _
    · have z0 : z ≠ 0 := by rintro rfl; rw [abs_zero] at c; exact absurd c (not_le.mpr (by positivity))
      have h3 : |1 / z| ≤ (2 : ℚ) ^ (-990 : ℤ) := by
        rw [abs_div, abs_one, zpow_neg, ← one_div]; exact one_div_le_one_div_of_le (by positivity) c
      have h4 : |F.rq (1 / z)| ≤ (2 : ℚ) ^ (-990 : ℤ) := F.abs_rq_le hp.1 (Fmt.Rep.zpow hp.1 hp.2.1) h3
      have h5 : |F.rq (1 / z)| < (2 : ℚ) ^ F.emax := h4.trans_lt (zpow_lt_zpow_right₀ (by norm_num) hp.2.2)
      refine ⟨_, Fl.Is.div (Fl.Is.num one_ne_zero) (Fl.Is.num z0) z0 h5, ⟨F.rq_rep hp.1 _, h5⟩, h4, rq_keep _ ?_⟩
      have hz : (z : ℝ) ≠ 0 := by exact_mod_cast z0
      have e : ((1 / z : ℚ) : ℝ) * (1 / y) = 1 / (z * y) := by push_cast; field_simp
      rw [e]; exact one_div_nonneg.mpr d

end Takum
