import Verif.Lemmas.ConvAcc
import Verif.Lemmas.ElemNear
import Verif.Lemmas.Points
import Verif.Lemmas.ConstIv
import Verif.Lemmas.SymmetryCall

/-! # Results between -1 and 1, and outside -/

namespace Takum
open Spec

/-- Not finite, or a number of the type of magnitude at least 1. -/
def Fl.Large (F : Fmt) (x : Fl) : Prop := x.isfinite = false ∨ ∃ r, Fl.Is x r ∧ F.In r ∧ 1 ≤ |r|

theorem one_rep {F : Fmt} (hF : F = b64 ∨ F = x80) : F.Rep (1 : ℚ) := by
  rcases hF with rfl | rfl <;> exact ⟨1, 0, by norm_num, by decide, by decide⟩

theorem rq_ge_one {F : Fmt} (hF : F = b64 ∨ F = x80) {q : ℚ} (h : 1 ≤ |q|) : 1 ≤ |F.rq q| := by
  have hp := (std_facts hF).1
  rw [← F.abs_rq]
  have := F.rq_mono (by omega) h
  rwa [F.rq_of_rep (one_rep hF)] at this

theorem round_large {F : Fmt} (hF : F = b64 ∨ F = x80) (z : Bool) {q : ℚ} (h : 1 ≤ |q|) : (Fl.round F z q).Large F := by
  have hp := (std_facts hF).1
  by_cases hb : |F.rq q| < (2 : ℚ) ^ F.emax
  · exact Or.inr ⟨_, Fl.Is.round z hb, ⟨F.rq_rep (by omega) q, hb⟩, rq_ge_one hF h⟩
  · left
    have h0 : q ≠ 0 := by rintro rfl; rw [abs_zero] at h; linarith
    unfold Fl.round
    rw [if_neg h0, if_pos (not_lt.mp hb)]
    rfl

theorem inv_large {F : Fmt} (hF : F = b64 ∨ F = x80) {x : Fl} (h : x.Within F 1) : (Fl.div F (.num 1) x).Large F := by
  obtain ⟨r, h1, -, h3⟩ := h
  rcases h1.cases with ⟨h0, rfl⟩ | ⟨rfl, s, rfl⟩
  · rw [Fl.div_eq (Fl.Is.num one_ne_zero) (Fl.Is.num h0) h0]
    apply round_large hF
    rw [abs_div, abs_one, le_div_iff₀ (abs_pos.mpr h0), one_mul]; exact h3
  · left; rfl

theorem cast_large {F : Fmt} (hF : F = b64 ∨ F = x80) {x : Fl} (h : x.Large x80) : (Fl.cast F x).Large F := by
  rcases h with h | ⟨r, h1, -, h3⟩
  · exact Or.inl (cast_bad h)
  · obtain ⟨z, e⟩ := cast_round (F := F) h1
    rw [e]; exact round_large hF z h3

theorem ev_large {L : Libm} {u : UFun} (hu : CastFun u = true) {F : Fmt} (hF : F = b64 ∨ F = x80) {r : Fl}
    (h : (u.evl L r).Large x80) : (u.ev L F r).Large F := by
  rcases hF with rfl | rfl
  · rw [ev_b64, evd_cast L hu]; exact cast_large (Or.inl rfl) h
  · rw [ev_x80]; exact h

theorem within_one {F : Fmt} (hF : F = b64 ∨ F = x80) {z : ℚ} (h : |z| ≤ 1) : (Fl.mk false (F.rq z)).Within F 1 := by
  obtain ⟨a, b⟩ := rq_pow hF (k := 0) (by omega) (by simpa using h)
  exact ⟨_, Fl.Is.mk false _, b, by simpa using a⟩

theorem num_within {F : Fmt} (hF : F = b64 ∨ F = x80) : (Fl.num 1).Within F 1 ∧ (Fl.num (-1)).Within F 1 ∧ ∀ s, (Fl.zero s).Within F 1 := by
  have h1 := one_rep hF
  have hE : (1 : ℚ) < 2 ^ F.emax := by rcases hF with rfl | rfl <;> decide +kernel
  refine ⟨⟨1, Fl.Is.num (by norm_num), ⟨h1, by simpa using hE⟩, by simp⟩, ⟨-1, Fl.Is.num (by norm_num), ⟨h1.neg, by simpa using hE⟩, by simp⟩,
    fun s => ⟨0, Fl.Is.zero s, ⟨Fmt.Rep.zero F, by rw [abs_zero]; positivity⟩, by simp⟩⟩

theorem num_large {F : Fmt} (hF : F = b64 ∨ F = x80) : (Fl.num 1).Large F ∧ (Fl.num (-1)).Large F ∧ Fl.nan.Large F := by
  obtain ⟨⟨r, a, b, -⟩, ⟨r', a', b', -⟩, -⟩ := num_within hF
  refine ⟨Or.inr ⟨r, a, b, ?_⟩, Or.inr ⟨r', a', b', ?_⟩, Or.inl rfl⟩
  · rw [a.unique (Fl.Is.num (by norm_num))]; simp
  · rw [a'.unique (Fl.Is.num (by norm_num))]; simp

/-- `π` times a converted takum is finite. -/
theorem pi_mul_in {v : ℚ} {r : Fl} (hr : r.Is v) (h : |v| ≤ (2 : ℚ) ^ (300 : ℤ)) : ∃ z, (Fl.mul x80 PI r).Is z ∧ x80.In z := by
  obtain ⟨p, e, hp⟩ : ∃ p : ℚ, PI = .num p ∧ p ≠ 0 ∧ |p| ≤ 4 := ⟨_, rfl, by decide +kernel, by decide +kernel⟩
  have hb : |p * v| ≤ (2 : ℚ) ^ (302 : ℕ) := by
    rw [abs_mul]
    calc |p| * |v| ≤ 4 * (2 : ℚ) ^ (300 : ℤ) := mul_le_mul hp.2 h (abs_nonneg _) (by norm_num)
      _ = _ := by decide +kernel
  obtain ⟨a, b⟩ := rq_pow (F := x80) (Or.inr rfl) (by omega) hb
  rw [e]
  exact ⟨_, (Fl.Is.num hp.1).mul hr b.2, b⟩

/-- The conversion of the result keeps to the side of 1 and of 0. -/
theorem kFrom_unit {L : Libm} (hL : L.Conforming) (k : Kind) {w : W} {f : Fl} {z : ℚ} (hf : f.Is z) (h : (kF k w).In z) :
    ∃ (t : T w) (y : ℝ), kFrom L k w f = .ok t ∧ value k t = some y ∧ (|z| ≤ 1 → |y| ≤ 1) ∧ (1 ≤ |z| → 1 ≤ |y|) ∧ (0 < z ↔ 0 < y) ∧
      (z < 0 ↔ y < 0) := by
  have h8 := w.n_pos
  -- faithful to a number on the same side
  obtain ⟨t, c, e, ft, c1, c2, c3, c4⟩ : ∃ (t : T w) (c : ℝ), kFrom L k w f = .ok t ∧ Faithful k c t ∧ (|z| ≤ 1 → |c| ≤ 1) ∧
      (1 ≤ |z| → 1 ≤ |c|) ∧ (0 < z ↔ 0 < c) ∧ (z < 0 ↔ c < 0) := by
    cases k
    · by_cases hz : z = 0
      · subst hz
        rcases hf.cases with ⟨h0, _⟩ | ⟨_, s, rfl⟩
        · exact absurd rfl h0
        exact ⟨_, 0, logFrom_zero L .ext w s, Faithful.zero _, by simp, by simp, by simp, by simp⟩
      have hzp : 0 < |z| := abs_pos.mpr hz
      have hx := logF_std .ext w
      have hi : (logF .ext w).In |z| := ⟨(logF_in .ext w h).1.abs, by rw [abs_abs]; exact (logF_in .ext w h).2⟩
      obtain ⟨r, h1, h2, h3⟩ := hL.accurate.log _ hx |z| hzp hi
      obtain ⟨r', h1', -, h3'⟩ := hL.logs.finite _ hx |z| hzp hi
      have := h1.unique h1'
      subst this
      obtain ⟨t1, t2⟩ := twoLog_is hx hf hz h1 h2 h3'
      obtain ⟨t, et, ft⟩ := logEnc_faithful .ext w (decide (z < 0)) t1 t2.1
        (by rw [abs_mul, abs_two, show (2 : ℚ) ^ 101 = 2 * 2 ^ 100 by norm_num]; exact mul_le_mul_of_nonneg_left h3' (by norm_num))
      have eg : logG (2 * r) = Real.exp r := by rw [logG_exp]; congr 1; push_cast; ring
      rw [eg] at ft
      have pe := Real.exp_pos (r : ℝ)
      have ε1 : (4 : ℝ) / 2 ^ (logF .ext w).prec ≤ 1 / 2 := by rcases hx with g | g <;> rw [g] <;> norm_num [b64, x80]
      have ac : |((sg (decide (z < 0)) : ℚ) : ℝ) * Real.exp r| = Real.exp r := by
        rw [abs_mul, abs_of_pos pe]; cases decide (z < 0) <;> simp [sg]
      refine ⟨t, _, (logFrom_eq L .ext w hf hz).trans et, ft, fun hz1 => ?_, fun hz1 => ?_, ?_, ?_⟩
      · rw [ac, Real.exp_le_one_iff]
        have hl : Real.log ((|z| : ℚ) : ℝ) ≤ 0 := Real.log_nonpos (by positivity) (by exact_mod_cast hz1)
        rw [abs_of_nonpos hl] at h3
        have := (abs_le.mp h3).2
        nlinarith
      · rw [ac, Real.one_le_exp_iff]
        have hl : 0 ≤ Real.log ((|z| : ℚ) : ℝ) := Real.log_nonneg (by exact_mod_cast hz1)
        rw [abs_of_nonneg hl] at h3
        have := (abs_le.mp h3).1
        nlinarith
      · by_cases hn : z < 0
        · simp only [hn, sg, decide_true, if_true, Rat.cast_neg, Rat.cast_one, neg_mul, one_mul]
          constructor <;> intro <;> linarith
        · simp [hn, sg, pe, lt_of_le_of_ne (not_lt.mp hn) (Ne.symm hz)]
      · by_cases hn : z < 0
        · simp [hn, sg, pe]
        · simp [hn, sg, pe.le]
    · obtain ⟨t, e, ft⟩ := kFrom_lin (L := L) hf h
      exact ⟨t, z, e, ft, fun h => by exact_mod_cast h, fun h => by exact_mod_cast h, by exact_mod_cast Iff.rfl, by exact_mod_cast Iff.rfl⟩
  obtain ⟨tn, t0, ht⟩ := ft
  cases hv : value k t with
  | none => exact absurd (value_none.mp hv) tn
  | some y =>
    have v1 := value_one k w
    have vm : value k (-ONE w) = some (-1) := by rw [value_neg (by omega), v1]; rfl
    have vz := value_zero (w := w) k
    have o1 := value_order k hv v1
    have o1' := value_order k v1 hv
    have om := value_order k vm hv
    have om' := value_order k hv vm
    have oz := value_order k hv vz
    have oz' := value_order k vz hv
    have H1 : c ≤ 1 → y ≤ 1 := fun h => o1.mp ((ht _ _ v1).2 h)
    have H2 : 1 ≤ c → 1 ≤ y := fun h => o1'.mp ((ht _ _ v1).1 h)
    have H3 : -1 ≤ c → -1 ≤ y := fun h => om.mp ((ht _ _ vm).1 h)
    have H4 : c ≤ -1 → y ≤ -1 := fun h => om'.mp ((ht _ _ vm).2 h)
    have H5 : c ≤ 0 → y ≤ 0 := fun h => oz.mp ((ht _ _ vz).2 h)
    have H6 : 0 ≤ c → 0 ≤ y := fun h => oz'.mp ((ht _ _ vz).1 h)
    have H7 : y = 0 ↔ c = 0 := by
      rw [← t0]
      constructor
      · rintro rfl
        have := oz.mpr le_rfl
        have := oz'.mpr le_rfl
        exact BitVec.eq_of_toInt_eq (by omega)
      · rintro rfl; rw [vz] at hv; exact (Option.some.inj hv).symm
    refine ⟨t, y, e, hv, fun h => ?_, fun h => ?_, c3.trans ?_, c4.trans ?_⟩
    · obtain ⟨a, b⟩ := abs_le.mp (c1 h)
      exact abs_le.mpr ⟨H3 a, H1 b⟩
    · rcases le_abs.mp (c2 h) with a | a
      · exact (H2 a).trans (le_abs_self y)
      · have := H4 (by linarith)
        exact le_trans (by linarith) (neg_le_abs y)
    · constructor
      · intro h; exact lt_of_le_of_ne (H6 h.le) (fun h' => h.ne' (H7.mp h'.symm))
      · intro h; by_contra hc; exact absurd (H5 (not_lt.mp hc)) (not_le.mpr h)
    · constructor
      · intro h; exact lt_of_le_of_ne (H5 h.le) (fun h' => h.ne (H7.mp h'))
      · intro h; by_contra hc; exact absurd (H6 (not_lt.mp hc)) (not_le.mpr h)

end Takum
