import Verif.Lemmas.ElemAll

/-!
# The branches of the trigonometric functions of multiples of π (for C45)
-/

namespace Takum
open Spec

theorem fmod_zero_iff {m : ℕ} (hm : 0 < m) (v : ℚ) : v - Fl.trunc (v / m) * m = 0 ↔ ∃ n : ℤ, v = n * m := by
  have hm' : (m : ℚ) ≠ 0 := by exact_mod_cast hm.ne'
  constructor
  · intro h; exact ⟨Fl.trunc (v / m), by linarith⟩
  · rintro ⟨n, rfl⟩
    rw [mul_div_cancel_right₀ _ hm', Fl.trunc_int]; ring

theorem fmod_pos_iff {m : ℕ} (hm : 0 < m) {c : ℚ} (h0 : 0 < c) (h1 : c < m) (v : ℚ) :
    v - Fl.trunc (v / m) * m = c ↔ ∃ n : ℕ, v = n * m + c := by
  have hm' : (0 : ℚ) < m := by exact_mod_cast hm
  constructor
  · intro h
    have hv : 0 ≤ v / m := by
      by_contra hn
      push Not at hn
      have e : Fl.trunc (v / m) = ⌈v / m⌉ := by unfold Fl.trunc; rw [if_neg (not_le.mpr hn)]
      have := Int.le_ceil (v / m)
      rw [e] at h
      rw [div_le_iff₀ hm'] at this
      linarith
    have e : Fl.trunc (v / m) = ⌊v / m⌋ := by unfold Fl.trunc; rw [if_pos hv]
    obtain ⟨n, hn⟩ := Int.eq_ofNat_of_zero_le (Int.floor_nonneg.mpr hv)
    rw [e, hn] at h
    refine ⟨n, ?_⟩
    push_cast at h; linarith
  · rintro ⟨n, rfl⟩
    have e1 : ((n : ℚ) * m + c) / m = n + c / m := by field_simp
    have c0 : 0 < c / m := div_pos h0 hm'
    have c1 : c / m < 1 := (div_lt_one hm').mpr h1
    have e : Fl.trunc (((n : ℚ) * m + c) / m) = n := by
      unfold Fl.trunc
      rw [e1, if_pos (by positivity), Int.floor_eq_iff]
      push_cast; constructor <;> linarith
    rw [e]; push_cast; ring

/-- The `long double` result is an ordinary number. -/
def Ordinary (L : Libm) (u : UFun) (r : Fl) : Prop := ∃ ε y : ℝ, ε ≤ 8 / 2 ^ 64 ∧ Mod y ∧ y ≠ 0 ∧ Near x80 ε y (u.evl L r)

theorem Ordinary.one {L : Libm} {u : UFun} {r : Fl} {c : ℚ} (hc : c = 1 ∨ c = -1) (h : u.evl L r = .num c) : Ordinary L u r := by
  have z1 : (2 : ℝ) ^ (-900 : ℤ) ≤ 1 := by have := z_le (show (-900 : ℤ) ≤ 0 by norm_num); simpa using this
  have one : x80.In 1 := one_in (F := x80) (by simp)
  have a : |((c : ℚ) : ℝ)| = 1 := by rcases hc with rfl | rfl <;> simp
  refine ⟨0, c, by positivity, mod_of (fun _ => by rw [a]; exact z1) (by rw [a]; exact le440.2.2), ?_, ?_⟩
  · rcases hc with rfl | rfl <;> norm_num
  · rw [h]
    refine ⟨c, Fl.Is.num (by rcases hc with rfl | rfl <;> norm_num), ?_, by simp⟩
    rcases hc with rfl | rfl
    · exact one
    · exact In_neg one

section
variable {L : Libm} (hA : L.Approximates) {k : Kind} {w : W} {r : Fl} {v : ℚ} {x : ℝ} (h : Arg' k w r v x)
include hA h

/-- The products with `PI` that are left to the library are ordinary. -/
theorem ordinary_of (hv : v ≠ 0) :
    (∀ u : UFun, u.evl L r = L.sin x80 (Fl.mul x80 PI r) → Ordinary L u r) ∧
    (∀ u : UFun, u.evl L r = L.cos x80 (Fl.mul x80 PI r) → Ordinary L u r) ∧
    (∀ u : UFun, u.evl L r = L.tan x80 (Fl.mul x80 PI r) → Ordinary L u r) ∧
    (∀ u : UFun, u.evl L r = cscl L (Fl.mul x80 PI r) → Ordinary L u r) ∧
    (∀ u : UFun, u.evl L r = secl L (Fl.mul x80 PI r) → Ordinary L u r) ∧
    (∀ u : UFun, u.evl L r = cotl L (Fl.mul x80 PI r) → Ordinary L u r) := by
  obtain ⟨p, i, t, p0, -⟩ := pi_mul (kF_std k w) h.toArg hv h.le'
  have s0 := sin_ne t p0
  have c0 := cos_ne t
  have t0 : Real.tan p ≠ 0 := by rw [Real.tan_eq_sin_div_cos]; exact div_ne_zero s0 c0
  have S := (hA.sin x80 (Or.inr rfl) _ p i t.rep).near (mod_sin t)
  have C := (hA.cos x80 (Or.inr rfl) _ p i t.rep).near (mod_cos t)
  have T := (hA.tan x80 (Or.inr rfl) _ p i t.rep).near (mod_tan t)
  have e1 : (4 : ℝ) / 2 ^ x80.prec ≤ 8 / 2 ^ 64 := by norm_num [prec80]
  have e2 : (4 : ℝ) / 2 ^ x80.prec * (1 + 1 / 2 ^ 30) + 1.25 / 2 ^ x80.prec ≤ 8 / 2 ^ 64 := by norm_num [prec80]
  have e3 : (4 : ℝ) / 2 ^ x80.prec ≤ 1 / 2 ^ 40 := by norm_num [prec80]
  refine ⟨fun u e => ⟨_, _, e1, mod_sin t, s0, e ▸ S⟩, fun u e => ⟨_, _, e1, mod_cos t, c0, e ▸ C⟩, fun u e => ⟨_, _, e1, mod_tan t, t0, e ▸ T⟩,
    fun u e => ⟨_, _, e2, (mod_sin t).inv, one_div_ne_zero s0, e ▸ S.inv (Or.inr rfl) (mod_sin t) s0 e3⟩,
    fun u e => ⟨_, _, e2, (mod_cos t).inv, one_div_ne_zero c0, e ▸ C.inv (Or.inr rfl) (mod_cos t) c0 e3⟩,
    fun u e => ⟨_, _, e2, (mod_tan t).inv, one_div_ne_zero t0, e ▸ T.inv (Or.inr rfl) (mod_tan t) t0 e3⟩⟩

/-- What the six functions return in `long double`. -/
theorem pi_classes :
    ((((∃ n : ℤ, v = n * 2) ∨ ∃ n : ℕ, v = n) ∧ sinpil L r = .zero false ∧ cscPiTimesl L r = .nan) ∨
      (¬((∃ n : ℤ, v = n * 2) ∨ ∃ n : ℕ, v = n) ∧ Ordinary L .sin_pi_times r ∧ Ordinary L .csc_pi_times r)) ∧
    (((∃ n : ℕ, v = n + 1 / 2) ∧ cospil L r = .zero false ∧ secPiTimesl L r = .nan) ∨
      ((¬∃ n : ℕ, v = n + 1 / 2) ∧ Ordinary L .cos_pi_times r ∧ Ordinary L .sec_pi_times r)) ∧
    (((∃ n : ℤ, v = n) ∧ tanpil L r = .zero false ∧ cotPiTimesl L r = .nan) ∨
      ((∃ n : ℕ, v = n + 1 / 2) ∧ tanpil L r = .nan ∧ cotPiTimesl L r = .zero false) ∨
      ((¬∃ n : ℤ, v = n) ∧ (¬∃ n : ℕ, v = n + 1 / 2) ∧ Ordinary L .tan_pi_times r ∧ Ordinary L .cot_pi_times r)) := by
  have n : ∀ q : ℚ, q ≠ 0 → (Fl.num q).Is q := fun q hq => Fl.Is.num hq
  have a0 : Fl.eq (Fl.fmod r (.num 2)) (.zero false) = true ↔ ∃ n : ℤ, v = n * 2 :=
    (fm h.toArg (Fl.Is.zero false)).trans (by simpa using fmod_zero_iff (m := 2) (by norm_num) v)
  have a1 : Fl.eq (Fl.fmod r (.num 2)) (.num (1 / 2)) = true ↔ ∃ n : ℕ, v = n * 2 + 1 / 2 :=
    (fm h.toArg (n (1 / 2) (by norm_num))).trans (by exact_mod_cast fmod_pos_iff (m := 2) (by norm_num) (c := 1 / 2) (by norm_num) (by norm_num) v)
  have a2 : Fl.eq (Fl.fmod r (.num 2)) (.num 1) = true ↔ ∃ n : ℕ, v = n * 2 + 1 :=
    (fm h.toArg (n 1 (by norm_num))).trans (by exact_mod_cast fmod_pos_iff (m := 2) (by norm_num) (c := 1) (by norm_num) (by norm_num) v)
  have a3 : Fl.eq (Fl.fmod r (.num 2)) (.num (3 / 2)) = true ↔ ∃ n : ℕ, v = n * 2 + 3 / 2 :=
    (fm h.toArg (n (3 / 2) (by norm_num))).trans (by exact_mod_cast fmod_pos_iff (m := 2) (by norm_num) (c := 3 / 2) (by norm_num) (by norm_num) v)
  have b0 : Fl.eq (Fl.fmod r (.num 1)) (.zero false) = true ↔ ∃ n : ℤ, v = n :=
    (fm h.toArg (Fl.Is.zero false)).trans (by simpa using fmod_zero_iff (m := 1) (by norm_num) v)
  have b1 : Fl.eq (Fl.fmod r (.num 1)) (.num (1 / 2)) = true ↔ ∃ n : ℕ, v = n + 1 / 2 :=
    (fm h.toArg (n (1 / 2) (by norm_num))).trans (by simpa using fmod_pos_iff (m := 1) (by norm_num) (c := 1 / 2) (by norm_num) (by norm_num) v)
  have nat : ∀ m : ℕ, (∃ j : ℤ, (m : ℚ) = j * 2) ∨ ∃ j : ℕ, (m : ℚ) = j * 2 + 1 := by
    intro m
    rcases Nat.even_or_odd' m with ⟨j, rfl | rfl⟩
    · exact .inl ⟨j, by push_cast; ring⟩
    · exact .inr ⟨j, by push_cast; ring⟩
  have half : (∃ n : ℕ, v = n + 1 / 2) ↔ (∃ n : ℕ, v = n * 2 + 1 / 2) ∨ ∃ n : ℕ, v = n * 2 + 3 / 2 := by
    constructor
    · rintro ⟨m, rfl⟩
      rcases Nat.even_or_odd' m with ⟨j, rfl | rfl⟩
      · exact .inl ⟨j, by push_cast; ring⟩
      · exact .inr ⟨j, by push_cast; ring⟩
    · rintro (⟨j, rfl⟩ | ⟨j, rfl⟩)
      · exact ⟨2 * j, by push_cast; ring⟩
      · exact ⟨2 * j + 1, by push_cast; ring⟩
  have int : ((∃ n : ℤ, v = n * 2) ∨ ∃ n : ℕ, v = n) ↔ (∃ n : ℤ, v = n * 2) ∨ ∃ n : ℕ, v = n * 2 + 1 := by
    constructor
    · rintro (h | ⟨m, rfl⟩)
      · exact .inl h
      · exact nat m
    · rintro (h | ⟨j, rfl⟩)
      · exact .inl h
      · exact .inr ⟨2 * j + 1, by push_cast; ring⟩
  rw [int, half, ← a0, ← a1, ← a2, ← a3, ← b0]
  have v0 : ∀ (hz : ¬Fl.eq (Fl.fmod r (.num 2)) (.zero false) = true), v ≠ 0 := fun hz => fm_ne_zero h.toArg hz
  have v0' : ∀ (hz : ¬Fl.eq (Fl.fmod r (.num 1)) (.zero false) = true), v ≠ 0 := fun hz => fm_ne_zero h.toArg hz
  -- the tests exclude each other
  have m := fmod_is (p := 2) h.is
  have ex : ∀ {f g : Fl} {c d : ℚ}, f.Is c → g.Is d → c ≠ d → Fl.eq (Fl.fmod r (.num 2)) f = true → ¬Fl.eq (Fl.fmod r (.num 2)) g = true := by
    intro f g c d hf hg hcd h1 h2
    exact hcd (((Fl.eq_iff m hf).mp h1).symm.trans ((Fl.eq_iff m hg).mp h2))
  have i0 := Fl.Is.zero false
  have i1 := n (1 / 2) (by norm_num)
  have i2 := n 1 (by norm_num)
  have i3 := n (3 / 2) (by norm_num)
  refine ⟨?_, ?_, ?_⟩
  · by_cases h0 : Fl.eq (Fl.fmod r (.num 2)) (.zero false) = true
    · exact .inl ⟨.inl h0, by unfold sinpil; simp only [h0, if_true], by unfold cscPiTimesl; simp only [h0, if_true]⟩
    by_cases h1 : Fl.eq (Fl.fmod r (.num 2)) (.num (1 / 2)) = true
    · have h2 := ex i1 i2 (by norm_num) h1
      refine .inr ⟨not_or.mpr ⟨h0, h2⟩, .one (.inl rfl) ?_, .one (.inl rfl) ?_⟩
      · show sinpil L r = _; unfold sinpil; simp only [h0, h1, if_true, if_false, Bool.false_eq_true]
      · show cscPiTimesl L r = _; unfold cscPiTimesl; simp only [h0, h1, if_true, if_false, Bool.false_eq_true]
    by_cases h2 : Fl.eq (Fl.fmod r (.num 2)) (.num 1) = true
    · exact .inl ⟨.inr h2, by unfold sinpil; simp only [h0, h1, h2, if_true, if_false, Bool.false_eq_true],
        by unfold cscPiTimesl; simp only [h0, h1, h2, if_true, if_false, Bool.false_eq_true]⟩
    by_cases h3 : Fl.eq (Fl.fmod r (.num 2)) (.num (3 / 2)) = true
    · refine .inr ⟨not_or.mpr ⟨h0, h2⟩, .one (.inr rfl) ?_, .one (.inr rfl) ?_⟩
      · show sinpil L r = _; unfold sinpil; simp only [h0, h1, h2, h3, if_true, if_false, Bool.false_eq_true]
      · show cscPiTimesl L r = _; unfold cscPiTimesl; simp only [h0, h1, h2, h3, if_true, if_false, Bool.false_eq_true]
    obtain ⟨S, -, -, C, -, -⟩ := ordinary_of hA h (v0 h0)
    refine .inr ⟨not_or.mpr ⟨h0, h2⟩, S _ ?_, C _ ?_⟩
    · show sinpil L r = _; unfold sinpil; simp only [h0, h1, h2, h3, if_false, Bool.false_eq_true]
    · show cscPiTimesl L r = _; unfold cscPiTimesl; simp only [h0, h1, h2, h3, if_false, Bool.false_eq_true]
  · by_cases h0 : Fl.eq (Fl.fmod r (.num 2)) (.zero false) = true
    · have h1 := ex i0 i1 (by norm_num) h0
      have h3 := ex i0 i3 (by norm_num) h0
      refine .inr ⟨not_or.mpr ⟨h1, h3⟩, .one (.inl rfl) ?_, .one (.inl rfl) ?_⟩
      · show cospil L r = _; unfold cospil; simp only [h0, if_true]
      · show secPiTimesl L r = _; unfold secPiTimesl; simp only [h0, if_true]
    by_cases h1 : Fl.eq (Fl.fmod r (.num 2)) (.num (1 / 2)) = true
    · exact .inl ⟨.inl h1, by unfold cospil; simp only [h0, h1, if_true, if_false, Bool.false_eq_true],
        by unfold secPiTimesl; simp only [h0, h1, if_true, if_false, Bool.false_eq_true]⟩
    by_cases h2 : Fl.eq (Fl.fmod r (.num 2)) (.num 1) = true
    · have h3 := ex i2 i3 (by norm_num) h2
      refine .inr ⟨not_or.mpr ⟨h1, h3⟩, .one (.inr rfl) ?_, .one (.inr rfl) ?_⟩
      · show cospil L r = _; unfold cospil; simp only [h0, h1, h2, if_true, if_false, Bool.false_eq_true]
      · show secPiTimesl L r = _; unfold secPiTimesl; simp only [h0, h1, h2, if_true, if_false, Bool.false_eq_true]
    by_cases h3 : Fl.eq (Fl.fmod r (.num 2)) (.num (3 / 2)) = true
    · exact .inl ⟨.inr h3, by unfold cospil; simp only [h0, h1, h2, h3, if_true, if_false, Bool.false_eq_true],
        by unfold secPiTimesl; simp only [h0, h1, h2, h3, if_true, if_false, Bool.false_eq_true]⟩
    obtain ⟨-, S, -, -, C, -⟩ := ordinary_of hA h (v0 h0)
    refine .inr ⟨not_or.mpr ⟨h1, h3⟩, S _ ?_, C _ ?_⟩
    · show cospil L r = _; unfold cospil; simp only [h0, h1, h2, h3, if_false, Bool.false_eq_true]
    · show secPiTimesl L r = _; unfold secPiTimesl; simp only [h0, h1, h2, h3, if_false, Bool.false_eq_true]
  · rw [a1, a3, ← half, ← b1]
    by_cases h0 : Fl.eq (Fl.fmod r (.num 1)) (.zero false) = true
    · exact .inl ⟨h0, by unfold tanpil; simp only [h0, if_true], by unfold cotPiTimesl; simp only [h0, if_true]⟩
    by_cases h1 : Fl.eq (Fl.fmod r (.num 1)) (.num (1 / 2)) = true
    · exact .inr (.inl ⟨h1, by unfold tanpil; simp only [h0, h1, if_true, if_false, Bool.false_eq_true],
        by unfold cotPiTimesl; simp only [h0, h1, if_true, if_false, Bool.false_eq_true]⟩)
    obtain ⟨-, -, S, -, -, C⟩ := ordinary_of hA h (v0' h0)
    refine .inr (.inr ⟨h0, h1, S _ ?_, C _ ?_⟩)
    · show tanpil L r = _; unfold tanpil; simp only [h0, h1, if_false, Bool.false_eq_true]
    · show cotPiTimesl L r = _; unfold cotPiTimesl; simp only [h0, h1, if_false, Bool.false_eq_true]

end
end Takum
