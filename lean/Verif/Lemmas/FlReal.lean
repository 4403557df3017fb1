import Verif.Lemmas.Fl
import Mathlib.Analysis.SpecialFunctions.Pow.Real

/-! # Rounding of real numbers -/

namespace Takum

theorem log_cast (q : ℚ) : Int.log 2 ((q : ℚ) : ℝ) = Int.log 2 q := by
  rcases lt_or_ge 0 q with h | h
  · have hr : (0 : ℝ) < q := by exact_mod_cast h
    apply le_antisymm
    · apply (Int.zpow_le_iff_le_log (b := 2) (by norm_num) h).mp
      have := Int.zpow_log_le_self (b := 2) (by norm_num) hr
      have h2 : (((2 : ℚ) ^ Int.log 2 (q : ℝ) : ℚ) : ℝ) ≤ q := by push_cast; exact_mod_cast this
      exact_mod_cast h2
    · apply (Int.zpow_le_iff_le_log (b := 2) (by norm_num) hr).mp
      have := Int.zpow_log_le_self (b := 2) (by norm_num) h
      have h2 : (2 : ℚ) ^ Int.log 2 q ≤ q := by exact_mod_cast this
      have h3 := (Rat.cast_le (K := ℝ)).mpr h2
      push_cast at h3 ⊢; exact h3
  · rw [Int.log_of_right_le_zero _ h, Int.log_of_right_le_zero _ (by exact_mod_cast h)]

theorem rne_cast (q : ℚ) : rne ((q : ℚ) : ℝ) = rne q := by
  apply IsRne.eq
  have h := rne_isRne q
  unfold IsRne at *
  have e : |(q : ℝ) - (rne q : ℤ)| = ((|q - (rne q : ℤ)| : ℚ) : ℝ) := by push_cast; rfl
  rw [e]
  rcases h with h | ⟨h, h'⟩
  · left
    have := (Rat.cast_lt (K := ℝ)).mpr h
    push_cast at this ⊢; exact this
  · right; refine ⟨?_, h'⟩
    rw [h]; norm_num

namespace Fmt

theorem qexp_cast (F : Fmt) (q : ℚ) : F.qexp ((q : ℚ) : ℝ) = F.qexp q := by
  unfold qexp
  rw [show |(q : ℝ)| = ((|q| : ℚ) : ℝ) by push_cast; rfl, log_cast]

theorem rq_cast (F : Fmt) (q : ℚ) : F.rq ((q : ℚ) : ℝ) = F.rq q := by
  unfold rq
  rw [qexp_cast]
  rw [show (q : ℝ) / (2 : ℝ) ^ F.qexp q = ((q / (2 : ℚ) ^ F.qexp q : ℚ) : ℝ) by push_cast; rfl, rne_cast]

theorem rq_real_le (F : Fmt) (hp : 1 ≤ F.prec) {x : ℝ} {b : ℚ} (hb : F.Rep b) (h : x ≤ b) : F.rq x ≤ b := by
  have := F.rq_mono hp h
  rwa [rq_cast, F.rq_of_rep hb] at this

theorem le_rq_real (F : Fmt) (hp : 1 ≤ F.prec) {x : ℝ} {b : ℚ} (hb : F.Rep b) (h : b ≤ x) : b ≤ F.rq x := by
  have := F.rq_mono hp h
  rwa [rq_cast, F.rq_of_rep hb] at this

/-- The result of rounding a real number is a number of the format. -/
theorem rq_real_rep (F : Fmt) (hp : 1 ≤ F.prec) (x : ℝ) : F.Rep (F.rq x) := by
  by_cases hx : x = 0
  · subst hx
    have := rq_cast F 0
    push_cast at this
    rw [this, F.rq_of_rep (Rep.zero F)]; exact Rep.zero F
  set j := F.qexp x with hj
  have hje : F.emin ≤ j := le_max_right _ _
  have hpos : (0 : ℝ) < (2 : ℝ) ^ j := zpow_pos (by norm_num) _
  have hx2 : |x| < (2 : ℝ) ^ (j + F.prec) := by
    calc |x| < ((2 : ℕ) : ℝ) ^ (Int.log 2 |x| + 1) := Int.lt_zpow_succ_log_self (by norm_num) _
      _ = (2 : ℝ) ^ (Int.log 2 |x| + 1) := by norm_num
      _ ≤ (2 : ℝ) ^ (j + F.prec) := by
        apply zpow_le_zpow_right₀ (by norm_num)
        have : Int.log 2 |x| - (F.prec - 1) ≤ j := le_max_left _ _
        omega
  have hb : |rne (x / (2 : ℝ) ^ j)| ≤ 2 ^ F.prec := by
    have h1 : |x / (2 : ℝ) ^ j| ≤ ((2 ^ F.prec : ℤ) : ℝ) := by
      rw [abs_div, abs_of_pos hpos, div_le_iff₀ hpos]
      push_cast
      rw [zpow_add₀ (by norm_num), mul_comm] at hx2
      exact_mod_cast hx2.le
    rw [abs_le] at h1 ⊢
    constructor
    · apply le_rne_of_le; push_cast at h1 ⊢; exact h1.1
    · exact rne_le_of_le h1.2
  have hrep : ∀ m : ℤ, |m| ≤ 2 ^ F.prec → F.Rep (m * (2 : ℚ) ^ j) := by
    intro m hm
    rcases lt_or_eq_of_le hm with h | h
    · exact ⟨_, j, rfl, h, hje⟩
    · have key : F.Rep ((2 : ℚ) ^ (j + F.prec)) := Rep.zpow hp (by omega)
      have e1 : ((2 ^ F.prec : ℤ) : ℚ) * (2 : ℚ) ^ j = (2 : ℚ) ^ (j + F.prec) := by
        rw [zpow_add₀ (by norm_num)]; push_cast; rw [mul_comm]; norm_cast
      rcases (abs_eq (by positivity)).mp h with h | h
      · rw [h, e1]; exact key
      · rw [h]; push_cast; rw [neg_mul]; apply Rep.neg
        have := e1; push_cast at this; rw [this]; exact key
  exact hrep _ hb

end Fmt
end Takum
