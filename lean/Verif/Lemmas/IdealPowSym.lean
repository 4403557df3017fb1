import Verif.PowSymSpec
import Verif.Lemmas.IdealSym
import Verif.Lemmas.IdealMono

/-! # The ideal `pow` is symmetric -/

namespace Takum

theorem idealPow_rnd {F : Fmt} (hF : F = b64 ∨ F = x80) {p : ℚ} {n : ℤ} (_hn : n ≠ 0) : idealPow F (.num p) (.num n) = rnd F ((p : ℝ) ^ n) := by
  by_cases h : p = 1
  · subst h; unfold idealPow; rw [if_pos (by simp), Rat.cast_one, one_zpow, rnd_one hF]
  · rw [idealPow_num h, if_neg (by simp)]
    congr 1
    rw [Rat.cast_intCast]
    exact Real.rpow_intCast _ _

theorem ideal_pow_symmetric : ideal.PowSymmetric where
  even F hF p y k hp _ hy _ := by
    rcases hy.cases with ⟨h0, rfl⟩ | ⟨_, s, rfl⟩
    · have k0 : (2 * k : ℤ) ≠ 0 := by exact_mod_cast h0
      have e : (2 * (k : ℚ)) = ((2 * k : ℤ) : ℚ) := by push_cast; ring
      rw [e]
      show idealPow F _ _ = idealPow F _ _
      rw [idealPow_rnd hF k0, idealPow_rnd hF k0]
      congr 1
      rw [Rat.cast_neg, Even.neg_zpow (even_two_mul k)]
    · show idealPow F _ _ = idealPow F _ _
      cases s <;> simp [idealPow]
  odd F hF p y k hp _ hy _ := by
    have h0 : (2 * (k : ℚ) + 1) ≠ 0 := by
      have : (2 * k + 1 : ℤ) ≠ 0 := by omega
      exact_mod_cast this
    rw [hy.eq_num h0]
    have k0 : (2 * k + 1 : ℤ) ≠ 0 := by omega
    have e : (2 * (k : ℚ) + 1) = ((2 * k + 1 : ℤ) : ℚ) := by push_cast; ring
    rw [e]
    show idealPow F _ _ = (idealPow F _ _).neg
    rw [idealPow_rnd hF k0, idealPow_rnd hF k0, Rat.cast_neg, Odd.neg_zpow (odd_two_mul_add_one k)]
    exact rnd_neg (zpow_ne_zero _ (by exact_mod_cast hp))

end Takum
