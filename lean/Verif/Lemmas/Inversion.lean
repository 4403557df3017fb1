import Verif.Lemmas.Order
import Verif.Model.Arith

/-! # Bit-level lemmas for `takum*_inversion` -/

namespace Takum
open Spec

theorem nat_xor_mask {k x b : ℕ} (hx : x < 2 ^ k) :
    (2 ^ k * b + x) ^^^ (2 ^ k - 1) = 2 ^ k * b + (2 ^ k - 1 - x) := by
  apply Nat.eq_of_testBit_eq
  intro i
  have hy : 2 ^ k - 1 - x < 2 ^ k := by omega
  rw [Nat.testBit_xor, Nat.testBit_two_pow_mul_add _ hx, Nat.testBit_two_pow_mul_add _ hy,
    Nat.testBit_two_pow_sub_one, show 2 ^ k - 1 - x = 2 ^ k - (x + 1) by omega,
    Nat.testBit_two_pow_sub_succ hx]
  by_cases h : i < k <;> simp [h]

/-- The bit pattern of an inverse. -/
theorem inv_bits {n : ℕ} (hn : 2 ≤ n) (t mask : BitVec n) (hm : mask.toNat = 2 ^ (n - 1) - 1)
    (h : Regular t) : (t ^^^ mask) + 1#n = mkT n t.msb (2 ^ (n - 1) - low t) := by
  have hl := low_lt t
  have hp := low_pos (by omega) h
  have h2 : 2 ^ n = 2 * 2 ^ (n - 1) := by rw [← pow_succ']; congr 1; omega
  have h2' : 2 ≤ 2 ^ (n - 1) := by
    calc 2 = 2 ^ 1 := by norm_num
      _ ≤ 2 ^ (n - 1) := Nat.pow_le_pow_right (by norm_num) (by omega)
  apply BitVec.eq_of_toNat_eq
  rw [mkT_toNat (by omega) _ (by omega), BitVec.toNat_add, BitVec.toNat_xor, hm, toNat_eq (by omega) t]
  have h1 : (1#n).toNat = 1 := by rw [BitVec.toNat_ofNat]; exact Nat.mod_eq_of_lt (by omega)
  rw [h1]
  cases t.msb
  · have := nat_xor_mask (b := 0) hl
    simp only [Bool.false_eq_true, if_false, zero_mul, zero_add, mul_zero] at this ⊢
    rw [this, Nat.mod_eq_of_lt (by omega)]; omega
  · have := nat_xor_mask (b := 1) hl
    simp only [if_true, one_mul, mul_one] at this ⊢
    rw [this, Nat.mod_eq_of_lt (by omega)]; omega

theorem inversion_regular {w : W} {t : T w} (h : Regular t) :
    inversion w t = mkT w.n t.msb (2 ^ (w.n - 1) - low t) := by
  have h' : t ≠ NAR w.n := by rw [NAR_eq (by have := w.n_pos; omega)]; exact h.2
  cases w
  · exact (if_neg h').trans (inv_bits (by decide) t 0x7f#8 (by decide) h)
  · exact (if_neg h').trans (inv_bits (by decide) t 0x7fff#16 (by decide) h)
  · exact (if_neg h').trans (inv_bits (by decide) t 0x7fffffff#32 (by decide) h)
  · exact (if_neg h').trans (inv_bits (by decide) t 0x7fffffffffffffff#64 (by decide) h)

theorem inversion_nar (w : W) : inversion w (nar w.n) = nar w.n := by cases w <;> decide
theorem inversion_zero (w : W) : inversion w 0#w.n = nar w.n := by cases w <;> decide

theorem inversion_facts {w : W} {t : T w} (h : Regular t) :
    (inversion w t).msb = t.msb ∧ low (inversion w t) = 2 ^ (w.n - 1) - low t ∧
      Regular (inversion w t) ∧ ell (inversion w t) = -ell t := by
  have h8 := w.n_pos
  have hl := low_lt t
  have hp := low_pos (by omega) h
  rw [inversion_regular h]
  refine ⟨mkT_msb (by omega) _ (by omega), mkT_low (by omega) _ (by omega),
    regular_mkT (by omega) _ (by omega) (by omega), ?_⟩
  rw [ell_mkT (by omega) _ (by omega), ell_sg (by omega)]
  have e : (((2 ^ (w.n - 1) - low t : ℕ) : ℚ)) / ((2 ^ (w.n - 5) : ℕ) : ℚ) = 16 - pos t := by
    have hW : (0 : ℚ) < ((2 ^ (w.n - 5) : ℕ) : ℚ) := by positivity
    rw [Nat.cast_sub hl.le, pow16 (by omega), Nat.cast_mul, sub_div, mul_div_assoc, div_self hW.ne']
    unfold pos; norm_num
  rw [e, psi_symm (pos_pos (by omega) h) (pos_lt (by omega) t)]; ring

end Takum
