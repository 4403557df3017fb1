import Verif.Lemmas.Order

/-!
# Order and negation of takums (C01, C02, C03)

The C comparison `a < b` on the signed integer types is `a.toInt < b.toInt`, the negation modulo
`2^n` is `-a` on bit vectors.
-/

namespace Takum
open Spec

/-- C01: integer order is the order of the represented numbers, for logarithmic takums of any width
from 5 bits on (in particular 8, 16, 32, 64); in both directions, so that different patterns are
different numbers; NaR is below everything else. -/
theorem log_order {n : ℕ} (hn : 5 ≤ n) (a b : BitVec n) (ha : a ≠ nar n) (hb : b ≠ nar n) :
    ∃ x y : ℝ, logVal a = some x ∧ logVal b = some y ∧ (a.toInt < b.toInt ↔ x < y) ∧ (x = y → a = b) :=
  ⟨_, _, logVal_val (by omega) ha, logVal_val (by omega) hb,
    (val_lt_iff hn logG_mono logG_pos ha hb).symm, val_inj hn logG_mono logG_pos ha hb⟩

example : (0x35#8 : BitVec 8) ≠ nar 8 ∧ (0xc1#8 : BitVec 8) ≠ nar 8 := by decide

/-- C01, C02: NaR compares below every other takum, and is the only pattern without a number. -/
theorem nar_least {n : ℕ} (hn : 1 ≤ n) (a : BitVec n) :
    (a ≠ nar n → (nar n).toInt < a.toInt) ∧ (logVal a = none ↔ a = nar n) ∧ (linVal a = none ↔ a = nar n) := by
  refine ⟨nar_lt hn, ?_, ?_⟩
  · unfold logVal; split_ifs <;> simp_all
  · unfold linVal; split_ifs <;> simp_all

/-- C02: the same for linear takums. -/
theorem lin_order {n : ℕ} (hn : 5 ≤ n) (a b : BitVec n) (ha : a ≠ nar n) (hb : b ≠ nar n) :
    ∃ x y : ℚ, linVal a = some x ∧ linVal b = some y ∧ (a.toInt < b.toInt ↔ x < y) ∧ (x = y → a = b) :=
  ⟨_, _, linVal_val hn ha, linVal_val hn hb,
    (val_lt_iff hn lam_strictMono lam_pos ha hb).symm, val_inj hn lam_strictMono lam_pos ha hb⟩

example : (0x35c1#16 : BitVec 16) ≠ nar 16 ∧ linVal (0x4400#16 : BitVec 16) = some (3 / 2) ∧
    linVal (0xbc00#16 : BitVec 16) = some (-3 / 2) := by decide +kernel

/-- C03: negating the integer negates the number; 0 and NaR are the only fixed points. -/
theorem neg_value {n : ℕ} (hn : 5 ≤ n) (t : BitVec n) :
    logVal (-t) = (logVal t).map (- ·) ∧ linVal (-t) = (linVal t).map (- ·) ∧
      (-t = t ↔ t = 0#n ∨ t = nar n) := by
  have e0 : -(0#n) = 0#n := by simp
  have en : -(nar n) = nar n := by
    apply BitVec.eq_of_toNat_eq
    have p1 : 2 ^ n = 2 * 2 ^ (n - 1) := by rw [← pow_succ']; congr 1; omega
    have p2 : (0 : ℕ) < 2 ^ (n - 1) := by positivity
    have hx : (nar n).toNat = 2 ^ (n - 1) := by
      unfold nar; rw [BitVec.toNat_ofNat]; exact Nat.mod_eq_of_lt (by omega)
    rw [BitVec.toNat_neg, hx]
    have : 2 ^ n - 2 ^ (n - 1) = 2 ^ (n - 1) := by omega
    rw [this]; exact Nat.mod_eq_of_lt (by omega)
  by_cases h0 : t = 0#n
  · subst h0
    rw [e0]
    refine ⟨?_, ?_, by simp⟩
    · unfold logVal; rw [if_neg (nar_ne_zero (by omega)).symm, if_pos rfl]; simp
    · unfold linVal; rw [if_neg (nar_ne_zero (by omega)).symm, if_pos rfl]; simp
  by_cases h1 : t = nar n
  · subst h1
    rw [en]
    refine ⟨?_, ?_, by simp⟩
    · unfold logVal; rw [if_pos rfl]; simp
    · unfold linVal; rw [if_pos rfl]; simp
  have h : Regular t := ⟨h0, h1⟩
  obtain ⟨hm, hl, hr, he⟩ := regular_neg hn h
  refine ⟨?_, ?_, ?_⟩
  · rw [logVal_val (by omega) h1, logVal_val (by omega) hr.2]
    unfold val
    rw [if_neg h0, if_neg hr.1, he, hm]
    cases t.msb <;> simp
  · rw [linVal_val hn h1, linVal_val hn hr.2]
    unfold val
    rw [if_neg h0, if_neg hr.1, he, hm]
    cases t.msb <;> simp
  · simp only [h0, h1, or_self, iff_false]
    intro h
    rw [h] at hm
    cases hh : t.msb <;> simp [hh] at hm

example : linVal (-(0x4400#16 : BitVec 16)) = some (-3 / 2) := by decide +kernel

end Takum
