import Verif.Model.Codec
import Verif.Lemmas.Format
import Verif.Lemmas.Fl
import Mathlib.Tactic.IntervalCases
import Mathlib.Data.Nat.Bitwise

/-!
# Lemmas on the bit-level parts of the codec
-/

namespace Takum
open Spec

theorem NAR_eq {n : ℕ} (hn : 1 ≤ n) : NAR n = nar n := by
  apply BitVec.eq_of_toNat_eq
  have h2 : 2 ^ n = 2 * 2 ^ (n - 1) := by rw [← pow_succ']; congr 1; omega
  have h3 : (2 : ℤ) ^ n = 2 * 2 ^ (n - 1) := by exact_mod_cast h2
  have h0 : (0 : ℤ) < 2 ^ (n - 1) := by positivity
  rw [nar_eq, mkT_toNat hn _ (by positivity)]
  unfold NAR
  rw [BitVec.toNat_ofInt]
  have : (-2 ^ (n - 1) : ℤ) % ((2 ^ n : ℕ) : ℤ) = 2 ^ (n - 1) := by
    push_cast
    rw [h3, Int.emod_eq_iff (by positivity)]
    refine ⟨by positivity, ?_, ⟨1, by ring⟩⟩
    omega
  rw [this]
  have : ((2 : ℤ) ^ (n - 1)) = ((2 ^ (n - 1) : ℕ) : ℤ) := by push_cast; rfl
  rw [this, Int.toNat_natCast]
  simp

theorem W.n_pos (w : W) : 8 ≤ w.n := by cases w <;> decide

theorem isNeg_eq {n : ℕ} (t : BitVec n) : isNeg t = t.msb := by
  unfold isNeg; rw [BitVec.slt_zero_eq_msb]

theorem isPos_eq {n : ℕ} (t : BitVec n) : isPos t = (!t.msb && t != 0#n) := by
  unfold isPos
  rw [BitVec.slt_eq_decide]
  have h : t.toInt < 0 ↔ t.msb = true := by
    rw [← BitVec.slt_zero_eq_msb, BitVec.slt_eq_decide]; simp
  have h0 : t.toInt = 0 ↔ t = 0#n := by
    constructor
    · intro h; exact BitVec.eq_of_toInt_eq (by simpa using h)
    · rintro rfl; simp
  simp only [BitVec.toInt_zero]
  by_cases hm : t.msb = true
  · have := h.mpr hm
    simp [hm, not_lt.mpr this.le]
  · have h1 : ¬ t.toInt < 0 := fun h' => hm (h.mp h')
    simp only [Bool.not_eq_true] at hm
    simp only [hm, Bool.not_false, Bool.true_and]
    by_cases hz : t = 0#n
    · simp [hz]
    · have : t.toInt ≠ 0 := fun h' => hz (h0.mp h')
      have h2 : (t != 0#n) = true := by simpa using hz
      rw [h2, decide_eq_true_iff]; omega

theorem shl_ok {n : ℕ} {x : BitVec n} {k : ℕ} (h1 : n < 32 → k < 32 ∧ x.toNat * 2 ^ k < 2 ^ 31)
    (h2 : k < n ∨ n < 32) : shl x (k : ℤ) = .ok (x <<< k) := by
  unfold shl
  split
  · rename_i hn
    obtain ⟨h3, h4⟩ := h1 hn
    unfold shlInt
    have h5 : ((x.toNat : ℤ) * 2 ^ k < 2 ^ 31) := by exact_mod_cast h4
    rw [if_pos (by simp only [Int.toNat_natCast]; refine ⟨by omega, by omega, by omega, h5⟩)]
    simp only [Int.toNat_natCast]
    change Except.ok _ = _
    congr 1
    apply BitVec.eq_of_toNat_eq
    rw [BitVec.toNat_ofInt, BitVec.toNat_shiftLeft, Nat.shiftLeft_eq]
    have : ((x.toNat : ℤ) * 2 ^ k) = ((x.toNat * 2 ^ k : ℕ) : ℤ) := by push_cast; ring
    rw [this, ← Int.natCast_mod, Int.toNat_natCast]
  · rename_i hn
    have h3 : k < n := by omega
    unfold shlU
    rw [if_pos ⟨Int.natCast_nonneg k, by exact_mod_cast h3⟩, Int.toNat_natCast]

theorem rne_div (a d : ℕ) : rne ((a : ℚ) / ((2 ^ d : ℕ) : ℚ)) =
    (a / 2 ^ d : ℕ) + if 2 ^ d < 2 * (a % 2 ^ d) ∨ (2 ^ d = 2 * (a % 2 ^ d) ∧ (a / 2 ^ d) % 2 = 1)
      then 1 else 0 := by
  have hpos : (0 : ℚ) < ((2 ^ d : ℕ) : ℚ) := by positivity
  have hlt : a % 2 ^ d < 2 ^ d := Nat.mod_lt _ (by positivity)
  have e : (a : ℚ) / ((2 ^ d : ℕ) : ℚ) = ((a / 2 ^ d : ℕ) : ℤ) + ((a % 2 ^ d : ℕ) : ℚ) / ((2 ^ d : ℕ) : ℚ) := by
    have := Nat.div_add_mod a (2 ^ d)
    have : (a : ℚ) = ((2 ^ d : ℕ) : ℚ) * ((a / 2 ^ d : ℕ) : ℚ) + ((a % 2 ^ d : ℕ) : ℚ) := by
      exact_mod_cast this.symm
    rw [div_eq_iff hpos.ne', add_mul, div_mul_cancel₀ _ hpos.ne', mul_comm, Int.cast_natCast]
    exact this
  have hf : ⌊(a : ℚ) / ((2 ^ d : ℕ) : ℚ)⌋ = (a / 2 ^ d : ℕ) := by
    rw [e, Int.floor_intCast_add]
    have : ⌊((a % 2 ^ d : ℕ) : ℚ) / ((2 ^ d : ℕ) : ℚ)⌋ = 0 := by
      rw [Int.floor_eq_zero_iff]
      constructor
      · positivity
      · rw [div_lt_one hpos]; exact_mod_cast hlt
    rw [this]; simp
  have hfr : Int.fract ((a : ℚ) / ((2 ^ d : ℕ) : ℚ)) = ((a % 2 ^ d : ℕ) : ℚ) / ((2 ^ d : ℕ) : ℚ) := by
    unfold Int.fract; rw [hf]; rw [e]; push_cast; ring
  unfold rne
  rw [hf, hfr]
  have c1 : ((a % 2 ^ d : ℕ) : ℚ) / ((2 ^ d : ℕ) : ℚ) < 1 / 2 ↔ 2 * (a % 2 ^ d) < 2 ^ d := by
    rw [div_lt_iff₀ hpos]
    constructor
    · intro h
      have h' : (2 : ℚ) * ((a % 2 ^ d : ℕ) : ℚ) < ((2 ^ d : ℕ) : ℚ) := by linarith
      exact_mod_cast h'
    · intro h
      have h' : (2 : ℚ) * ((a % 2 ^ d : ℕ) : ℚ) < ((2 ^ d : ℕ) : ℚ) := by exact_mod_cast h
      linarith
  have c2 : 1 / 2 < ((a % 2 ^ d : ℕ) : ℚ) / ((2 ^ d : ℕ) : ℚ) ↔ 2 ^ d < 2 * (a % 2 ^ d) := by
    rw [lt_div_iff₀ hpos]
    constructor
    · intro h
      have h' : ((2 ^ d : ℕ) : ℚ) < (2 : ℚ) * ((a % 2 ^ d : ℕ) : ℚ) := by linarith
      exact_mod_cast h'
    · intro h
      have h' : ((2 ^ d : ℕ) : ℚ) < (2 : ℚ) * ((a % 2 ^ d : ℕ) : ℚ) := by exact_mod_cast h
      linarith
  simp only [c1, c2]
  generalize a % 2 ^ d = r at *
  generalize a / 2 ^ d = q at *
  generalize 2 ^ d = P at *
  split_ifs <;> omega

/-- The rounding routine of `util.c` rounds to nearest, ties to even. -/
theorem utilRound_spec {N nb : ℕ} (input : BitVec N) (h1 : 1 ≤ nb) (h2 : nb < N) :
    ∃ v : BitVec N, utilRound input nb = .ok v ∧
      (v.toNat : ℤ) = rne ((input.toNat : ℚ) / ((2 ^ (N - nb) : ℕ) : ℚ)) := by
  obtain ⟨d, hd⟩ : ∃ d, N = nb + d := ⟨N - nb, by omega⟩
  have hd1 : 1 ≤ d := by omega
  have hone : (1#N).toNat = 1 := by
    rw [BitVec.toNat_ofNat]; exact Nat.mod_eq_of_lt (Nat.one_lt_two_pow (by omega))
  have hp31 : N < 32 → 2 ^ d < 2 ^ 31 := fun h => Nat.pow_lt_pow_right (by norm_num) (by omega)
  have e1 : ((N : ℤ) - nb - 1) = ((d - 1 : ℕ) : ℤ) := by omega
  have e2 : ((N : ℤ) - nb) = ((d : ℕ) : ℤ) := by omega
  have s1 : shl 1#N ((N : ℤ) - nb - 1) = .ok (1#N <<< (d - 1)) := by
    rw [e1]; apply shl_ok
    · intro h; refine ⟨by omega, ?_⟩
      rw [hone, one_mul]
      exact Nat.pow_lt_pow_right (by norm_num) (by omega)
    · omega
  have s2 : shl 1#N ((N : ℤ) - nb) = .ok (1#N <<< d) := by
    rw [e2]; apply shl_ok
    · intro h; refine ⟨by omega, ?_⟩
      rw [hone, one_mul]; exact hp31 h
    · omega
  have s3 : shrU input ((N : ℤ) - nb) = .ok (input >>> d) := by
    rw [e2]; unfold shrU
    rw [if_pos ⟨by omega, by omega⟩]; simp
  have ed : N - nb = d := by omega
  have hN : 2 ^ N = 2 ^ nb * 2 ^ d := by rw [hd, pow_add]
  have hd2 : 2 ^ d = 2 * 2 ^ (d - 1) := by rw [← pow_succ']; congr 1; omega
  have hnb : 2 ≤ 2 ^ nb := by
    calc 2 = 2 ^ 1 := by norm_num
      _ ≤ 2 ^ nb := Nat.pow_le_pow_right (by norm_num) h1
  have hdN : 2 ^ d < 2 ^ N := Nat.pow_lt_pow_right (by norm_num) (by omega)
  have m1 : (1#N <<< (d - 1)).toNat = 2 ^ (d - 1) := by
    rw [BitVec.toNat_shiftLeft, hone, Nat.shiftLeft_eq, one_mul, Nat.mod_eq_of_lt (by omega)]
  have m2 : (1#N <<< d - 1#N).toNat = 2 ^ d - 1 := by
    rw [BitVec.toNat_sub, hone, BitVec.toNat_shiftLeft, hone, Nat.shiftLeft_eq, one_mul,
      Nat.mod_eq_of_lt hdN]
    have : 2 ^ N - 1 + 2 ^ d = 2 ^ N + (2 ^ d - 1) := by
      have : 1 ≤ 2 ^ d := Nat.one_le_two_pow
      omega
    rw [this, Nat.add_mod_left, Nat.mod_eq_of_lt (by omega)]
  set a := input.toNat with ha
  have hr : (a % 2 ^ d) < 2 ^ d := Nat.mod_lt _ (by positivity)
  have rb : ((input &&& 1#N <<< (d - 1)) != 0#N) = decide (2 ^ (d - 1) ≤ a % 2 ^ d) := by
    rw [Bool.eq_iff_iff, bne_iff_ne, decide_eq_true_iff, ne_eq, ← BitVec.toNat_inj, BitVec.toNat_and, m1, Nat.and_two_pow, ← ha]
    have htb : a.testBit (d - 1) = decide (2 ^ (d - 1) ≤ a % 2 ^ d) := by
      rw [Nat.testBit_eq_decide_div_mod_eq]
      apply decide_eq_decide.mpr
      have : a / 2 ^ (d - 1) % 2 = a % 2 ^ d / 2 ^ (d - 1) := by
        rw [hd2, mul_comm, Nat.mod_mul_right_div_self]
      rw [this]
      constructor
      · intro h
        by_contra hc
        rw [Nat.div_eq_of_lt (by omega)] at h
        omega
      · intro h
        rw [Nat.div_eq_iff (by positivity)]
        omega
    rw [htb]
    by_cases hc : 2 ^ (d - 1) ≤ a % 2 ^ d
    · simp [hc]
    · simp [hc]
  have fm : (input &&& (1#N <<< d - 1#N)).toNat = a % 2 ^ d := by
    rw [BitVec.toNat_and, m2, Nat.and_two_pow_sub_one_eq_mod]
  have tie : ((input &&& (1#N <<< d - 1#N)) == 1#N <<< (d - 1)) = decide (a % 2 ^ d = 2 ^ (d - 1)) := by
    rw [beq_eq_decide]
    apply decide_eq_decide.mpr
    rw [← BitVec.toNat_inj, fm, m1]
  have res : (input >>> d).toNat = a / 2 ^ d := by
    rw [BitVec.toNat_ushiftRight, Nat.shiftRight_eq_div_pow]
  unfold utilRound
  rw [s1, s2, s3]
  refine ⟨_, rfl, ?_⟩
  rw [rb, tie, res, ed, rne_div]
  have hq : a / 2 ^ d < 2 ^ nb := by
    rw [Nat.div_lt_iff_lt_mul (by positivity), ← hN]; exact input.isLt
  have hb : 2 ^ nb + 1 ≤ 2 ^ N := by
    have : 2 ^ nb * 1 < 2 ^ nb * 2 ^ d := Nat.mul_lt_mul_of_pos_left (by omega) (by positivity)
    omega
  generalize hq' : a / 2 ^ d = q at *
  generalize hr' : a % 2 ^ d = r at *
  rw [BitVec.toNat_add, res]
  have key : (decide (2 ^ (d - 1) ≤ r) && (!decide (r = 2 ^ (d - 1)) || q % 2 == 1)) =
      decide (2 ^ d < 2 * r ∨ (2 ^ d = 2 * r ∧ q % 2 = 1)) := by
    rw [hd2, Bool.eq_iff_iff]
    simp only [Bool.and_eq_true, Bool.or_eq_true, Bool.not_eq_true', decide_eq_true_eq,
      decide_eq_false_iff_not, beq_iff_eq]
    omega
  rw [key]
  by_cases hc : 2 ^ d < 2 * r ∨ (2 ^ d = 2 * r ∧ q % 2 = 1)
  · simp only [hc, decide_true, if_true]
    rw [hone, Nat.mod_eq_of_lt (by omega)]; push_cast; ring
  · simp only [hc, decide_false, if_false]
    simp only [Bool.false_eq_true, if_false, BitVec.toNat_ofNat, Nat.zero_mod, Nat.add_zero]
    rw [Nat.mod_eq_of_lt (by omega)]; simp

end Takum
