import Verif.Lemmas.Bits

/-!
# C95: the rounding routine of `src/util.c`
-/

namespace Takum
open Spec

/-- What the comments say (src/util.c:8-24): for every number of bits `nb` in `0..N-1` the result is the fixed
point number `input / 2^N` times `2^nb`, to nearest, ties to even, with no bits above the lowest `nb`. -/
def RoundsToBits (w : W) : Prop :=
  ∀ (input : T w) (nb : ℕ), nb < w.n →
    ∃ v : T w, utilRound input nb = .ok v ∧ IsRne ((input.toNat : ℚ) / 2 ^ (w.n - nb)) (v.toNat : ℤ) ∧ v.toNat < 2 ^ nb

theorem round_zero8 (input : BitVec 8) : utilRound input 0 = .ok (if 128 < input.toNat then 1#8 else 0#8) := by
  revert input; decide +kernel

theorem shift_zero16 (input : BitVec 16) : input >>> 16 = 0#16 := by
  apply BitVec.eq_of_toNat_eq
  rw [BitVec.toNat_ushiftRight, Nat.shiftRight_eq_div_pow, Nat.div_eq_of_lt input.isLt]; rfl

theorem round_zero16 (input : BitVec 16) : utilRound input 0 = .ok (if 32768 < input.toNat then 1#16 else 0#16) := by
  have e : utilRound input 0 = .ok (input >>> 16 + if ((input &&& 32768#16) != 0#16) && (!((input &&& 65535#16) == 32768#16) || (input >>> 16).toNat % 2 == 1)
      then 1#16 else 0#16) := by
    have s1 : shl 1#16 (((16 : ℕ) : ℤ) - (0 : ℕ) - 1) = .ok 32768#16 := by decide +kernel
    have s2 : shl 1#16 (((16 : ℕ) : ℤ) - (0 : ℕ)) = .ok 0#16 := by decide +kernel
    have s3 : shrU input (((16 : ℕ) : ℤ) - (0 : ℕ)) = .ok (input >>> 16) := by
      unfold shrU; rw [if_pos (by decide)]; rfl
    unfold utilRound
    rw [s1, s2, s3]; rfl
  rw [e, shift_zero16]
  have m : input &&& 65535#16 = input := by
    have : (65535#16) = BitVec.allOnes 16 := by decide
    rw [this, BitVec.and_allOnes]
  rw [m]
  have h1 : ((input &&& 32768#16) != 0#16) = decide (32768 ≤ input.toNat) := by
    rw [Bool.eq_iff_iff, bne_iff_ne, decide_eq_true_iff, ne_eq, ← BitVec.toNat_inj, BitVec.toNat_and]
    show ¬(input.toNat &&& 2 ^ 15 = 0) ↔ _
    rw [Nat.and_two_pow, Nat.testBit_eq_decide_div_mod_eq]
    have := input.isLt
    by_cases h : 32768 ≤ input.toNat
    · have : input.toNat / 32768 % 2 = 1 := by omega
      simp [this, h]
    · have : input.toNat / 32768 % 2 = 0 := by omega
      simp [this, h]
  have h2 : (input == 32768#16) = decide (input.toNat = 32768) := by
    rw [beq_eq_decide]; apply decide_eq_decide.mpr
    rw [← BitVec.toNat_inj]; rfl
  rw [h1, h2]
  by_cases h : 32768 < input.toNat
  · rw [if_pos h, decide_eq_true (by omega), decide_eq_false (by omega)]; rfl
  · rw [if_neg h]
    by_cases h' : input.toNat = 32768
    · rw [decide_eq_true h', decide_eq_true (by omega)]; rfl
    · rw [decide_eq_false (by omega)]; rfl

/-- C95 where it holds: correct rounding for one bit and more, and for no bits with 8 and 16; the result fits in
`nb` bits exactly if the input is less than the largest number plus half a unit. -/
theorem round_bits_partial (w : W) (input : T w) {nb : ℕ} (h1 : 1 ≤ nb ∨ w = .w8 ∨ w = .w16) (h2 : nb < w.n) :
    ∃ v : T w, utilRound input nb = .ok v ∧ IsRne ((input.toNat : ℚ) / 2 ^ (w.n - nb)) (v.toNat : ℤ) ∧ v.toNat ≤ 2 ^ nb ∧
      (v.toNat < 2 ^ nb ↔ input.toNat < 2 ^ w.n - 2 ^ (w.n - nb - 1) ∨ (nb = 0 ∧ input.toNat = 2 ^ (w.n - 1))) := by
  have hr : ∃ v : T w, utilRound input nb = .ok v ∧
      (v.toNat : ℤ) = rne ((input.toNat : ℚ) / ((2 ^ (w.n - nb) : ℕ) : ℚ)) := by
    rcases Nat.eq_zero_or_pos nb with rfl | h0
    · rcases h1.resolve_left (by omega) with rfl | rfl
      · refine ⟨_, round_zero8 input, ?_⟩
        rw [show W.w8.n - 0 = 8 from rfl, rne_div]
        have : input.toNat < 2 ^ 8 := input.isLt
        rw [Nat.div_eq_of_lt this, Nat.mod_eq_of_lt this]
        by_cases h : 128 < input.toNat
        · rw [if_pos h, if_pos (by omega)]; rfl
        · rw [if_neg h, if_neg (by omega)]; rfl
      · refine ⟨_, round_zero16 input, ?_⟩
        rw [show W.w16.n - 0 = 16 from rfl, rne_div]
        have : input.toNat < 2 ^ 16 := input.isLt
        rw [Nat.div_eq_of_lt this, Nat.mod_eq_of_lt this]
        by_cases h : 32768 < input.toNat
        · rw [if_pos h, if_pos (by omega)]; rfl
        · rw [if_neg h, if_neg (by omega)]; rfl
    · exact utilRound_spec input h0 h2
  obtain ⟨v, e, hv⟩ := hr
  refine ⟨v, e, ?_, ?_⟩
  · rw [hv]
    have := rne_isRne ((input.toNat : ℚ) / ((2 ^ (w.n - nb) : ℕ) : ℚ))
    push_cast at this ⊢; exact this
  · rw [rne_div] at hv
    obtain ⟨d, hd⟩ : ∃ d, w.n = nb + (d + 1) := ⟨w.n - nb - 1, by omega⟩
    have hn : w.n - nb = d + 1 := by omega
    have hlt : input.toNat < 2 ^ w.n := input.isLt
    rw [show w.n - nb - 1 = d by omega]
    rw [hn] at hv
    have en : 2 ^ w.n = 2 ^ nb * 2 ^ (d + 1) := by rw [hd, pow_add]
    have ed : 2 ^ (d + 1) = 2 * 2 ^ d := by rw [pow_succ']
    have D0 : 0 < 2 ^ d := by positivity
    have hq : input.toNat / 2 ^ (d + 1) < 2 ^ nb := by
      rw [Nat.div_lt_iff_lt_mul (by positivity), ← en]; exact hlt
    have hdm := Nat.div_add_mod input.toNat (2 ^ (d + 1))
    have hm := Nat.mod_lt input.toNat (show 2 ^ (d + 1) > 0 by positivity)
    have hodd : nb ≠ 0 → (2 ^ nb - 1) % 2 = 1 := by
      intro h
      obtain ⟨k, rfl⟩ := Nat.exists_eq_succ_of_ne_zero h
      have : 0 < 2 ^ k := by positivity
      rw [pow_succ]; omega
    have h1n : nb = 0 → 2 ^ (w.n - 1) = 2 ^ d := by intro h; congr 1; omega
    generalize hr' : input.toNat % 2 ^ (d + 1) = r at *
    generalize hq' : input.toNat / 2 ^ (d + 1) = q at *
    have hv' : v.toNat = q + if 2 ^ (d + 1) < 2 * r ∨ 2 ^ (d + 1) = 2 * r ∧ q % 2 = 1 then 1 else 0 := by exact_mod_cast hv
    rw [hv']
    have key : (q + if 2 ^ (d + 1) < 2 * r ∨ 2 ^ (d + 1) = 2 * r ∧ q % 2 = 1 then 1 else 0) < 2 ^ nb ↔
        q < 2 ^ nb - 1 ∨ ¬(2 ^ (d + 1) < 2 * r ∨ 2 ^ (d + 1) = 2 * r ∧ q % 2 = 1) := by
      split_ifs with h
      · constructor
        · intro; left; omega
        · rintro (h' | h')
          · omega
          · exact absurd h h'
      · exact iff_of_true (by omega) (.inr h)
    refine ⟨by split_ifs <;> omega, key.trans ?_⟩
    rcases lt_or_eq_of_le (Nat.le_sub_one_of_lt hq) with h | h
    · refine iff_of_true (.inl h) (.inl ?_)
      rw [en]
      have : 2 ^ (d + 1) * (q + 2) ≤ 2 ^ (d + 1) * 2 ^ nb := Nat.mul_le_mul_left _ (by omega)
      have e2 : 2 ^ (d + 1) * (q + 2) = 2 ^ (d + 1) * q + 2 * 2 ^ (d + 1) := by ring
      have e3 : 2 ^ nb * 2 ^ (d + 1) = 2 ^ (d + 1) * 2 ^ nb := by ring
      omega
    · have q1 : q + 1 = 2 ^ nb := by omega
      have e3 : 2 ^ nb * 2 ^ (d + 1) = 2 ^ (d + 1) * q + 2 ^ (d + 1) := by rw [← q1]; ring
      rw [en, e3]
      by_cases hz : nb = 0
      · have q0 : q = 0 := by subst hz; simpa using q1
        have := h1n hz
        subst q0
        simp only [hz, this, true_and]
        omega
      · have := hodd hz
        rw [← h] at this
        simp only [hz, false_and, or_false]
        omega

/-- C95 is false for every width: a word of ones is rounded up to `2^nb`, which has a bit above the lowest `nb`;
and for 32 and 64 bits no bits at all is undefined. -/
theorem round_bits_refuted (w : W) : ¬RoundsToBits w ∧
    (∀ nb, 1 ≤ nb → nb < w.n → utilRound (BitVec.allOnes w.n) nb = .ok (BitVec.ofNat w.n (2 ^ nb))) ∧
    (w = .w32 ∨ w = .w64 → ∀ input : T w, utilRound input 0 = .error .shift) := by
  have ones : ∀ nb, 1 ≤ nb → nb < w.n → utilRound (BitVec.allOnes w.n) nb = .ok (BitVec.ofNat w.n (2 ^ nb)) := by
    intro nb h1 h2
    obtain ⟨v, e, -, hle, hlt⟩ := round_bits_partial w (BitVec.allOnes w.n) (.inl h1) h2
    rw [e]; congr 1
    apply BitVec.eq_of_toNat_eq
    rw [BitVec.toNat_ofNat, Nat.mod_eq_of_lt (Nat.pow_lt_pow_right (by norm_num) h2)]
    refine le_antisymm hle (not_lt.mp fun h => ?_)
    rcases hlt.mp h with h | ⟨h, -⟩
    · rw [BitVec.toNat_allOnes] at h
      have : 0 < 2 ^ (w.n - nb - 1) := by positivity
      omega
    · omega
  refine ⟨fun h => ?_, ones, ?_⟩
  · have h8 : 1 < w.n := by cases w <;> decide
    obtain ⟨v, e, -, hlt⟩ := h (BitVec.allOnes w.n) 1 h8
    rw [ones 1 le_rfl h8] at e
    obtain rfl := Except.ok.inj e
    rw [BitVec.toNat_ofNat, Nat.mod_eq_of_lt (Nat.pow_lt_pow_right (by norm_num) h8)] at hlt
    exact lt_irrefl _ hlt
  · rintro (rfl | rfl) input <;> rfl

/-- Asking for as many bits as there are, or more, is undefined for every width. -/
theorem round_bits_undefined (w : W) (input : T w) {nb : ℕ} (h : w.n ≤ nb) : utilRound input nb = .error .shift := by
  have neg : (w.n : ℤ) - nb - 1 < 0 := by omega
  have s1 : shl (1#w.n) ((w.n : ℤ) - nb - 1) = .error .shift := by
    unfold shl shlInt shlU
    split_ifs with h1 h2 h2
    all_goals first | rfl | (exfalso; omega)
  unfold utilRound
  rw [s1]; rfl

example : utilRound (0x5678#16 : T .w16) 16 = .error .shift := round_bits_undefined .w16 _ (by decide)

example : ∃ v : T .w16, utilRound (0x5678#16 : T .w16) 7 = .ok v ∧ IsRne (((0x5678#16).toNat : ℚ) / 2 ^ 9) (v.toNat : ℤ) ∧ v.toNat < 2 ^ 7 := by
  obtain ⟨v, e, h, -, h'⟩ := round_bits_partial .w16 0x5678#16 (nb := 7) (.inl (by norm_num)) (by decide)
  exact ⟨v, e, h, h'.mpr (.inl (by decide))⟩

end Takum
