import Verif.Lemmas.Fraction

/-!
# C94: the functions that turn a fraction into bits
-/

namespace Takum
open Spec

/-- What the comments of the three functions say ("returning the correctly rounded num_bit LSB's"): the fraction
`q` times `2^nb`, rounded to the nearest integer, ties to even. -/
def CorrectlyRounded {N : ℕ} (F : Fmt) (frac : Fl → ℕ → C (BitVec N)) : Prop :=
  ∀ (f : Fl) (q : ℚ) (nb : ℕ), f.Is q → 0 ≤ q → q < 1 → F.In q → 1 ≤ nb → nb < N →
    ∃ v, frac f nb = .ok v ∧ IsRne (q * 2 ^ nb) (v.toNat : ℤ)

/-- A fraction that is above a tie by less than one unit of the `N`-bit word, where the even neighbour is the
lower one. -/
def LostTie (N nb : ℕ) (q : ℚ) : Prop :=
  1 / 2 < Int.fract (q * 2 ^ nb) ∧ Int.fract (q * 2 ^ nb) < 1 / 2 + 1 / 2 ^ (N - nb) ∧ ⌊q * 2 ^ nb⌋ % 2 = 0

/-- The complete behaviour for fractions: the result is always defined and within `1/2 + 2^(nb-N)` of the
fraction, and it is correctly rounded except exactly for the lost ties. -/
def RoundsUpTo {N : ℕ} (F : Fmt) (frac : Fl → ℕ → C (BitVec N)) : Prop :=
  ∀ (f : Fl) (q : ℚ) (nb : ℕ), f.Is q → 0 ≤ q → q < 1 → F.In q → 1 ≤ nb → nb < N →
    ∃ v, frac f nb = .ok v ∧ |q * 2 ^ nb - v.toNat| < 1 / 2 + 1 / 2 ^ (N - nb) ∧
      (IsRne (q * 2 ^ nb) (v.toNat : ℤ) ↔ ¬LostTie N nb q)

theorem rounds_of {N : ℕ} {F : Fmt} {frac : Fl → ℕ → C (BitVec N)}
    (h : ∀ (f : Fl) (q : ℚ) (nb : ℕ), f.Is q → 0 ≤ q → q < 1 → F.Rep q → 1 ≤ nb → nb < N →
      ∃ v, frac f nb = .ok v ∧ (v.toNat : ℤ) = rne (((⌊q * 2 ^ N⌋ : ℤ) : ℚ) / ((2 ^ (N - nb) : ℕ) : ℚ))) : RoundsUpTo F frac := by
  intro f q nb hf h0 h1 hi n1 n2
  obtain ⟨v, e, hv⟩ := h f q nb hf h0 h1 hi.1 n1 n2
  refine ⟨v, e, ?_, ?_⟩
  · have hr := rne_isRne (((⌊q * 2 ^ N⌋ : ℤ) : ℚ) / ((2 ^ (N - nb) : ℕ) : ℚ))
    rw [← hv] at hr
    have hr' : |((⌊q * 2 ^ N⌋ : ℤ) : ℚ) / ((2 ^ (N - nb) : ℕ) : ℚ) - v.toNat| ≤ 1 / 2 := by
      rcases hr with h | h
      · exact_mod_cast h.le
      · exact_mod_cast h.1.le
    have D0 : (0 : ℚ) < 2 ^ (N - nb) := by positivity
    have eq : q * 2 ^ nb = q * 2 ^ N / 2 ^ (N - nb) := by
      rw [eq_div_iff D0.ne', mul_assoc, ← pow_add, Nat.add_sub_cancel' n2.le]
    have f1 := Int.floor_le (q * 2 ^ N)
    have f2 := Int.lt_floor_add_one (q * 2 ^ N)
    have g1 : ((⌊q * 2 ^ N⌋ : ℤ) : ℚ) / 2 ^ (N - nb) ≤ q * 2 ^ nb := by rw [eq]; exact div_le_div_of_nonneg_right f1 D0.le
    have g2 : q * 2 ^ nb < ((⌊q * 2 ^ N⌋ : ℤ) : ℚ) / 2 ^ (N - nb) + 1 / 2 ^ (N - nb) := by
      rw [eq, ← add_div]; exact div_lt_div_of_pos_right f2 D0
    push_cast at hr'
    rw [abs_le] at hr'
    rw [abs_lt]
    have : (0 : ℚ) < 1 / 2 ^ (N - nb) := by positivity
    constructor <;> linarith
  · rw [hv]; exact rne_dropped n2

/-- C94: all three functions. -/
theorem fraction_bits_partial : RoundsUpTo b32 float32FractionToRoundedBits ∧
    RoundsUpTo b64 float64FractionToRoundedBits ∧ RoundsUpTo x80 extendedFractionToRoundedBits :=
  ⟨rounds_of fracSpec_float, rounds_of fracSpec_double, rounds_of fracSpec_extended⟩

/-- C94: the claim of the comments is false for all three. -/
theorem fraction_bits_refuted : ¬CorrectlyRounded b32 float32FractionToRoundedBits ∧
    ¬CorrectlyRounded b64 float64FractionToRoundedBits ∧ ¬CorrectlyRounded x80 extendedFractionToRoundedBits := by
  have key : ∀ {N : ℕ} {F : Fmt} {frac : Fl → ℕ → C (BitVec N)} (q : ℚ) (nb : ℕ), RoundsUpTo F frac → 0 < q → q < 1 → F.In q →
      1 ≤ nb → nb < N → LostTie N nb q → ¬CorrectlyRounded F frac := by
    intro N F frac q nb hr q0 q1 qi n1 n2 hl hc
    obtain ⟨v, e, h⟩ := hc (.num q) q nb (Fl.Is.num q0.ne') q0.le q1 qi n1 n2
    obtain ⟨v', e', -, h'⟩ := hr (.num q) q nb (Fl.Is.num q0.ne') q0.le q1 qi n1 n2
    rw [e] at e'
    obtain rfl := Except.ok.inj e'
    exact h'.mp h hl
  obtain ⟨p1, p2, p3⟩ := fraction_bits_partial
  refine ⟨key (1 / 2 ^ 10 + 1 / 2 ^ 33) 9 p1 (by norm_num) (by norm_num) ⟨⟨2 ^ 23 + 1, -33, by norm_num, by decide, by decide⟩, by norm_num [b32]⟩ (by norm_num) (by norm_num) ?_,
    key (1 / 2 ^ 13 + 1 / 2 ^ 65) 12 p2 (by norm_num) (by norm_num) ⟨⟨2 ^ 52 + 1, -65, by norm_num, by decide, by decide⟩, ?_⟩ (by norm_num) (by norm_num) ?_,
    key (1 / 2 ^ 13 + 1 / 2 ^ 65) 12 p3 (by norm_num) (by norm_num) ⟨⟨2 ^ 52 + 1, -65, by norm_num, by decide, by decide⟩, ?_⟩ (by norm_num) (by norm_num) ?_⟩
  · refine ⟨?_, ?_, ?_⟩
    · decide +kernel
    · decide +kernel
    · decide +kernel
  · exact lt_of_lt_of_le (by norm_num : |(1 / 2 ^ 13 + 1 / 2 ^ 65 : ℚ)| < 1) (one_le_zpow₀ (by norm_num) (by decide))
  · refine ⟨?_, ?_, ?_⟩
    · decide +kernel
    · decide +kernel
    · decide +kernel
  · exact lt_of_lt_of_le (by norm_num : |(1 / 2 ^ 13 + 1 / 2 ^ 65 : ℚ)| < 1) (one_le_zpow₀ (by norm_num) (by decide))
  · refine ⟨?_, ?_, ?_⟩
    · decide +kernel
    · decide +kernel
    · decide +kernel

/-- C94: asking for all bits of the word or more is undefined. -/
theorem fraction_bits_undefined {f : Fl} {q : ℚ} (hf : f.Is q) (h0 : 0 < q) (h1 : q < 1) {nb : ℕ} :
    (32 ≤ nb → float32FractionToRoundedBits f nb = .error .shift) ∧
    (64 ≤ nb → float64FractionToRoundedBits f nb = .error .shift ∧ extendedFractionToRoundedBits f nb = .error .shift) := by
  have hb : ∀ {N : ℕ} (x : BitVec N), 32 ≤ N → N ≤ nb → utilRound x nb = .error .shift := by
    intro N x h32 hN
    unfold utilRound shl
    rw [if_neg (by omega)]
    unfold shlU
    rw [if_neg (by omega)]; rfl
  have hq : q ≠ 0 := h0.ne'
  have hz : Fl.eq f (Fl.zero false) = false := by
    rw [Bool.eq_false_iff, ne_eq, Fl.eq_iff hf (Fl.Is.zero false)]; exact hq
  rw [hf.eq_num hq] at hz ⊢
  have hneg := log2_lt_zero h0 h1
  have hs : ∀ {N : ℕ} (x : BitVec N), 32 ≤ N → N ≤ nb →
      (do let F ← if -(Fl.num q).frexp.2 < (N : ℤ) then shrU x (-(Fl.num q).frexp.2) else pure 0#N
          utilRound F nb) = Except.error UB.shift := by
    intro N x h32 hN
    by_cases hc : -(Fl.num q).frexp.2 < (N : ℤ)
    · have : shrU x (-(Fl.num q).frexp.2) = .ok (x >>> (-(Fl.num q).frexp.2).toNat) := by
        unfold shrU
        refine if_pos ⟨?_, ?_⟩
        · show 0 ≤ -(Int.log 2 |q| + 1)
          omega
        · rw [max_eq_left h32]; exact hc
      simp only [hc, if_true, this, bind, Except.bind]
      exact hb _ h32 hN
    · simp only [hc, if_false, pure, Except.pure, bind, Except.bind]
      exact hb _ h32 hN
  refine ⟨fun h => ?_, fun h => ⟨?_, ?_⟩⟩
  · have hnb : (nb == 0) = false := by simp; omega
    unfold float32FractionToRoundedBits
    rw [hz, hnb]
    exact hs (N := 32) _ (by norm_num) h
  · have hnb : (nb == 0) = false := by simp; omega
    unfold float64FractionToRoundedBits
    rw [hz, hnb]
    exact hs (N := 64) _ (by norm_num) h
  · have hnb : (nb == 0) = false := by simp; omega
    unfold extendedFractionToRoundedBits
    rw [hz, hnb]
    exact hs (N := 64) _ (by norm_num) h

/-- C94: the lost tie in an encoder.  The number `2^-12 + 2^-65` is closer to `2^-11` than to 0, which is
what `codec_takum16_from_s_and_l` encodes. -/
theorem encoder_lost_tie : takum16FromSAndL false (.num (1 / 2 ^ 12 + 1 / 2 ^ 65)) = .ok 0x4000#16 ∧
    ell 0x4000#16 = 0 ∧ ell 0x4001#16 = 1 / 2 ^ 11 ∧
    ¬NearestEll false (1 / 2 ^ 12 + 1 / 2 ^ 65) 0x4000#16 := by
  have e0 : ell 0x4000#16 = 0 := by decide +kernel
  have e1 : ell 0x4001#16 = 1 / 2 ^ 11 := by decide +kernel
  refine ⟨by decide +kernel, e0, e1, fun h => ?_⟩
  have := h.2.2 0x4001#16 ⟨by decide, by decide⟩ (by decide)
  rw [e0, e1] at this
  norm_num [abs_of_neg, abs_of_pos] at this

/-! ## Examples -/

example : ∃ v, float32FractionToRoundedBits (.num (3 / 8)) 2 = .ok v ∧ IsRne ((3 / 8 : ℚ) * 2 ^ 2) (v.toNat : ℤ) := by
  obtain ⟨v, e, -, h⟩ := fraction_bits_partial.1 (.num (3 / 8)) (3 / 8) 2 (Fl.Is.num (by norm_num)) (by norm_num) (by norm_num)
    ⟨⟨3, -3, by norm_num, by decide, by decide⟩, by norm_num [b32]⟩ (by norm_num) (by norm_num)
  refine ⟨v, e, h.mpr fun hh => ?_⟩
  have := hh.1
  revert this
  decide +kernel

example : float32FractionToRoundedBits (.num (1 / 2)) 32 = .error .shift :=
  (fraction_bits_undefined (Fl.Is.num (by norm_num)) (by norm_num) (by norm_num)).1 le_rfl

end Takum
