import Verif.Model.Fraction
import Verif.Lemmas.Encode

/-! # The mantissa functions -/

namespace Takum
open Spec

/-- What the function for `float` computes: the first 32 bits of the fraction, rounded. -/
def FracSpec32 (F : Fmt) (frac : Fl → ℕ → C (BitVec 32)) : Prop :=
  ∀ (f : Fl) (q : ℚ) (nb : ℕ), f.Is q → 0 ≤ q → q < 1 → F.Rep q → 1 ≤ nb → nb < 32 →
    ∃ v, frac f nb = .ok v ∧
      (v.toNat : ℤ) = rne (((⌊q * 2 ^ 32⌋ : ℤ) : ℚ) / ((2 ^ (32 - nb) : ℕ) : ℚ))

/-- Shifting the normalised significand into place (`shift_sig` for 32 bits). -/
theorem shift_sig32 {q : ℚ} (h0 : 0 < q) (h1 : q < 1) {e : ℤ} (he : e = Int.log 2 |q|)
    {F0 : BitVec 32} (hF : -(e + 1) < 32 → (F0.toNat : ℤ) = ⌊q * (2 : ℚ) ^ (31 - e)⌋) {nb : ℕ}
    (hn1 : 1 ≤ nb) (hn2 : nb < 32) :
    ∃ v, (do let F ← if -(e + 1) < 32 then shrU F0 (-(e + 1)) else pure 0#32
             utilRound F nb) = Except.ok v ∧
      (v.toNat : ℤ) = rne (((⌊q * 2 ^ 32⌋ : ℤ) : ℚ) / ((2 ^ (32 - nb) : ℕ) : ℚ)) := by
  have hneg := log2_lt_zero h0 h1
  rw [← he] at hneg
  have key : ∃ G : BitVec 32, (if -(e + 1) < 32 then shrU F0 (-(e + 1)) else pure 0#32) = Except.ok G ∧
      (G.toNat : ℤ) = ⌊q * 2 ^ 32⌋ := by
    by_cases hc : -(e + 1) < 32
    · rw [if_pos hc]
      refine ⟨F0 >>> (-(e + 1)).toNat, ?_, ?_⟩
      · unfold shrU; rw [if_pos ⟨by omega, by simpa using hc⟩]
      · rw [BitVec.toNat_ushiftRight, Nat.shiftRight_eq_div_pow]
        have e1 : q * 2 ^ 32 = q * (2 : ℚ) ^ (31 - e) / ((2 ^ (-(e + 1)).toNat : ℕ) : ℚ) := by
          have : ((2 ^ (-(e + 1)).toNat : ℕ) : ℚ) = (2 : ℚ) ^ (-(e + 1)) := by
            push_cast
            rw [← zpow_natCast, Int.toNat_of_nonneg (by omega)]
          rw [this, mul_div_assoc, ← zpow_sub₀ (by norm_num)]
          congr 1
          rw [show 31 - e - -(e + 1) = (32 : ℕ) by push_cast; ring, zpow_natCast]
        rw [e1, Int.floor_div_natCast, ← hF hc]
        push_cast; rfl
    · rw [if_neg hc]
      refine ⟨0#32, rfl, ?_⟩
      symm
      simp only [BitVec.toNat_ofNat, Nat.zero_mod, Nat.cast_zero]
      rw [Int.floor_eq_zero_iff]
      constructor
      · positivity
      · have h2 := (log2_bounds h0).2
        rw [← he] at h2
        calc q * 2 ^ 32 < (2 : ℚ) ^ (e + 1) * 2 ^ 32 := by
              apply mul_lt_mul_of_pos_right h2 (by positivity)
          _ = (2 : ℚ) ^ (e + 1 + 32) := by
              rw [zpow_add₀ (by norm_num : (2 : ℚ) ≠ 0) (e + 1) 32]; norm_num
          _ ≤ (2 : ℚ) ^ (0 : ℤ) := zpow_le_zpow_right₀ (by norm_num) (by omega)
          _ = 1 := by simp
  obtain ⟨G, hG, hG2⟩ := key
  obtain ⟨v, hv, hv2⟩ := utilRound_spec G hn1 hn2
  refine ⟨v, ?_, ?_⟩
  · by_cases hc : -(e + 1) < 32
    · rw [if_pos hc] at hG
      simp only [hc, if_true, hG, bind, Except.bind]; exact hv
    · rw [if_neg hc] at hG
      simp only [hc, if_false, hG, bind, Except.bind]; exact hv
  · rw [hv2, ← hG2]; push_cast; rfl

/-- The significand of a `float` in `(0, 1)`, shifted to the left. -/
theorem sig_float {q : ℚ} (hpos : 0 < q) (h1 : q < 1) (hr : b32.Rep q) (hc : -126 ≤ Int.log 2 |q|) :
    (((((Fl.num q).bits32 &&& ((1#32 <<< 23) - 1#32)) ||| (1#32 <<< 23)) <<< (9 - 1)).toNat : ℤ) =
      ⌊q * (2 : ℚ) ^ (31 - Int.log 2 |q|)⌋ := by
  have h0 := hpos.le
  have hq := hpos.ne'
  have hneg := log2_lt_zero hpos h1
  obtain ⟨b1, b2⟩ := log2_bounds hpos
  have hsgn : (Fl.num q).sgn = false := by simp [Fl.sgn, h0]
  unfold Fl.bits32
  simp only [hsgn, Bool.false_eq_true, if_false]
  rw [if_pos (by omega)]
  set e := Int.log 2 |q| with he
  rw [abs_of_pos hpos]
  have hsc : q / (2 : ℚ) ^ (e - 23) = q * (2 : ℚ) ^ (23 - e) := by
    rw [div_eq_mul_inv, ← zpow_neg]; congr 2; ring
  -- the significand is an integer
  obtain ⟨mm, ee, r1, r2, r3⟩ := hr
  have hqe := b32.qexp_le_of_rep hq r1 r2 r3
  have hq23 : e - 23 ≤ ee := by
    refine le_trans ?_ hqe
    unfold Fmt.qexp
    refine le_trans ?_ (le_max_left _ _)
    simp [b32]; omega
  have hint : ∃ j : ℤ, q * (2 : ℚ) ^ (23 - e) = j := by
    refine ⟨mm * 2 ^ (ee + 23 - e).toNat, ?_⟩
    push_cast
    rw [r1, mul_assoc, ← zpow_add₀ (by norm_num), ← zpow_natCast, Int.toNat_of_nonneg (by omega)]
    congr 2; ring
  obtain ⟨j, hj⟩ := hint
  have hj0 : (2 : ℚ) ^ 23 ≤ j := by
    rw [← hj]
    calc (2 : ℚ) ^ 23 = (2 : ℚ) ^ e * (2 : ℚ) ^ (23 - e) := by
          rw [← zpow_add₀ (by norm_num)]; rw [show e + (23 - e) = (23 : ℕ) by push_cast; ring, zpow_natCast]
      _ ≤ q * (2 : ℚ) ^ (23 - e) := mul_le_mul_of_nonneg_right b1 (zpow_pos (by norm_num) _).le
  have hj1 : (j : ℚ) < (2 : ℚ) ^ 24 := by
    rw [← hj]
    calc q * (2 : ℚ) ^ (23 - e) < (2 : ℚ) ^ (e + 1) * (2 : ℚ) ^ (23 - e) := by
          apply mul_lt_mul_of_pos_right b2 (zpow_pos (by norm_num) _)
      _ = 2 ^ 24 := by rw [← zpow_add₀ (by norm_num)]; rw [show e + 1 + (23 - e) = (24 : ℕ) by push_cast; ring, zpow_natCast]
  have hj0' : (2 : ℤ) ^ 23 ≤ j := by exact_mod_cast hj0
  have hj1' : j < (2 : ℤ) ^ 24 := by exact_mod_cast hj1
  have h63 : q * (2 : ℚ) ^ (31 - e) = ((j * 2 ^ 8 : ℤ) : ℚ) := by
    push_cast
    rw [← hj, mul_assoc]
    congr 1
    rw [show (31 - e) = (23 - e) + (8 : ℕ) by push_cast; ring, zpow_add₀ (by norm_num), zpow_natCast]
    norm_num
  rw [h63, Int.floor_intCast, hsc, hj]
  have hfl : (Rat.floor (j : ℚ)) = j := by
    exact Int.floor_intCast (R := ℚ) j
  rw [hfl]
  obtain ⟨k, hk⟩ : ∃ k : ℕ, j = 2 ^ 23 + k := by
    obtain ⟨k, hk⟩ := Int.eq_ofNat_of_zero_le (sub_nonneg.mpr hj0')
    exact ⟨k, by omega⟩
  have hk23 : k < 2 ^ 23 := by
    have : (k : ℤ) < 2 ^ 23 := by omega
    exact_mod_cast this
  have hjn : j.toNat - 2 ^ 23 = k := by omega
  rw [hjn]
  have he2 : (e + 127).toNat < 2 ^ 8 := by omega
  generalize (e + 127).toNat = E at *
  have hm1 : ((1#32 <<< 23) - 1#32) = BitVec.ofNat 32 (2 ^ 23 - 1) := by decide
  have hm2 : (1#32 <<< 23) = BitVec.ofNat 32 (2 ^ 23) := by decide
  rw [hm1, hm2]
  have hA : (BitVec.ofNat 32 (0 + E * 2 ^ 23 + k) &&& BitVec.ofNat 32 (2 ^ 23 - 1)).toNat = k := by
    rw [BitVec.toNat_and, BitVec.toNat_ofNat, BitVec.toNat_ofNat,
      Nat.mod_eq_of_lt (by norm_num : 2 ^ 23 - 1 < 2 ^ 32), Nat.and_two_pow_sub_one_eq_mod]
    omega
  have hB : (BitVec.ofNat 32 (0 + E * 2 ^ 23 + k) &&& BitVec.ofNat 32 (2 ^ 23 - 1) |||
      BitVec.ofNat 32 (2 ^ 23)).toNat = 2 ^ 23 + k := by
    rw [BitVec.toNat_or, hA, BitVec.toNat_ofNat, Nat.mod_eq_of_lt (by norm_num : 2 ^ 23 < 2 ^ 32),
      Nat.lor_comm]
    have := Nat.shiftLeft_add_eq_or_of_lt hk23 1
    rw [Nat.one_shiftLeft] at this
    exact this.symm
  rw [BitVec.toNat_shiftLeft, hB, Nat.shiftLeft_eq, hk]
  norm_num
  omega

theorem fracSpec_float : FracSpec32 b32 float32FractionToRoundedBits := by
  intro f q nb hf h0 h1 hr hn1 hn2
  unfold float32FractionToRoundedBits
  have hnb : (nb == 0) = false := by simp; omega
  by_cases hq : q = 0
  · subst hq
    have : Fl.eq f (Fl.zero false) = true := (Fl.eq_iff hf (Fl.Is.zero false)).mpr rfl
    rw [this]
    exact ⟨0#32, rfl, by simp⟩
  · have hpos : 0 < q := lt_of_le_of_ne h0 (Ne.symm hq)
    have : Fl.eq f (Fl.zero false) = false := by
      rw [Bool.eq_false_iff, ne_eq, Fl.eq_iff hf (Fl.Is.zero false)]; exact hq
    rw [this, hnb]
    have hfq := hf.eq_num hq
    subst hfq
    simp only [Bool.or_self, Bool.false_eq_true, if_false]
    exact shift_sig32 hpos h1 rfl (fun hc => sig_float hpos h1 hr (by omega)) hn1 hn2


/-- Rounding after bits have been dropped. -/
theorem rne_dropped {q : ℚ} {N nb : ℕ} (h1 : nb < N) :
    IsRne (q * 2 ^ nb) (rne (((⌊q * 2 ^ N⌋ : ℤ) : ℚ) / ((2 ^ (N - nb) : ℕ) : ℚ))) ↔
      ¬(1 / 2 < Int.fract (q * 2 ^ nb) ∧ Int.fract (q * 2 ^ nb) < 1 / 2 + 1 / 2 ^ (N - nb) ∧ ⌊q * 2 ^ nb⌋ % 2 = 0) := by
  obtain ⟨d, rfl⟩ : ∃ d, N = nb + (d + 1) := ⟨N - nb - 1, by omega⟩
  rw [Nat.add_sub_cancel_left]
  set x := q * 2 ^ nb with hx
  have e : q * 2 ^ (nb + (d + 1)) = x * 2 ^ (d + 1) := by rw [hx, pow_add]; ring
  rw [e]
  set A := ⌊x * 2 ^ (d + 1)⌋ with hA
  set D : ℚ := 2 ^ (d + 1) with hD
  have D0 : 0 < D := by positivity
  have eD : ((2 ^ (d + 1) : ℕ) : ℚ) = D := by rw [hD]; push_cast; rfl
  rw [eD]
  have a1 : (A : ℚ) ≤ x * D := Int.floor_le _
  have a2 : x * D < A + 1 := Int.lt_floor_add_one _
  have fl : ⌊(A : ℚ) / D⌋ = ⌊x⌋ := by
    rw [Int.floor_eq_iff]
    constructor
    · rw [le_div_iff₀ D0]
      have : ⌊x⌋ * 2 ^ (d + 1) ≤ A := by
        rw [hA, Int.le_floor]; push_cast
        exact mul_le_mul_of_nonneg_right (Int.floor_le x) D0.le
      have : ((⌊x⌋ * 2 ^ (d + 1) : ℤ) : ℚ) ≤ A := by exact_mod_cast this
      push_cast at this; exact this
    · rw [div_lt_iff₀ D0]
      have := Int.lt_floor_add_one x
      nlinarith
  have fy : Int.fract ((A : ℚ) / D) = ((A - ⌊x⌋ * 2 ^ (d + 1) : ℤ) : ℚ) / D := by
    unfold Int.fract; rw [fl]; push_cast; rw [sub_div, ← hD, mul_div_cancel_right₀ _ D0.ne']
  set B : ℤ := A - ⌊x⌋ * 2 ^ (d + 1) with hB
  have fx : Int.fract x * D = x * D - ⌊x⌋ * D := by unfold Int.fract; ring
  have hB' : (B : ℚ) = A - ⌊x⌋ * D := by rw [hB]; push_cast; rfl
  have b1 : (B : ℚ) ≤ Int.fract x * D := by rw [fx, hB']; linarith
  have b2 : Int.fract x * D < B + 1 := by rw [fx, hB']; linarith
  have half : D / 2 = ((2 ^ d : ℤ) : ℚ) := by rw [hD]; push_cast; rw [pow_succ]; ring
  have key : IsRne x (rne ((A : ℚ) / D)) ↔ rne x = rne ((A : ℚ) / D) :=
    ⟨IsRne.eq, fun h => by rw [← h]; exact rne_isRne x⟩
  rw [key]
  rcases lt_trichotomy B (2 ^ d) with h | h | h
  · have h' : (B : ℚ) + 1 ≤ D / 2 := by rw [half]; exact_mod_cast h
    have c1 : Int.fract x < 1 / 2 := by
      have : Int.fract x * D < 1 / 2 * D := by linarith
      exact lt_of_mul_lt_mul_right this D0.le
    have c2 : Int.fract ((A : ℚ) / D) < 1 / 2 := by rw [fy, div_lt_iff₀ D0]; linarith
    refine iff_of_true ?_ (fun hh => absurd hh.1 (not_lt.mpr c1.le))
    unfold rne; rw [if_pos c1, if_pos c2, fl]
  · have h' : (B : ℚ) = D / 2 := by rw [half, h]
    have c2 : Int.fract ((A : ℚ) / D) = 1 / 2 := by rw [fy, h']; field_simp
    have c3 : (1 : ℚ) / 2 ≤ Int.fract x := by
      have : 1 / 2 * D ≤ Int.fract x * D := by linarith
      exact le_of_mul_le_mul_right this D0
    have c4 : Int.fract x < 1 / 2 + 1 / D := by
      have : Int.fract x * D < (1 / 2 + 1 / D) * D := by
        rw [add_mul, div_mul_cancel₀ _ D0.ne']; linarith
      exact lt_of_mul_lt_mul_right this D0.le
    have ey : rne ((A : ℚ) / D) = if ⌊x⌋ % 2 = 0 then ⌊x⌋ else ⌊x⌋ + 1 := by
      unfold rne; rw [c2, if_neg (lt_irrefl _), if_neg (lt_irrefl _), fl]
    rw [ey]
    rcases eq_or_lt_of_le c3 with c | c
    · have : rne x = if ⌊x⌋ % 2 = 0 then ⌊x⌋ else ⌊x⌋ + 1 := by
        unfold rne; rw [← c, if_neg (lt_irrefl _), if_neg (lt_irrefl _)]
      exact iff_of_true this (fun hh => by rw [← c] at hh; exact lt_irrefl _ hh.1)
    · have : rne x = ⌊x⌋ + 1 := by unfold rne; rw [if_neg (not_lt.mpr c3), if_pos c]
      rw [this]
      by_cases he : ⌊x⌋ % 2 = 0
      · rw [if_pos he]
        exact iff_of_false (by omega) (fun hh => hh ⟨c, c4, he⟩)
      · rw [if_neg he]
        exact iff_of_true rfl (fun hh => he hh.2.2)
  · have h' : D / 2 + 1 ≤ (B : ℚ) := by rw [half]; exact_mod_cast h
    have c0 : 1 / 2 + 1 / D ≤ Int.fract x := by
      have : (1 / 2 + 1 / D) * D ≤ Int.fract x * D := by
        rw [add_mul, div_mul_cancel₀ _ D0.ne']; linarith
      exact le_of_mul_le_mul_right this D0
    have c1 : 1 / 2 < Int.fract x := lt_of_lt_of_le (by have : 0 < 1 / D := by positivity
                                                        linarith) c0
    have c2 : 1 / 2 < Int.fract ((A : ℚ) / D) := by rw [fy, lt_div_iff₀ D0]; linarith
    refine iff_of_true ?_ (fun hh => absurd hh.2.1 (not_lt.mpr c0))
    unfold rne; rw [if_neg (not_lt.mpr c1.le), if_neg (not_lt.mpr c2.le), if_pos c1, if_pos c2, fl]

end Takum
