import Verif.Lemmas.Narrow
import Mathlib.Data.Nat.Log

/-!
# The encoder `codec_takum*_from_s_and_l`
-/

namespace Takum
open Spec

/-! ### The inverse of the position map -/

/-- The bits `DR` for a characteristic. -/
def drOf (c : ℤ) : ℕ := ((List.range 15).filter (fun d => bias (d + 1) ≤ c)).length

theorem drOf_tab : ∀ i < 510, getDRFromC ((i : ℕ) - 255 : ℤ) = .ok (drOf ((i : ℕ) - 255 : ℤ)) ∧
    drOf ((i : ℕ) - 255 : ℤ) < 16 ∧ bias (drOf ((i : ℕ) - 255 : ℤ)) ≤ (i : ℕ) - 255 ∧
    ((i : ℕ) - 255 : ℤ) + 1 ≤ bias (drOf ((i : ℕ) - 255 : ℤ)) + 2 ^ rr (drOf ((i : ℕ) - 255 : ℤ)) := by
  decide +kernel

theorem drOf_spec {c : ℤ} (h1 : -255 ≤ c) (h2 : c < 255) :
    getDRFromC c = .ok (drOf c) ∧ drOf c < 16 ∧ bias (drOf c) ≤ c ∧
      c + 1 ≤ bias (drOf c) + 2 ^ rr (drOf c) := by
  obtain ⟨i, hi⟩ := Int.eq_ofNat_of_zero_le (by omega : 0 ≤ c + 255)
  have := drOf_tab i (by omega)
  have e : c = (i : ℤ) - 255 := by omega
  rw [e]; exact this

/-- The position with a given characteristic plus mantissa. -/
def psiInv (y : ℚ) : ℚ := drOf ⌊y⌋ + (y - bias (drOf ⌊y⌋)) / 2 ^ rr (drOf ⌊y⌋)

theorem psiInv_spec {y : ℚ} (h1 : -255 ≤ y) (h2 : y < 255) :
    0 ≤ psiInv y ∧ psiInv y < 16 ∧ psi (psiInv y) = y := by
  have f1 : -255 ≤ ⌊y⌋ := by rw [Int.le_floor]; exact_mod_cast h1
  have f2 : ⌊y⌋ < 255 := by rw [Int.floor_lt]; exact_mod_cast h2
  obtain ⟨_, d16, b1, b2⟩ := drOf_spec f1 f2
  have q1 := Int.floor_le y
  have q2 := Int.lt_floor_add_one y
  have b1' : (bias (drOf ⌊y⌋) : ℚ) ≤ ⌊y⌋ := by exact_mod_cast b1
  have b2' : (⌊y⌋ : ℚ) + 1 ≤ bias (drOf ⌊y⌋) + 2 ^ rr (drOf ⌊y⌋) := by exact_mod_cast b2
  unfold psiInv
  generalize drOf ⌊y⌋ = d at *
  have hp : (0 : ℚ) < 2 ^ rr d := by positivity
  have a1 : 0 ≤ (y - bias d) / 2 ^ rr d := div_nonneg (by linarith) hp.le
  have a2 : (y - bias d) / 2 ^ rr d < 1 := by rw [div_lt_one hp]; linarith
  have d0 : (0 : ℚ) ≤ d := by positivity
  have d1 : (d : ℚ) + 1 ≤ 16 := by exact_mod_cast d16
  refine ⟨by linarith, by linarith, ?_⟩
  rw [psi_eq_piece (d := d) (by linarith) (by linarith)]
  unfold piece
  field_simp
  ring

theorem psiInv_psi {u : ℚ} (h0 : 0 ≤ u) (h1 : u < 16) : psiInv (psi u) = u := by
  obtain ⟨a, b, c⟩ := psiInv_spec (psi_ge h0 h1) (psi_lt_255 h0 h1)
  exact psi_inj a b h0 h1 c

theorem psiInv_mono {x y : ℚ} (h1 : -255 ≤ x) (h : x ≤ y) (h2 : y < 255) : psiInv x ≤ psiInv y := by
  obtain ⟨a, b, c⟩ := psiInv_spec h1 (lt_of_le_of_lt h h2)
  obtain ⟨a', b', c'⟩ := psiInv_spec (h1.trans h) h2
  rw [← psi_le_iff a b a' b', c, c']; exact h

/-! ### The number that is actually encoded -/

/-- The value whose bits the encoder rounds: the fractional part is rounded to the format (this
matters only for tiny negative arguments) and cut off after 64 bits. -/
def yv (F : Fmt) (x : ℚ) : ℚ := ⌊x⌋ + ⌊F.rq (Int.fract x) * 2 ^ 64⌋ / 2 ^ 64

theorem rq_fract_le (F : Fmt) (hp : 1 ≤ F.prec) (he : F.emin ≤ 0) (x : ℚ) :
    0 ≤ F.rq (Int.fract x) ∧ F.rq (Int.fract x) ≤ 1 := by
  refine ⟨F.rq_nonneg (Int.fract_nonneg x), ?_⟩
  have : F.Rep 1 := by simpa using Fmt.Rep.zpow (F := F) hp (k := 0) he
  exact F.rq_le hp this (Int.fract_lt_one x).le

theorem yv_bounds (F : Fmt) (hp : 1 ≤ F.prec) (he : F.emin ≤ 0) (x : ℚ) :
    (⌊x⌋ : ℚ) ≤ yv F x ∧ yv F x ≤ ⌊x⌋ + 1 := by
  obtain ⟨h0, h1⟩ := rq_fract_le F hp he x
  have a : (0 : ℤ) ≤ ⌊F.rq (Int.fract x) * 2 ^ 64⌋ := by
    rw [Int.le_floor]; push_cast; positivity
  have b : ⌊F.rq (Int.fract x) * 2 ^ 64⌋ ≤ 2 ^ 64 := by
    have : ⌊F.rq (Int.fract x) * 2 ^ 64⌋ ≤ ⌊((2 ^ 64 : ℤ) : ℚ)⌋ := by
      apply Int.floor_le_floor; push_cast; nlinarith
    rwa [Int.floor_intCast] at this
  have a' : (0 : ℚ) ≤ (⌊F.rq (Int.fract x) * 2 ^ 64⌋ : ℚ) := by exact_mod_cast a
  have b' : (⌊F.rq (Int.fract x) * 2 ^ 64⌋ : ℚ) ≤ 2 ^ 64 := by exact_mod_cast b
  unfold yv
  constructor
  · have : (0 : ℚ) ≤ (⌊F.rq (Int.fract x) * 2 ^ 64⌋ : ℚ) / 2 ^ 64 := by positivity
    linarith
  · have : (⌊F.rq (Int.fract x) * 2 ^ 64⌋ : ℚ) / 2 ^ 64 ≤ 1 := by
      rw [div_le_one (by positivity)]; exact b'
    linarith

theorem yv_mono (F : Fmt) (hp : 1 ≤ F.prec) (he : F.emin ≤ 0) {x y : ℚ} (h : x ≤ y) :
    yv F x ≤ yv F y := by
  rcases eq_or_lt_of_le (Int.floor_le_floor h) with hf | hf
  · have hfr : Int.fract x ≤ Int.fract y := by unfold Int.fract; rw [hf]; linarith
    unfold yv
    rw [hf]
    have h1 := F.rq_mono hp hfr
    have h2 : ⌊F.rq (Int.fract x) * 2 ^ 64⌋ ≤ ⌊F.rq (Int.fract y) * 2 ^ 64⌋ :=
      Int.floor_le_floor (by linarith)
    have h3 : (⌊F.rq (Int.fract x) * 2 ^ 64⌋ : ℚ) ≤ ⌊F.rq (Int.fract y) * 2 ^ 64⌋ := by exact_mod_cast h2
    have := div_le_div_of_nonneg_right h3 (by positivity : (0 : ℚ) ≤ 2 ^ 64)
    linarith
  · have h1 := (yv_bounds F hp he x).2
    have h2 := (yv_bounds F hp he y).1
    have h3 : (⌊x⌋ : ℚ) + 1 ≤ ⌊y⌋ := by exact_mod_cast hf
    linarith

/-- The encoded number is the argument if that is a multiple of 2^-64 whose fractional part is
representable. -/
theorem yv_eq (F : Fmt) {x : ℚ} {j : ℤ} (hj : x * 2 ^ 64 = j) (hr : F.Rep (Int.fract x)) :
    yv F x = x := by
  unfold yv
  rw [F.rq_of_rep hr]
  have : Int.fract x * 2 ^ 64 = ((j - ⌊x⌋ * 2 ^ 64 : ℤ) : ℚ) := by
    unfold Int.fract; push_cast; rw [← hj]; ring
  rw [this, Int.floor_intCast]
  push_cast
  rw [← hj]; field_simp; ring

/-! ### Mantissa bits -/

/-- What the two mantissa functions compute: the first 64 bits of the fraction, rounded. -/
def FracSpec (F : Fmt) (frac : Fl → ℕ → C (BitVec 64)) : Prop :=
  ∀ (f : Fl) (q : ℚ) (nb : ℕ), f.Is q → 0 ≤ q → q < 1 → F.Rep q → 1 ≤ nb → nb < 64 →
    ∃ v, frac f nb = .ok v ∧
      (v.toNat : ℤ) = rne (((⌊q * 2 ^ 64⌋ : ℤ) : ℚ) / ((2 ^ (64 - nb) : ℕ) : ℚ))

theorem log2_bounds {q : ℚ} (h : 0 < q) :
    (2 : ℚ) ^ Int.log 2 |q| ≤ q ∧ q < (2 : ℚ) ^ (Int.log 2 |q| + 1) := by
  rw [abs_of_pos h]
  exact ⟨by exact_mod_cast Int.zpow_log_le_self (by norm_num) h,
    by exact_mod_cast Int.lt_zpow_succ_log_self (b := 2) (by norm_num) q⟩

theorem log2_lt_zero {q : ℚ} (h : 0 < q) (h1 : q < 1) : Int.log 2 |q| < 0 := by
  by_contra hc
  have := (log2_bounds h).1
  have h2 : (1 : ℚ) ≤ (2 : ℚ) ^ Int.log 2 |q| := one_le_zpow₀ (by norm_num) (by omega)
  linarith

/-- Common end of both mantissa functions: shifting the normalised significand into place. -/
theorem shift_sig {q : ℚ} (h0 : 0 < q) (h1 : q < 1) {e : ℤ} (he : e = Int.log 2 |q|)
    {F0 : BitVec 64} (hF : -(e + 1) < 64 → (F0.toNat : ℤ) = ⌊q * (2 : ℚ) ^ (63 - e)⌋) {nb : ℕ}
    (hn1 : 1 ≤ nb) (hn2 : nb < 64) :
    ∃ v, (do let F ← if -(e + 1) < 64 then shrU F0 (-(e + 1)) else pure 0#64
             utilRound F nb) = Except.ok v ∧
      (v.toNat : ℤ) = rne (((⌊q * 2 ^ 64⌋ : ℤ) : ℚ) / ((2 ^ (64 - nb) : ℕ) : ℚ)) := by
  have hneg := log2_lt_zero h0 h1
  rw [← he] at hneg
  have key : ∃ G : BitVec 64, (if -(e + 1) < 64 then shrU F0 (-(e + 1)) else pure 0#64) = Except.ok G ∧
      (G.toNat : ℤ) = ⌊q * 2 ^ 64⌋ := by
    by_cases hc : -(e + 1) < 64
    · rw [if_pos hc]
      refine ⟨F0 >>> (-(e + 1)).toNat, ?_, ?_⟩
      · unfold shrU; rw [if_pos ⟨by omega, by simpa using hc⟩]
      · rw [BitVec.toNat_ushiftRight, Nat.shiftRight_eq_div_pow]
        have e1 : q * 2 ^ 64 = q * (2 : ℚ) ^ (63 - e) / ((2 ^ (-(e + 1)).toNat : ℕ) : ℚ) := by
          have : ((2 ^ (-(e + 1)).toNat : ℕ) : ℚ) = (2 : ℚ) ^ (-(e + 1)) := by
            push_cast
            rw [← zpow_natCast, Int.toNat_of_nonneg (by omega)]
          rw [this, mul_div_assoc, ← zpow_sub₀ (by norm_num)]
          congr 1
          rw [show 63 - e - -(e + 1) = (64 : ℕ) by push_cast; ring, zpow_natCast]
        rw [e1, Int.floor_div_natCast, ← hF hc]
        push_cast; rfl
    · rw [if_neg hc]
      refine ⟨0#64, rfl, ?_⟩
      symm
      simp only [BitVec.toNat_ofNat, Nat.zero_mod, Nat.cast_zero]
      rw [Int.floor_eq_zero_iff]
      constructor
      · positivity
      · have h2 := (log2_bounds h0).2
        rw [← he] at h2
        calc q * 2 ^ 64 < (2 : ℚ) ^ (e + 1) * 2 ^ 64 := by
              apply mul_lt_mul_of_pos_right h2 (by positivity)
          _ = (2 : ℚ) ^ (e + 1 + 64) := by
              rw [zpow_add₀ (by norm_num : (2 : ℚ) ≠ 0) (e + 1) 64]; norm_num
          _ ≤ (2 : ℚ) ^ (0 : ℤ) := zpow_le_zpow_right₀ (by norm_num) (by omega)
          _ = 1 := by simp
  obtain ⟨G, hG, hG2⟩ := key
  obtain ⟨v, hv, hv2⟩ := utilRound_spec G hn1 hn2
  refine ⟨v, ?_, ?_⟩
  · by_cases hc : -(e + 1) < 64
    · rw [if_pos hc] at hG
      simp only [hc, if_true, hG, bind, Except.bind]; exact hv
    · rw [if_neg hc] at hG
      simp only [hc, if_false, hG, bind, Except.bind]; exact hv
  · rw [hv2, ← hG2]; push_cast; rfl

theorem fracSpec_extended : FracSpec x80 extendedFractionToRoundedBits := by
  intro f q nb hf h0 h1 hr hn1 hn2
  unfold extendedFractionToRoundedBits
  have hnb : (nb == 0) = false := by simp; omega
  by_cases hq : q = 0
  · subst hq
    have : Fl.eq f (Fl.zero false) = true := (Fl.eq_iff hf (Fl.Is.zero false)).mpr rfl
    rw [this]
    exact ⟨0#64, rfl, by simp⟩
  · have hpos : 0 < q := lt_of_le_of_ne h0 (Ne.symm hq)
    have : Fl.eq f (Fl.zero false) = false := by
      rw [Bool.eq_false_iff, ne_eq, Fl.eq_iff hf (Fl.Is.zero false)]; exact hq
    rw [this, hnb]
    have hfq := hf.eq_num hq
    subst hfq
    simp only [Bool.or_self, Bool.false_eq_true, if_false]
    refine shift_sig hpos h1 rfl ?_ hn1 hn2
    intro hc
    have hneg := log2_lt_zero hpos h1
    obtain ⟨b1, b2⟩ := log2_bounds hpos
    have hsgn : (Fl.num q).sgn = false := by simp [Fl.sgn, h0]
    unfold Fl.bits80
    simp only [hsgn, Bool.false_eq_true, if_false]
    rw [if_pos (by omega)]
    set e := Int.log 2 |q| with he
    rw [BitVec.toNat_setWidth, BitVec.toNat_ofNat, abs_of_pos hpos]
    have hsc : q / (2 : ℚ) ^ (e - 63) = q * (2 : ℚ) ^ (63 - e) := by
      rw [div_eq_mul_inv, ← zpow_neg]; congr 2; ring
    rw [hsc]
    have hfl0 : 0 ≤ ⌊q * (2 : ℚ) ^ (63 - e)⌋ := by
      rw [Int.le_floor]; push_cast; positivity
    have hfl1 : ⌊q * (2 : ℚ) ^ (63 - e)⌋ < 2 ^ 64 := by
      rw [Int.floor_lt]
      push_cast
      calc q * (2 : ℚ) ^ (63 - e) < (2 : ℚ) ^ (e + 1) * (2 : ℚ) ^ (63 - e) := by
            apply mul_lt_mul_of_pos_right b2 (zpow_pos (by norm_num) _)
        _ = 2 ^ 64 := by rw [← zpow_add₀ (by norm_num)]; rw [show e + 1 + (63 - e) = (64 : ℕ) by push_cast; ring, zpow_natCast]
    change (((0 + _ * 2 ^ 64 + (⌊q * (2 : ℚ) ^ (63 - e)⌋).toNat) % 2 ^ 80 % 2 ^ 64 : ℕ) : ℤ) = _
    obtain ⟨k, hk⟩ := Int.eq_ofNat_of_zero_le hfl0
    rw [hk] at hfl1 ⊢
    have hk64 : k < 2 ^ 64 := by exact_mod_cast hfl1
    have he2 : (e + 16383).toNat < 2 ^ 15 := by omega
    generalize (e + 16383).toNat = E at *
    rw [Int.toNat_natCast]
    have : (0 + E * 2 ^ 64 + k) % 2 ^ 80 % 2 ^ 64 = k := by omega
    rw [this]

/-- The significand of a `double` in `(0, 1)`, shifted to the left. -/
theorem sig_double {q : ℚ} (hpos : 0 < q) (h1 : q < 1) (hr : b64.Rep q) (hc : -1022 ≤ Int.log 2 |q|) :
    (((((Fl.num q).bits64 &&& ((1#64 <<< 52) - 1#64)) ||| (1#64 <<< 52)) <<< (12 - 1)).toNat : ℤ) =
      ⌊q * (2 : ℚ) ^ (63 - Int.log 2 |q|)⌋ := by
  have h0 := hpos.le
  have hq := hpos.ne'
  have hneg := log2_lt_zero hpos h1
  obtain ⟨b1, b2⟩ := log2_bounds hpos
  have hsgn : (Fl.num q).sgn = false := by simp [Fl.sgn, h0]
  unfold Fl.bits64
  simp only [hsgn, Bool.false_eq_true, if_false]
  rw [if_pos (by omega)]
  set e := Int.log 2 |q| with he
  rw [abs_of_pos hpos]
  have hsc : q / (2 : ℚ) ^ (e - 52) = q * (2 : ℚ) ^ (52 - e) := by
    rw [div_eq_mul_inv, ← zpow_neg]; congr 2; ring
  -- the significand is an integer
  obtain ⟨mm, ee, r1, r2, r3⟩ := hr
  have hqe := b64.qexp_le_of_rep hq r1 r2 r3
  have hq52 : e - 52 ≤ ee := by
    refine le_trans ?_ hqe
    unfold Fmt.qexp
    refine le_trans ?_ (le_max_left _ _)
    simp [b64]; omega
  have hint : ∃ j : ℤ, q * (2 : ℚ) ^ (52 - e) = j := by
    refine ⟨mm * 2 ^ (ee + 52 - e).toNat, ?_⟩
    push_cast
    rw [r1, mul_assoc, ← zpow_add₀ (by norm_num), ← zpow_natCast, Int.toNat_of_nonneg (by omega)]
    congr 2; ring
  obtain ⟨j, hj⟩ := hint
  have hj0 : (2 : ℚ) ^ 52 ≤ j := by
    rw [← hj]
    calc (2 : ℚ) ^ 52 = (2 : ℚ) ^ e * (2 : ℚ) ^ (52 - e) := by
          rw [← zpow_add₀ (by norm_num)]; rw [show e + (52 - e) = (52 : ℕ) by push_cast; ring, zpow_natCast]
      _ ≤ q * (2 : ℚ) ^ (52 - e) := mul_le_mul_of_nonneg_right b1 (zpow_pos (by norm_num) _).le
  have hj1 : (j : ℚ) < (2 : ℚ) ^ 53 := by
    rw [← hj]
    calc q * (2 : ℚ) ^ (52 - e) < (2 : ℚ) ^ (e + 1) * (2 : ℚ) ^ (52 - e) := by
          apply mul_lt_mul_of_pos_right b2 (zpow_pos (by norm_num) _)
      _ = 2 ^ 53 := by rw [← zpow_add₀ (by norm_num)]; rw [show e + 1 + (52 - e) = (53 : ℕ) by push_cast; ring, zpow_natCast]
  have hj0' : (2 : ℤ) ^ 52 ≤ j := by exact_mod_cast hj0
  have hj1' : j < (2 : ℤ) ^ 53 := by exact_mod_cast hj1
  have h63 : q * (2 : ℚ) ^ (63 - e) = ((j * 2 ^ 11 : ℤ) : ℚ) := by
    push_cast
    rw [← hj, mul_assoc]
    congr 1
    rw [show (63 - e) = (52 - e) + (11 : ℕ) by push_cast; ring, zpow_add₀ (by norm_num), zpow_natCast]
    norm_num
  rw [h63, Int.floor_intCast, hsc, hj]
  have hfl : (Rat.floor (j : ℚ)) = j := by
    exact Int.floor_intCast (R := ℚ) j
  rw [hfl]
  obtain ⟨k, hk⟩ : ∃ k : ℕ, j = 2 ^ 52 + k := by
    obtain ⟨k, hk⟩ := Int.eq_ofNat_of_zero_le (sub_nonneg.mpr hj0')
    exact ⟨k, by omega⟩
  have hk52 : k < 2 ^ 52 := by
    have : (k : ℤ) < 2 ^ 52 := by omega
    exact_mod_cast this
  have hjn : j.toNat - 2 ^ 52 = k := by omega
  rw [hjn]
  have he2 : (e + 1023).toNat < 2 ^ 11 := by omega
  generalize (e + 1023).toNat = E at *
  have hm1 : ((1#64 <<< 52) - 1#64) = BitVec.ofNat 64 (2 ^ 52 - 1) := by decide
  have hm2 : (1#64 <<< 52) = BitVec.ofNat 64 (2 ^ 52) := by decide
  rw [hm1, hm2]
  have hA : (BitVec.ofNat 64 (0 + E * 2 ^ 52 + k) &&& BitVec.ofNat 64 (2 ^ 52 - 1)).toNat = k := by
    rw [BitVec.toNat_and, BitVec.toNat_ofNat, BitVec.toNat_ofNat,
      Nat.mod_eq_of_lt (by norm_num : 2 ^ 52 - 1 < 2 ^ 64), Nat.and_two_pow_sub_one_eq_mod]
    omega
  have hB : (BitVec.ofNat 64 (0 + E * 2 ^ 52 + k) &&& BitVec.ofNat 64 (2 ^ 52 - 1) |||
      BitVec.ofNat 64 (2 ^ 52)).toNat = 2 ^ 52 + k := by
    rw [BitVec.toNat_or, hA, BitVec.toNat_ofNat, Nat.mod_eq_of_lt (by norm_num : 2 ^ 52 < 2 ^ 64),
      Nat.lor_comm]
    have := Nat.shiftLeft_add_eq_or_of_lt hk52 1
    rw [Nat.one_shiftLeft] at this
    exact this.symm
  rw [BitVec.toNat_shiftLeft, hB, Nat.shiftLeft_eq, hk]
  norm_num
  omega

theorem fracSpec_double : FracSpec b64 float64FractionToRoundedBits := by
  intro f q nb hf h0 h1 hr hn1 hn2
  unfold float64FractionToRoundedBits
  have hnb : (nb == 0) = false := by simp; omega
  by_cases hq : q = 0
  · subst hq
    have : Fl.eq f (Fl.zero false) = true := (Fl.eq_iff hf (Fl.Is.zero false)).mpr rfl
    rw [this]
    exact ⟨0#64, rfl, by simp⟩
  · have hpos : 0 < q := lt_of_le_of_ne h0 (Ne.symm hq)
    have : Fl.eq f (Fl.zero false) = false := by
      rw [Bool.eq_false_iff, ne_eq, Fl.eq_iff hf (Fl.Is.zero false)]; exact hq
    rw [this, hnb]
    have hfq := hf.eq_num hq
    subst hfq
    simp only [Bool.or_self, Bool.false_eq_true, if_false]
    exact shift_sig hpos h1 rfl (fun hc => sig_double hpos h1 hr (by omega)) hn1 hn2

/-! ### The encoder -/

theorem ofInt_toNat {n : ℕ} {a : ℕ} (h : a < 2 ^ n) : (BitVec.ofInt n (a : ℤ)).toNat = a := by
  rw [BitVec.toNat_ofInt]
  have : ((a : ℤ) % ((2 ^ n : ℕ) : ℤ)) = a := Int.emod_eq_of_lt (by positivity) (by exact_mod_cast h)
  rw [this]; rfl

/-- The bits put together. -/
theorem assemble {n : ℕ} (hn : n = 16 ∨ n = 32 ∨ n = 64) (s : Bool) {d r Cb M : ℕ} (hd : d < 16)
    (hr : r ≤ 7) (hC : Cb < 2 ^ r) (hM : M ≤ 2 ^ (n - 5 - r))
    (hk : d * 2 ^ (n - 5) + Cb * 2 ^ (n - 5 - r) + M < 2 ^ (n - 1)) (Mb : BitVec 64) (hMb : Mb.toNat = M) :
    (do let sBits ← shl (BitVec.ofInt n (b2i s)) ((n - 1 : ℕ) : ℤ)
        let dBits ← shl (BitVec.ofNat n d) ((n - 5 : ℕ) : ℤ)
        let cBits ← shl (BitVec.ofInt n (Cb : ℤ)) ((n - 5 - r : ℕ) : ℤ)
        return (sBits ||| dBits ||| cBits) + Mb.setWidth n : C (BitVec n)) =
      .ok (mkT n s (d * 2 ^ (n - 5) + Cb * 2 ^ (n - 5 - r) + M)) := by
  have hn16 : 16 ≤ n := by omega
  have hsz : (b2i s).toNat < 2 ∧ b2i s = ((b2i s).toNat : ℤ) := by cases s <;> decide
  obtain ⟨hs2, hse⟩ := hsz
  have hif : (if s then 1 else 0) = (b2i s).toNat := by cases s <;> rfl
  generalize (b2i s).toNat = sn at *
  have p1 : 2 ^ n = 2 * 2 ^ (n - 1) := by rw [← pow_succ']; congr 1; omega
  have p2 : 2 ^ (n - 1) = 16 * 2 ^ (n - 5) := pow16 (by omega)
  have p3 : 2 ^ (n - 5) = 2 ^ r * 2 ^ (n - 5 - r) := by rw [← pow_add]; congr 1; omega
  have p4 : 2 ^ 16 ≤ 2 ^ n := Nat.pow_le_pow_right (by norm_num) hn16
  have hr7 : 2 ^ r ≤ 2 ^ 7 := Nat.pow_le_pow_right (by norm_num) hr
  have hW : 0 < 2 ^ (n - 5) := by positivity
  have hP : 0 < 2 ^ (n - 5 - r) := by positivity
  have hCP : Cb * 2 ^ (n - 5 - r) < 2 ^ (n - 5) := by
    rw [p3]; exact Nat.mul_lt_mul_of_pos_right hC hP
  have hdW : d * 2 ^ (n - 5) < 2 ^ (n - 1) := by
    rw [p2]; exact Nat.mul_lt_mul_of_pos_right hd hW
  have hsn : (BitVec.ofInt n (b2i s)).toNat = sn := by rw [hse]; exact ofInt_toNat (by omega)
  have hdn : (BitVec.ofNat n d).toNat = d := by
    rw [BitVec.toNat_ofNat, Nat.mod_eq_of_lt (by omega)]
  have hcn : (BitVec.ofInt n (Cb : ℤ)).toNat = Cb := ofInt_toNat (by omega)
  have hsW : sn * 2 ^ (n - 1) ≤ 2 ^ (n - 1) := by
    calc sn * 2 ^ (n - 1) ≤ 1 * 2 ^ (n - 1) := Nat.mul_le_mul_right _ (by omega)
      _ = _ := one_mul _
  have q1 : shl (BitVec.ofInt n (b2i s)) ((n - 1 : ℕ) : ℤ) = .ok (BitVec.ofInt n (b2i s) <<< (n - 1)) := by
    apply shl_ok
    · intro h32
      rw [hsn]
      have : n = 16 := by omega
      subst this; omega
    · left; omega
  have q2 : shl (BitVec.ofNat n d) ((n - 5 : ℕ) : ℤ) = .ok (BitVec.ofNat n d <<< (n - 5)) := by
    apply shl_ok
    · intro h32
      rw [hdn]
      have : n = 16 := by omega
      subst this; omega
    · left; omega
  have q3 : shl (BitVec.ofInt n (Cb : ℤ)) ((n - 5 - r : ℕ) : ℤ) =
      .ok (BitVec.ofInt n (Cb : ℤ) <<< (n - 5 - r)) := by
    apply shl_ok
    · intro h32
      rw [hcn]
      refine ⟨by omega, ?_⟩
      have : n = 16 := by omega
      have : 2 ^ (n - 5) = 2 ^ 11 := by subst this; rfl
      omega
    · left; omega
  simp only [q1, q2, q3, bind, Except.bind, pure, Except.pure]
  congr 1
  apply BitVec.eq_of_toNat_eq
  rw [mkT_toNat (by omega) s hk, hif]
  have e1 : (BitVec.ofInt n (b2i s) <<< (n - 1)).toNat = sn <<< (n - 1) := by
    rw [BitVec.toNat_shiftLeft, hsn, Nat.shiftLeft_eq, Nat.mod_eq_of_lt (by omega)]
  have e2 : (BitVec.ofNat n d <<< (n - 5)).toNat = d <<< (n - 5) := by
    rw [BitVec.toNat_shiftLeft, hdn, Nat.shiftLeft_eq, Nat.mod_eq_of_lt (by omega)]
  have e3 : (BitVec.ofInt n (Cb : ℤ) <<< (n - 5 - r)).toNat = Cb <<< (n - 5 - r) := by
    rw [BitVec.toNat_shiftLeft, hcn, Nat.shiftLeft_eq, Nat.mod_eq_of_lt (by omega)]
  have o1 : sn <<< (n - 1) ||| d <<< (n - 5) = (sn * 16 + d) <<< (n - 5) := by
    rw [← Nat.shiftLeft_add_eq_or_of_lt (by rw [Nat.shiftLeft_eq]; exact hdW)]
    simp only [Nat.shiftLeft_eq]
    rw [p2]; ring
  have o2 : (sn * 16 + d) <<< (n - 5) ||| Cb <<< (n - 5 - r) =
      sn * 2 ^ (n - 1) + d * 2 ^ (n - 5) + Cb * 2 ^ (n - 5 - r) := by
    rw [← Nat.shiftLeft_add_eq_or_of_lt (by rw [Nat.shiftLeft_eq]; exact hCP)]
    simp only [Nat.shiftLeft_eq]
    rw [p2]; ring
  have e4 : (Mb.setWidth n).toNat = M := by
    rw [BitVec.toNat_setWidth, hMb, Nat.mod_eq_of_lt]
    have : 2 ^ (n - 5 - r) ≤ 2 ^ (n - 5) := Nat.pow_le_pow_right (by norm_num) (by omega)
    omega
  rw [BitVec.toNat_add, BitVec.toNat_or, BitVec.toNat_or, e1, e2, e3, o1, o2, e4,
    Nat.mod_eq_of_lt (by omega)]
  ring

/-- The part of the encoder after the splitting into characteristic and mantissa. -/
theorem enc_tail {n : ℕ} (hn : n = 16 ∨ n = 32 ∨ n = 64) {F : Fmt} {frac : Fl → ℕ → C (BitVec 64)}
    (hfrac : FracSpec F frac) (s : Bool) {c : ℤ} {m : Fl} {q : ℚ} (hm : m.Is q) (q0 : 0 ≤ q)
    (q1 : q < 1) (hq : F.Rep q) {y : ℚ} (hy : y = c + ((⌊q * 2 ^ 64⌋ : ℤ) : ℚ) / 2 ^ 64)
    (hy1 : psi (1 / ((2 ^ (n - 5) : ℕ) : ℚ)) ≤ y)
    (hy2 : y ≤ psi ((kMax n : ℚ) / ((2 ^ (n - 5) : ℕ) : ℚ))) :
    (do let DR ← getDRFromC c
        let p16 ← lut pLut DR
        let M ← frac m (p16 + (n - 16))
        let b ← lut cBiasLut DR
        let sBits ← shl (BitVec.ofInt n (b2i s)) (n - 1)
        let dBits ← shl (BitVec.ofNat n DR) (n - 5)
        let cBits ← shl (BitVec.ofInt n (c - b)) ((p16 + (n - 16) : ℕ) : ℤ)
        return (sBits ||| dBits ||| cBits) + M.setWidth n : C (BitVec n)) =
      .ok (mkT n s (nearK n (psiInv y))) := by
  have hn16 : 16 ≤ n := by omega
  have hn64 : n ≤ 64 := by omega
  have hkm := kMax_add_one n
  have hkp := kMax_pos (by omega : 2 ≤ n)
  have h16 := pow16 (by omega : 5 ≤ n)
  have hW : 0 < 2 ^ (n - 5) := by positivity
  have hWq : (0 : ℚ) < ((2 ^ (n - 5) : ℕ) : ℚ) := by exact_mod_cast hW
  have hlow0 : (0 : ℚ) ≤ 1 / ((2 ^ (n - 5) : ℕ) : ℚ) := by positivity
  have hlow16 : 1 / ((2 ^ (n - 5) : ℕ) : ℚ) < 16 := by
    rw [div_lt_iff₀ hWq]; exact_mod_cast (by omega : 1 < 16 * 2 ^ (n - 5))
  have hhi0 : (0 : ℚ) ≤ (kMax n : ℚ) / ((2 ^ (n - 5) : ℕ) : ℚ) := by positivity
  have hhi16 : (kMax n : ℚ) / ((2 ^ (n - 5) : ℕ) : ℚ) < 16 := by
    rw [div_lt_iff₀ hWq]; exact_mod_cast (by omega : kMax n < 16 * 2 ^ (n - 5))
  have ly : -255 ≤ y := (psi_ge hlow0 hlow16).trans hy1
  have hy' : y < 255 := lt_of_le_of_lt hy2 (psi_lt_255 hhi0 hhi16)
  -- the floor of y
  have hF0 : 0 ≤ ⌊q * 2 ^ 64⌋ := by rw [Int.le_floor]; push_cast; positivity
  have hF1 : ⌊q * 2 ^ 64⌋ < 2 ^ 64 := by rw [Int.floor_lt]; push_cast; linarith
  set Fz := ⌊q * 2 ^ 64⌋ with hFz
  have hF0q : (0 : ℚ) ≤ (Fz : ℚ) / 2 ^ 64 := by
    have : (0 : ℚ) ≤ Fz := by exact_mod_cast hF0
    positivity
  have hF1q : (Fz : ℚ) / 2 ^ 64 < 1 := by
    rw [div_lt_one (by positivity)]; exact_mod_cast hF1
  have hfloor : ⌊y⌋ = c := by
    rw [Int.floor_eq_iff, hy]; exact ⟨by linarith, by linarith⟩
  have c1 : -255 ≤ c := by rw [← hfloor, Int.le_floor]; exact_mod_cast ly
  have c2 : c < 255 := by rw [← hfloor, Int.floor_lt]; exact_mod_cast hy'
  obtain ⟨g1, d16, b1, b2⟩ := drOf_spec c1 c2
  obtain ⟨u0, u16, hu⟩ := psiInv_spec ly hy'
  have ul : 1 / ((2 ^ (n - 5) : ℕ) : ℚ) ≤ psiInv y := by
    rw [← psi_le_iff hlow0 hlow16 u0 u16, hu]; exact hy1
  have uh : psiInv y ≤ (kMax n : ℚ) / ((2 ^ (n - 5) : ℕ) : ℚ) := by
    rw [← psi_le_iff u0 u16 hhi0 hhi16, hu]; exact hy2
  have hpsi : psiInv y = drOf c + (y - bias (drOf c)) / 2 ^ rr (drOf c) := by
    unfold psiInv; rw [hfloor]
  generalize drOf c = d at *
  have hr := rr_le d d16
  obtain ⟨C, hC⟩ := Int.eq_ofNat_of_zero_le (by omega : 0 ≤ c - bias d)
  have hClt : C < 2 ^ rr d := by
    have : (C : ℤ) < 2 ^ rr d := by omega
    exact_mod_cast this
  have hp : 11 - rr d + (n - 16) = n - 5 - rr d := by omega
  obtain ⟨M, hM1, hM2⟩ := hfrac m q (n - 5 - rr d) hm q0 q1 hq (by omega) (by omega)
  -- the rounded position
  have hexp : psiInv y * ((2 ^ (n - 5) : ℕ) : ℚ) =
      (Fz : ℚ) / ((2 ^ (64 - (n - 5 - rr d)) : ℕ) : ℚ) +
        ((d * 2 ^ (n - 5) + C * 2 ^ (n - 5 - rr d) : ℤ) : ℚ) := by
    have w1 : ((2 ^ (n - 5) : ℕ) : ℚ) = 2 ^ rr d * 2 ^ (n - 5 - rr d) := by
      push_cast; rw [← pow_add]; congr 1; omega
    have w2 : (2 : ℚ) ^ 64 = 2 ^ (n - 5 - rr d) * 2 ^ (64 - (n - 5 - rr d)) := by
      rw [← pow_add]; congr 1; omega
    have w3 : (c : ℚ) = bias d + C := by
      have : c = bias d + C := by omega
      rw [this]; push_cast; rfl
    rw [hpsi, hy, w3, w2]
    push_cast
    push_cast at w1
    rw [w1]
    field_simp
    ring
  have heven : (d * 2 ^ (n - 5) + C * 2 ^ (n - 5 - rr d) : ℤ) % 2 = 0 := by
    obtain ⟨j, hj⟩ : ∃ j, n - 5 = j + 1 := ⟨n - 6, by omega⟩
    obtain ⟨k, hk⟩ : ∃ k, n - 5 - rr d = k + 1 := ⟨n - 6 - rr d, by omega⟩
    rw [hk, hj, pow_succ, pow_succ, ← mul_assoc, ← mul_assoc]; omega
  have hrne : rne (psiInv y * ((2 ^ (n - 5) : ℕ) : ℚ)) =
      ((d * 2 ^ (n - 5) + C * 2 ^ (n - 5 - rr d) + M.toNat : ℕ) : ℤ) := by
    rw [hexp, rne_add_even _ _ heven, ← hM2]; push_cast; ring
  have k1 : (1 : ℤ) ≤ rne (psiInv y * ((2 ^ (n - 5) : ℕ) : ℚ)) := by
    apply le_rne_of_le
    rw [div_le_iff₀ hWq] at ul
    simpa using ul
  have k2 : rne (psiInv y * ((2 ^ (n - 5) : ℕ) : ℚ)) ≤ (kMax n : ℤ) := by
    apply rne_le_of_le
    rw [le_div_iff₀ hWq] at uh
    simpa using uh
  have hnear : nearK n (psiInv y) = d * 2 ^ (n - 5) + C * 2 ^ (n - 5 - rr d) + M.toNat := by
    unfold nearK
    rw [hrne] at k1 k2 ⊢
    rw [min_eq_left k2, max_eq_right k1, Int.toNat_natCast]
  have hMle : M.toNat ≤ 2 ^ (n - 5 - rr d) := by
    have : (M.toNat : ℤ) ≤ ((2 ^ (n - 5 - rr d) : ℕ) : ℤ) := by
      rw [hM2]
      apply rne_le_of_le
      rw [div_le_iff₀ (by positivity)]
      have : ((2 ^ (n - 5 - rr d) : ℕ) : ℤ) * ((2 ^ (64 - (n - 5 - rr d)) : ℕ) : ℤ) = 2 ^ 64 := by
        push_cast
        rw [← pow_add, show n - 5 - rr d + (64 - (n - 5 - rr d)) = 64 by omega]
        norm_num
      have h2 := hF1.le
      rw [← this] at h2
      exact_mod_cast h2
    exact_mod_cast this
  have hass := assemble hn s d16 hr hClt hMle (by rw [← hnear]; have := nearK_le (by omega : 2 ≤ n) (psiInv y); omega) M rfl
  rw [g1]
  simp only [bind, Except.bind, lut_p d d16, lut_bias d d16, hp, hM1, hC]
  have i1 : ((n : ℤ) - 1) = ((n - 1 : ℕ) : ℤ) := by omega
  have i2 : ((n : ℤ) - 5) = ((n - 5 : ℕ) : ℤ) := by omega
  rw [i1, i2, hnear]
  exact hass

/-- Clamping, src/codec.c:756-761 and the like. -/
def clampB (B q : ℚ) : ℚ := max (-B) (min q B)

theorem clampB_le {B : ℚ} (h : 0 ≤ B) (q : ℚ) : -B ≤ clampB B q ∧ clampB B q ≤ B := by
  unfold clampB
  exact ⟨le_max_left _ _, max_le (by linarith) (min_le_right _ _)⟩

theorem clampB_mono (B : ℚ) {q q' : ℚ} (h : q ≤ q') : clampB B q ≤ clampB B q' := by
  unfold clampB
  exact max_le_max (le_refl _) (min_le_min h (le_refl _))

theorem clampB_neg {B : ℚ} (h : 0 ≤ B) (q : ℚ) : clampB B (-q) = -clampB B q := by
  unfold clampB
  rw [max_def, max_def, min_def, min_def]
  split_ifs <;> linarith

theorem clampB_of_abs_le {B q : ℚ} (h : |q| ≤ B) : clampB B q = q := by
  obtain ⟨h1, h2⟩ := abs_le.mp h
  unfold clampB
  rw [min_eq_left h2, max_eq_right h1]

theorem clampB_abs {B : ℚ} (h : 0 ≤ B) (q : ℚ) : |clampB B q| ≤ B := abs_le.mpr (clampB_le h q)

theorem sg_clampB {B : ℚ} (h : 0 ≤ B) (s : Bool) (q : ℚ) : sg s * clampB B q = clampB B (sg s * q) := by
  cases s
  · simp [sg]
  · simp only [sg, if_true, neg_mul, one_mul]; rw [clampB_neg h]

/-- What is assumed of the parameters of an encoder. -/
structure EncOK (n : ℕ) (F : Fmt) (B : ℚ) (frac : Fl → ℕ → C (BitVec 64)) : Prop where
  hn : n = 16 ∨ n = 32 ∨ n = 64
  prec : 53 ≤ F.prec
  emin : F.emin ≤ -64
  emax : 128 ≤ F.emax
  rep : F.Rep B
  bound : B = psi ((kMax n : ℚ) / ((2 ^ (n - 5) : ℕ) : ℚ))
  boundl : -B = psi (1 / ((2 ^ (n - 5) : ℕ) : ℚ))
  yB : yv F B = B
  yB' : yv F (-B) = -B
  posB : 0 < B
  ltB : B < 255
  frac : FracSpec F frac

theorem enc_small {n : ℕ} {F : Fmt} {B : ℚ} {frac : Fl → ℕ → C (BitVec 64)} (H : EncOK n F B frac) {z : ℚ}
    (h1 : F.Rep z) (h2 : |z| < 256) : F.In z :=
  in_of_rep H.emax h1 (h2.trans (by norm_num))

/-- The factor `1 - 2 * s`. -/
theorem enc_sgn {n : ℕ} {F : Fmt} {B : ℚ} {frac : Fl → ℕ → C (BitVec 64)} (H : EncOK n F B frac) (s : Bool) :
    (Fl.ofInt F (1 - 2 * b2i s)).Is (sg s) := by
  have hprec : 1 ≤ F.prec := by have := H.prec; omega
  have hemin : F.emin ≤ 0 := by have := H.emin; omega
  have hone : F.Rep 1 := by simpa using Fmt.Rep.zpow (F := F) hprec (k := 0) hemin
  have : ((1 - 2 * b2i s : ℤ) : ℚ) = sg s := by cases s <;> norm_num [sg, b2i]
  rw [← this]
  apply Fl.Is.ofInt_in
  rw [this]
  apply enc_small H
  · cases s
    · simpa [sg] using hone
    · simpa [sg] using hone.neg
  · cases s <;> norm_num [sg]

/-- The encoder when the clamped argument with its sign is the number `x`. -/
theorem enc_core {n : ℕ} {F : Fmt} {B : ℚ} {frac : Fl → ℕ → C (BitVec 64)} (H : EncOK n F B frac)
    (s : Bool) {l : Fl} (hnan : l.isnan = false) (hinf : l.isinf = false) {x : ℚ}
    (hcpm : (Fl.mul F (Fl.ofInt F (1 - 2 * b2i s)) (if Fl.lt l (Fl.num B).neg then (Fl.num B).neg
      else if Fl.lt (.num B) l then .num B else l)).Is x) (hxabs : |x| ≤ B) :
    fromSAndLGen n F B frac s l = .ok (mkT n s (nearK n (psiInv (yv F x)))) := by
  have hprec : 1 ≤ F.prec := by have := H.prec; omega
  have hemin : F.emin ≤ 0 := by have := H.emin; omega
  obtain ⟨hx1, hx2⟩ := abs_le.mp hxabs
  have small : ∀ z : ℚ, F.Rep z → |z| < 256 → F.In z := fun z => enc_small H
  unfold fromSAndLGen
  simp only [hnan, hinf, Bool.false_and, Bool.or_self, Bool.false_eq_true, if_false]
  generalize (Fl.mul F (Fl.ofInt F (1 - 2 * b2i s)) (if Fl.lt l (Fl.num B).neg then (Fl.num B).neg
    else if Fl.lt (.num B) l then .num B else l)) = cpm at hcpm
  -- the floor
  have hf1 : -255 ≤ ⌊x⌋ := by
    rw [Int.le_floor]; push_cast; have := H.ltB; linarith
  have hf2 : ⌊x⌋ < 255 := by
    rw [Int.floor_lt]; push_cast; have := H.ltB; linarith
  have hti : Fl.toInt 64 (Fl.floor cpm) = .ok ⌊x⌋ := hcpm.floor.toInt (by constructor <;> norm_num <;> omega)
  have hci : (Fl.ofInt F ⌊x⌋).Is (⌊x⌋ : ℤ) := by
    apply Fl.Is.ofInt_in
    apply small
    · apply Fmt.Rep.int hemin
      have : (2 : ℤ) ^ 53 ≤ 2 ^ F.prec := pow_le_pow_right₀ (by norm_num) H.prec
      rw [abs_lt]; omega
    · rw [abs_lt]; constructor
      · exact_mod_cast (by omega : -256 < ⌊x⌋)
      · exact_mod_cast (by omega : ⌊x⌋ < 256)
  obtain ⟨m0, m1⟩ := rq_fract_le F hprec hemin x
  have hmI : (Fl.sub F cpm (Fl.ofInt F ⌊x⌋)).Is (F.rq (Int.fract x)) := by
    apply hcpm.sub hci
    rw [show x - (⌊x⌋ : ℤ) = Int.fract x from rfl, abs_of_nonneg m0]
    exact lt_of_lt_of_le (by linarith : F.rq (Int.fract x) < 2 ^ 128) (zpow_big H.emax)
  have hyl : psi (1 / ((2 ^ (n - 5) : ℕ) : ℚ)) ≤ yv F x := by
    rw [← H.boundl, ← H.yB']; exact yv_mono F hprec hemin hx1
  have hyh : yv F x ≤ psi ((kMax n : ℚ) / ((2 ^ (n - 5) : ℕ) : ℚ)) := by
    rw [← H.bound]
    have := yv_mono F hprec hemin hx2
    rwa [H.yB] at this
  have hneI : (Fl.num 1).Is 1 := Fl.Is.num one_ne_zero
  by_cases hm : F.rq (Int.fract x) = 1
  · have he : Fl.eq (Fl.sub F cpm (Fl.ofInt F ⌊x⌋)) (.num 1) = true := (Fl.eq_iff hmI hneI).mpr hm
    simp only [hti, bind, Except.bind, he, if_true]
    refine enc_tail H.hn H.frac s (Fl.Is.zero false) (le_refl _) (by norm_num) (Fmt.Rep.zero F) ?_ hyl hyh
    unfold yv
    rw [hm]
    rw [show (1 : ℚ) * 2 ^ 64 = ((2 ^ 64 : ℤ) : ℚ) by norm_num, Int.floor_intCast]
    push_cast; norm_num
  · have he : Fl.eq (Fl.sub F cpm (Fl.ofInt F ⌊x⌋)) (.num 1) = false := by
      rw [Bool.eq_false_iff, ne_eq, Fl.eq_iff hmI hneI]; exact hm
    simp only [hti, bind, Except.bind, he, Bool.false_eq_true, if_false]
    exact enc_tail H.hn H.frac s hmI m0 (lt_of_le_of_ne m1 hm) (F.rq_rep hprec _) rfl hyl hyh

theorem enc_spec {n : ℕ} {F : Fmt} {B : ℚ} {frac : Fl → ℕ → C (BitVec 64)} (H : EncOK n F B frac)
    (s : Bool) {l : Fl} {q : ℚ} (hl : l.Is q) (hq : F.Rep q) :
    fromSAndLGen n F B frac s l = .ok (mkT n s (nearK n (psiInv (yv F (clampB B (sg s * q)))))) := by
  have hB := H.posB
  have hBI : (Fl.num B).Is B := Fl.Is.num hB.ne'
  have hprec : 1 ≤ F.prec := by have := H.prec; omega
  have hemin : F.emin ≤ 0 := by have := H.emin; omega
  -- clamping
  have hcl : (if Fl.lt l (Fl.num B).neg then (Fl.num B).neg
    else if Fl.lt (.num B) l then .num B else l).Is (clampB B q) := by
    unfold clampB
    by_cases h1 : q < -B
    · rw [if_pos ((Fl.lt_iff hl hBI.neg).mpr h1), min_eq_left (by linarith), max_eq_left h1.le]
      exact hBI.neg
    · rw [if_neg (by rw [Fl.lt_iff hl hBI.neg]; exact h1)]
      push Not at h1
      by_cases h2 : B < q
      · rw [if_pos ((Fl.lt_iff hBI hl).mpr h2), min_eq_right h2.le, max_eq_right (by linarith)]
        exact hBI
      · rw [if_neg (by rw [Fl.lt_iff hBI hl]; exact h2)]
        push Not at h2
        rw [min_eq_left h2, max_eq_right h1]; exact hl
  have hclr : F.Rep (clampB B q) := by
    unfold clampB
    rcases max_choice (-B) (min q B) with h | h <;> rw [h]
    · exact H.rep.neg
    · rcases min_choice q B with h | h <;> rw [h]
      · exact hq
      · exact H.rep
  rw [← sg_clampB hB.le]
  set x := sg s * clampB B q with hx
  have hxabs : |x| ≤ B := by rw [hx, sg_abs]; exact clampB_abs hB.le q
  have hxrep : F.Rep x := by
    rw [hx]; cases s
    · simpa [sg] using hclr
    · simpa [sg] using hclr.neg
  have small : ∀ z : ℚ, F.Rep z → |z| < 256 → F.In z := fun z h1 h2 =>
    in_of_rep H.emax h1 (h2.trans (by norm_num))
  have hxin : F.In x := enc_small H hxrep (by have := H.ltB; linarith)
  exact enc_core H s hl.isnan hl.isinf (Is.round_in hxin (fun h => (enc_sgn H s).mul hcl h)) hxabs

/-! ### The four encoders -/

theorem psi_kMax {n : ℕ} (hn : 12 ≤ n) : psi ((kMax n : ℚ) / ((2 ^ (n - 5) : ℕ) : ℚ)) = 255 - 1 / 2 ^ (n - 12) := by
  have hkm := kMax_add_one n
  have h16 := pow16 (by omega : 5 ≤ n)
  have hW : (0 : ℚ) < ((2 ^ (n - 5) : ℕ) : ℚ) := by positivity
  have hk : (kMax n : ℚ) = 16 * ((2 ^ (n - 5) : ℕ) : ℚ) - 1 := by
    rw [h16] at hkm
    have : ((kMax n + 1 : ℕ) : ℚ) = ((16 * 2 ^ (n - 5) : ℕ) : ℚ) := by rw [hkm]
    push_cast at this ⊢; linarith
  have hp : ((2 ^ (n - 5) : ℕ) : ℚ) = 2 ^ 7 * 2 ^ (n - 12) := by
    push_cast; rw [← pow_add]; congr 1; omega
  have h1 : (1 : ℚ) ≤ ((2 ^ (n - 5) : ℕ) : ℚ) := by exact_mod_cast (by positivity : 0 < 2 ^ (n - 5))
  rw [psi_eq_piece (d := 15)]
  · unfold piece
    rw [hk, hp, show bias 15 = 127 by decide, show rr 15 = 7 by decide]
    field_simp
    push_cast
    ring
  · rw [le_div_iff₀ hW, hk]; push_cast at *; linarith
  · rw [div_lt_iff₀ hW, hk]; push_cast at *; linarith

theorem psi_one {n : ℕ} (hn : 12 ≤ n) : psi (1 / ((2 ^ (n - 5) : ℕ) : ℚ)) = -(255 - 1 / 2 ^ (n - 12)) := by
  have hW : (0 : ℚ) < ((2 ^ (n - 5) : ℕ) : ℚ) := by positivity
  have h1 : (1 : ℚ) < ((2 ^ (n - 5) : ℕ) : ℚ) := by
    exact_mod_cast (Nat.one_lt_two_pow (by omega) : 1 < 2 ^ (n - 5))
  rw [← psi_kMax hn, ← psi_symm (by
      have := kMax_pos (by omega : 2 ≤ n)
      have : (0 : ℚ) < kMax n := by exact_mod_cast this
      positivity) (by
      rw [div_lt_iff₀ hW]
      have hkm := kMax_add_one n
      rw [pow16 (by omega)] at hkm
      exact_mod_cast (by omega : kMax n < 16 * 2 ^ (n - 5)))]
  congr 1
  have hkm := kMax_add_one n
  rw [pow16 (by omega)] at hkm
  have : ((kMax n + 1 : ℕ) : ℚ) = ((16 * 2 ^ (n - 5) : ℕ) : ℚ) := by rw [hkm]
  push_cast at this ⊢
  field_simp
  linarith

theorem encOK16 : EncOK 16 b64 254.9375 float64FractionToRoundedBits where
  hn := by omega
  prec := by decide
  emin := by decide
  emax := by decide
  rep := ⟨4079, -4, by norm_num, by decide, by decide⟩
  bound := by rw [psi_kMax (by omega)]; norm_num
  boundl := by rw [psi_one (by omega)]; norm_num
  yB := by decide +kernel
  yB' := by decide +kernel
  posB := by norm_num
  ltB := by norm_num
  frac := fracSpec_double

theorem encOK32 : EncOK 32 x80 254.99999904632568359375 extendedFractionToRoundedBits where
  hn := by omega
  prec := by decide
  emin := by decide
  emax := by decide
  rep := ⟨255 * 2 ^ 20 - 1, -20, by norm_num, by decide, by decide⟩
  bound := by rw [psi_kMax (by omega)]; norm_num
  boundl := by rw [psi_one (by omega)]; norm_num
  yB := by decide +kernel
  yB' := by decide +kernel
  posB := by norm_num
  ltB := by norm_num
  frac := fracSpec_extended

theorem bound64 : x80.rq (254.999999999999999777955395074968691915273666381835938 : ℚ) = 255 - 1 / 2 ^ 52 := by
  decide +kernel

theorem encOK64 : EncOK 64 x80
    (x80.rq (254.999999999999999777955395074968691915273666381835938 : ℚ))
    extendedFractionToRoundedBits where
  hn := by omega
  prec := by decide
  emin := by decide
  emax := by decide
  rep := by rw [bound64]; exact ⟨255 * 2 ^ 52 - 1, -52, by norm_num, by decide, by decide⟩
  bound := by rw [bound64, psi_kMax (by omega)]
  boundl := by rw [bound64, psi_one (by omega)]
  yB := by rw [bound64]; decide +kernel
  yB' := by rw [bound64]; decide +kernel
  posB := by rw [bound64]; norm_num
  ltB := by rw [bound64]; norm_num
  frac := fracSpec_extended

/-- The format in which the encoder of a width computes. -/
def W.encF : W → Fmt
  | .w16 => b64
  | _ => x80

/-- The number of bits the encoder of a width produces (`takum8` goes through `takum32`). -/
def W.encN : W → ℕ
  | .w8 => 32
  | w => w.n

/-- The largest logarithmic value the encoder of a width can produce before narrowing. -/
def W.encB (w : W) : ℚ := 255 - 1 / 2 ^ (w.encN - 12)

theorem encGen_spec (w : W) (hw : w ≠ .w8) (s : Bool) {l : Fl} {q : ℚ} (hl : l.Is q) (hq : w.encF.Rep q) :
    fromSAndL w s l = .ok (mkT w.n s (nearK w.n (psiInv (yv w.encF (clampB w.encB (sg s * q)))))) := by
  cases w
  · exact absurd rfl hw
  · have := enc_spec encOK16 s hl hq
    rw [show (254.9375 : ℚ) = W.encB .w16 by norm_num [W.encB, W.encN, W.n]] at this
    refine Eq.trans ?_ this
    show fromSAndLGen 16 b64 254.9375 _ s l = _
    rw [show (254.9375 : ℚ) = W.encB .w16 by norm_num [W.encB, W.encN, W.n]]
  · have := enc_spec encOK32 s hl hq
    rw [show (254.99999904632568359375 : ℚ) = W.encB .w32 by norm_num [W.encB, W.encN, W.n]] at this
    refine Eq.trans ?_ this
    show fromSAndLGen 32 x80 254.99999904632568359375 _ s l = _
    rw [show (254.99999904632568359375 : ℚ) = W.encB .w32 by norm_num [W.encB, W.encN, W.n]]
  · have := enc_spec encOK64 s hl hq
    rw [bound64] at this
    show fromSAndLGen 64 x80 _ _ s l = _
    rw [bound64]; exact this

theorem encB_lt (w : W) : w.encB < 255 ∧ 254 < w.encB := by cases w <;> norm_num [W.encB, W.encN, W.n]

theorem enc_nan (w : W) (s : Bool) : fromSAndL w s .nan = .ok (nar w.n) := by
  have h16 : fromSAndL .w16 s .nan = .ok (nar 16) := by
    rw [← NAR_eq (by omega)]; rfl
  have h32 : fromSAndL .w32 s .nan = .ok (nar 32) := by
    rw [← NAR_eq (by omega)]; rfl
  have h64 : fromSAndL .w64 s .nan = .ok (nar 64) := by
    rw [← NAR_eq (by omega)]; rfl
  cases w
  · show takum8FromSAndL s .nan = _
    unfold takum8FromSAndL
    rw [show takum32FromSAndL s .nan = .ok (nar 32) from h32]
    exact reduce_nar (a := .w32) (b := .w8) (by decide)
  · exact h16
  · exact h32
  · exact h64

theorem enc_inf_pos (w : W) (s : Bool) : fromSAndL w s (.inf false) = .ok (nar w.n) := by
  have h16 : fromSAndL .w16 s (.inf false) = .ok (nar 16) := by
    rw [← NAR_eq (by omega)]; rfl
  have h32 : fromSAndL .w32 s (.inf false) = .ok (nar 32) := by
    rw [← NAR_eq (by omega)]; rfl
  have h64 : fromSAndL .w64 s (.inf false) = .ok (nar 64) := by
    rw [← NAR_eq (by omega)]; rfl
  cases w
  · show takum8FromSAndL s (.inf false) = _
    unfold takum8FromSAndL
    rw [show takum32FromSAndL s (.inf false) = .ok (nar 32) from h32]
    exact reduce_nar (a := .w32) (b := .w8) (by decide)
  · exact h16
  · exact h32
  · exact h64

theorem enc_inf_neg (w : W) (s : Bool) : fromSAndL w s (.inf true) = .ok 0#w.n := by
  have h32 : fromSAndL .w32 s (.inf true) = .ok 0#32 := rfl
  cases w
  · show takum8FromSAndL s (.inf true) = _
    unfold takum8FromSAndL
    rw [show takum32FromSAndL s (.inf true) = .ok 0#32 from h32]
    exact reduce_zero (a := .w32) (b := .w8) (by decide)
  all_goals rfl

/-- The position of the encoder's result before the (last) narrowing. -/
def W.encU (w : W) (x : ℚ) : ℚ :=
  match w with
  | .w8 => (nearK W.w32.n (psiInv (yv x80 (clampB W.w32.encB x))) : ℚ) / ((2 ^ (W.w32.n - 5) : ℕ) : ℚ)
  | w => psiInv (yv w.encF (clampB w.encB x))

theorem encU_ne (w : W) (hw : w ≠ .w8) (x : ℚ) : w.encU x = psiInv (yv w.encF (clampB w.encB x)) := by
  cases w
  · exact absurd rfl hw
  all_goals simp only [W.encU]

theorem encU_w8 (x : ℚ) : W.w8.encU x =
    (nearK W.w32.n (W.w32.encU x) : ℚ) / ((2 ^ (W.w32.n - 5) : ℕ) : ℚ) := by
  simp only [W.encU, W.encF]

theorem ok_bind {α β : Type} (x : α) (f : α → C β) : ((Except.ok x : C α) >>= f) = f x := rfl

theorem fromSAndL_w8 (s : Bool) (l : Fl) :
    fromSAndL .w8 s l = (do let t ← fromSAndL .w32 s l; reduce .w32 .w8 t) := by
  simp only [fromSAndL, takum8FromSAndL]

theorem fromSAndL_spec' (w : W) (hw : w ≠ .w8) (s : Bool) {l : Fl} {q : ℚ} (hl : l.Is q)
    (hq : w.encF.Rep q) :
    fromSAndL w s l = .ok (mkT w.n s (nearK w.n (w.encU (sg s * q)))) := by
  rw [encGen_spec w hw s hl hq, encU_ne w hw]

theorem reduce_mkT (s : Bool) {k : ℕ} (hk1 : 1 ≤ k) (hk : k < 2 ^ (W.w32.n - 1)) :
    reduce .w32 .w8 (mkT W.w32.n s k) =
      .ok (mkT W.w8.n s (nearK W.w8.n ((k : ℚ) / ((2 ^ (W.w32.n - 5) : ℕ) : ℚ)))) := by
  have h1 : 1 ≤ W.w32.n := by decide
  have := reduce_regular (a := .w32) (b := .w8) (by decide) (regular_mkT h1 s hk1 hk)
  rw [mkT_msb h1 s hk, pos_mkT h1 s hk] at this
  exact this

theorem fromSAndL_spec8 (s : Bool) {l : Fl} {q : ℚ} (hl : l.Is q) (hq : x80.Rep q) :
    fromSAndL .w8 s l = .ok (mkT W.w8.n s (nearK W.w8.n (W.w8.encU (sg s * q)))) := by
  have h := fromSAndL_spec' .w32 (by decide) s hl hq
  have hk := nearK_lt (n := W.w32.n) (by decide) (W.w32.encU (sg s * q))
  have hk1 := nearK_pos W.w32.n (W.w32.encU (sg s * q))
  rw [encU_w8, ← reduce_mkT s hk1 hk, fromSAndL_w8, h, ok_bind]

/-- The encoder, for all widths. -/
theorem fromSAndL_spec (w : W) (s : Bool) {l : Fl} {q : ℚ} (hl : l.Is q) (hq : w.encF.Rep q) :
    fromSAndL w s l = .ok (mkT w.n s (nearK w.n (w.encU (sg s * q)))) := by
  by_cases hw : w = .w8
  · subst hw; exact fromSAndL_spec8 s hl hq
  · exact fromSAndL_spec' w hw s hl hq

end Takum
