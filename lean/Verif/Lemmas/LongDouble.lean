import Verif.Model.LongDouble
import Verif.Lemmas.EncodeCor

/-! # The encoders for the other formats of `long double` -/

namespace Takum
open Spec

theorem log_half {q : ℚ} (h : 0 < q) : Int.log 2 |q| = Int.log 2 |q / 2| + 1 := by
  have h2 : 0 < q / 2 := by positivity
  obtain ⟨a, b⟩ := log2_bounds h2
  rw [abs_of_pos h]
  rw [abs_of_pos h2] at *
  generalize Int.log 2 (q / 2) = k at *
  have e1 : (2 : ℚ) ^ (k + 1) = 2 * (2 : ℚ) ^ k := by rw [zpow_add₀ (by norm_num)]; ring
  have e2 : (2 : ℚ) ^ (k + 1 + 1) = 4 * (2 : ℚ) ^ k := by rw [zpow_add₀ (by norm_num), e1]; ring
  rw [e1] at b
  apply le_antisymm
  · have : Int.log 2 q < k + 1 + 1 := by
      rw [← Int.lt_zpow_iff_log_lt (by norm_num) h]
      push_cast; rw [e2]; linarith
    omega
  · rw [← Int.zpow_le_iff_le_log (by norm_num) h]
    push_cast; rw [e1]; linarith

theorem sig53_bits (b : BitVec 64) : ((0x000fffffffffffff#64 &&& b) <<< 11) ||| (1#64 <<< 63) =
    ((b &&& ((1#64 <<< 52) - 1#64)) ||| (1#64 <<< 52)) <<< (12 - 1) := by
  rw [BitVec.shiftLeft_or_distrib, BitVec.and_comm]
  rfl

theorem sig53 {q : ℚ} (hpos : 0 < q) (h1 : q < 1) (hr : b64.Rep q) (hc : -1022 ≤ Int.log 2 |q|) :
    ((ldFraction .d53 (.num q) (Int.log 2 |q| + 1)).1.toNat : ℤ) = ⌊q * (2 : ℚ) ^ (63 - Int.log 2 |q|)⌋ := by
  rw [← sig_double hpos h1 hr hc, ← sig53_bits]; rfl

theorem sig113 {q : ℚ} (hpos : 0 < q) (h1 : q < 1) (hc : -1022 ≤ Int.log 2 |q|) :
    ((ldFraction .d113 (.num q) (Int.log 2 |q| + 1)).1.toNat : ℤ) = ⌊q * (2 : ℚ) ^ (63 - Int.log 2 |q|)⌋ := by
  have hneg := log2_lt_zero hpos h1
  obtain ⟨b1, b2⟩ := log2_bounds hpos
  have hsgn : (Fl.num q).sgn = false := by simp [Fl.sgn, hpos.le]
  unfold ldFraction Fl.bits128
  simp only [hsgn, Bool.false_eq_true, if_false]
  rw [if_pos (by omega)]
  set e := Int.log 2 |q| with he
  rw [abs_of_pos hpos]
  have hsc : q / (2 : ℚ) ^ (e - 112) = q * (2 : ℚ) ^ (112 - e) := by
    rw [div_eq_mul_inv, ← zpow_neg]; congr 2; ring
  rw [hsc]
  have hf0 : (2 : ℚ) ^ 112 ≤ q * (2 : ℚ) ^ (112 - e) := by
    calc (2 : ℚ) ^ 112 = (2 : ℚ) ^ e * (2 : ℚ) ^ (112 - e) := by
          rw [← zpow_add₀ (by norm_num), show e + (112 - e) = (112 : ℕ) by push_cast; ring, zpow_natCast]
      _ ≤ _ := mul_le_mul_of_nonneg_right b1 (zpow_pos (by norm_num) _).le
  have hf1 : q * (2 : ℚ) ^ (112 - e) < 2 ^ 113 := by
    calc q * (2 : ℚ) ^ (112 - e) < (2 : ℚ) ^ (e + 1) * (2 : ℚ) ^ (112 - e) :=
          mul_lt_mul_of_pos_right b2 (zpow_pos (by norm_num) _)
      _ = 2 ^ 113 := by rw [← zpow_add₀ (by norm_num), show e + 1 + (112 - e) = (113 : ℕ) by push_cast; ring, zpow_natCast]
  have h63 : q * (2 : ℚ) ^ (63 - e) = q * (2 : ℚ) ^ (112 - e) / ((2 ^ 49 : ℕ) : ℚ) := by
    rw [mul_div_assoc]
    congr 1
    rw [show (63 - e) = (112 - e) - (49 : ℕ) by push_cast; ring, zpow_sub₀ (by norm_num), zpow_natCast]
    norm_num
  rw [h63, Int.floor_div_natCast]
  have hg0 : 2 ^ 112 ≤ ⌊q * (2 : ℚ) ^ (112 - e)⌋ := by rw [Int.le_floor]; exact_mod_cast hf0
  have hg1 : ⌊q * (2 : ℚ) ^ (112 - e)⌋ < 2 ^ 113 := by rw [Int.floor_lt]; exact_mod_cast hf1
  change (((((BitVec.ofNat 128 (0 + (e + 16383).toNat * 2 ^ 112 + ((⌊q * (2 : ℚ) ^ (112 - e)⌋).toNat - 2 ^ 112))) >>> 48).setWidth 64 >>> 1) |||
    (1#64 <<< 63)).toNat : ℤ) = _
  generalize ⌊q * (2 : ℚ) ^ (112 - e)⌋ = g at *
  obtain ⟨k, rfl⟩ : ∃ k : ℕ, g = 2 ^ 112 + k := by
    obtain ⟨k, hk⟩ := Int.eq_ofNat_of_zero_le (sub_nonneg.mpr hg0)
    exact ⟨k, by omega⟩
  have hk : k < 2 ^ 112 := by
    have : (k : ℤ) < 2 ^ 112 := by omega
    exact_mod_cast this
  have hE : (e + 16383).toNat < 2 ^ 15 := by omega
  generalize (e + 16383).toNat = E at *
  have hn : ((2 ^ 112 + (k : ℤ)).toNat - 2 ^ 112) = k := by omega
  rw [hn]
  have e1 : ((((BitVec.ofNat 128 (0 + E * 2 ^ 112 + k)) >>> 48).setWidth 64 >>> 1) : BitVec 64).toNat = k / 2 ^ 49 := by
    rw [BitVec.toNat_ushiftRight, BitVec.toNat_setWidth, BitVec.toNat_ushiftRight, BitVec.toNat_ofNat,
      Nat.shiftRight_eq_div_pow, Nat.shiftRight_eq_div_pow]
    omega
  have e2 : (1#64 <<< 63) = BitVec.ofNat 64 (2 ^ 63) := by decide
  have hk49 : k / 2 ^ 49 < 2 ^ 63 := by omega
  rw [BitVec.toNat_or, e1, e2, BitVec.toNat_ofNat, Nat.mod_eq_of_lt (by norm_num : 2 ^ 63 < 2 ^ 64), Nat.lor_comm]
  have := Nat.shiftLeft_add_eq_or_of_lt hk49 1
  rw [Nat.one_shiftLeft] at this
  rw [← this]
  push_cast
  omega

/-- A format contained in the three. -/
def gridF : Fmt := ⟨53, -100, 128⟩

theorem gridF_half {q : ℚ} (h : gridF.Rep q) : b64.Rep (q / 2) := by
  obtain ⟨m, e, h1, h2, h3⟩ := h
  have h3' : -100 ≤ e := h3
  have : q / 2 = m * (2 : ℚ) ^ (e - 1) := by rw [h1, zpow_sub₀ (by norm_num)]; ring
  refine ⟨m, e - 1, this, h2, ?_⟩
  show (-1074 : ℤ) ≤ _; omega

/-- Half of a finite float. -/
def Fl.half : Fl → Fl
  | .num q => .num (q / 2)
  | x => x

/-- With 53 or 113 bits the mantissa bits of `f` are those of `2 * f`. -/
theorem fracSpec_ld {v : LD} (hv : v ≠ .d64) :
    FracSpec gridF (fun f nb => ldFractionToRoundedBits v f.half nb) := by
  intro f q nb hf h0 h1 hr hn1 hn2
  show ∃ r, ldFractionToRoundedBits v f.half nb = .ok r ∧ _
  unfold ldFractionToRoundedBits
  have hnb : (nb == 0) = false := by simp; omega
  rcases hf.cases with ⟨hq, rfl⟩ | ⟨rfl, z, rfl⟩
  · have hpos : 0 < q := lt_of_le_of_ne h0 (Ne.symm hq)
    have hp2 : 0 < q / 2 := by positivity
    have : Fl.eq (Fl.half (.num q)) (Fl.zero false) = false := by
      simp [Fl.half, Fl.eq, Fl.toQ, hq]
    rw [this, hnb]
    simp only [Bool.or_self, Bool.false_eq_true, if_false]
    have hl := log_half hpos
    have hfr : (Fl.half (.num q)).frexp.2 = Int.log 2 |q / 2| + 1 := rfl
    have key : (ldFraction v (Fl.half (.num q)) (Fl.half (.num q)).frexp.2).2 = Int.log 2 |q| + 1 := by
      rw [hfr, hl]
      cases v
      · rfl
      · exact absurd rfl hv
      · rfl
    have hsc : q / 2 * (2 : ℚ) ^ (63 - Int.log 2 |q / 2|) = q * (2 : ℚ) ^ (63 - Int.log 2 |q|) := by
      rw [hl, show 63 - Int.log 2 |q / 2| = (63 - (Int.log 2 |q / 2| + 1)) + 1 by ring, zpow_add₀ (by norm_num)]
      ring
    have r1 := gridF_half hr
    have := shift_sig hpos h1 rfl (F0 := (ldFraction v (Fl.half (.num q)) (Fl.half (.num q)).frexp.2).1) (nb := nb) (by
      intro hc
      have hc' : -1022 ≤ Int.log 2 |q / 2| := by omega
      rw [← hsc, hfr]
      cases v
      · exact sig53 hp2 (by linarith) r1 hc'
      · exact absurd rfl hv
      · exact sig113 hp2 (by linarith) hc') hn1 hn2
    rw [← key] at this
    exact this
  · have : Fl.eq (Fl.half (.zero z)) (Fl.zero false) = true := by cases z <;> rfl
    rw [this]
    exact ⟨0#64, rfl, by simp⟩

/-- For a fraction of at least one half the shift count is negative. -/
theorem ldFrac_ub {v : LD} (hv : v ≠ .d64) {m : Fl} {q : ℚ} (hm : m.Is q) (h0 : 1 / 2 ≤ q) (h1 : q < 1) {nb : ℕ}
    (hn : 1 ≤ nb) : ldFractionToRoundedBits v m nb = .error .shift := by
  have hpos : 0 < q := by linarith
  have hmq := hm.eq_num hpos.ne'
  subst hmq
  unfold ldFractionToRoundedBits
  have hnb : (nb == 0) = false := by simp; omega
  have : Fl.eq (.num q) (Fl.zero false) = false := by simp [Fl.eq, Fl.toQ, hpos.ne']
  rw [this, hnb]
  simp only [Bool.or_self, Bool.false_eq_true, if_false]
  have hl : Int.log 2 |q| = -1 := by
    apply le_antisymm
    · have := log2_lt_zero hpos h1; omega
    · rw [abs_of_pos hpos, ← Int.zpow_le_iff_le_log (by norm_num) hpos]; norm_num; linarith
  have hfr : (Fl.num q).frexp.2 = 0 := by
    show Int.log 2 |q| + 1 = 0; omega
  rw [hfr]
  have key : (ldFraction v (.num q) 0).2 = 1 := by
    cases v
    · rfl
    · exact absurd rfl hv
    · rfl
  rw [key]
  rfl

/-- The encoder from the splitting on, for a number on the grid. -/
theorem ldGen_spec {n : ℕ} (hn : n = 32 ∨ n = 64) {v : LD} (hv : v ≠ .d64) {B : ℚ} (hB : 254 ≤ B) (s : Bool)
    {l : Fl} {q : ℚ} (hl : l.Is q) (hq : |q| ≤ 254) {j : ℤ} (hj : q * 2 ^ 44 = j) :
    (1 / 2 ≤ Int.fract (sg s * q) → fromSAndLGen n v.fmt B (ldFractionToRoundedBits v) s l = .error .shift) ∧
    (Int.fract (sg s * q) < 1 / 2 → fromSAndLGen n v.fmt B (ldFractionToRoundedBits v) s l =
      .ok (mkT n s (nearK n (psiInv (⌊sg s * q⌋ + 2 * Int.fract (sg s * q)))))) := by
  obtain ⟨hp53, hemin, hemax⟩ : 53 ≤ v.fmt.prec ∧ v.fmt.emin ≤ -64 ∧ 128 ≤ v.fmt.emax := by cases v <;> decide
  generalize hF : v.fmt = F at *
  have hpow : (2 : ℤ) ^ 53 ≤ 2 ^ F.prec := pow_le_pow_right₀ (by norm_num) hp53
  have hin : ∀ (z : ℚ) (i : ℤ), z * 2 ^ 44 = i → |z| < 256 → F.In z := by
    intro z i hi hz
    refine in_of_rep hemax ⟨i, -44, ?_, ?_, by omega⟩ (hz.trans (by norm_num))
    · rw [← hi]; norm_num; ring
    · have : |(i : ℚ)| < 2 ^ 53 := by
        rw [← hi, abs_mul, abs_of_pos (by norm_num : (0 : ℚ) < 2 ^ 44)]; linarith
      have : |i| < 2 ^ 53 := by exact_mod_cast this
      omega
  have hone : (Fl.ofInt F (1 - 2 * b2i s)).Is (sg s) := by
    have : ((1 - 2 * b2i s : ℤ) : ℚ) = sg s := by cases s <;> norm_num [sg, b2i]
    rw [← this]
    apply Fl.Is.ofInt_in
    refine hin _ ((1 - 2 * b2i s) * 2 ^ 44) (by push_cast; ring) ?_
    rw [this]; cases s <;> norm_num [sg]
  obtain ⟨q1, q2⟩ := abs_le.mp hq
  have hBI : (Fl.num B).Is B := Fl.Is.num (by linarith)
  have hcl : (if Fl.lt l (Fl.num B).neg then (Fl.num B).neg
      else if Fl.lt (.num B) l then .num B else l) = l := by
    rw [if_neg (by rw [Fl.lt_iff hl hBI.neg]; linarith), if_neg (by rw [Fl.lt_iff hBI hl]; linarith)]
  obtain ⟨i, hi⟩ : ∃ i : ℤ, sg s * q * 2 ^ 44 = i := by
    cases s
    · exact ⟨j, by simpa [sg] using hj⟩
    · exact ⟨-j, by push_cast; rw [← hj]; simp [sg]⟩
  have hx : |sg s * q| ≤ 254 := by rw [sg_abs]; exact hq
  have hcpm : (Fl.mul F (Fl.ofInt F (1 - 2 * b2i s)) l).Is (sg s * q) :=
    Is.round_in (hin _ i hi (by linarith)) (fun h => hone.mul hl h)
  generalize hxd : sg s * q = x at *
  obtain ⟨x1, x2⟩ := abs_le.mp hx
  unfold fromSAndLGen
  simp only [hl.isnan, hl.isinf, Bool.false_and, Bool.or_self, Bool.false_eq_true, if_false, hcl]
  generalize Fl.mul F (Fl.ofInt F (1 - 2 * b2i s)) l = cpm at hcpm
  have hf1 : -254 ≤ ⌊x⌋ := by rw [Int.le_floor]; push_cast; exact x1
  have hf2 : ⌊x⌋ ≤ 254 := by
    have : (⌊x⌋ : ℚ) ≤ 254 := (Int.floor_le x).trans x2
    exact_mod_cast this
  have hti : Fl.toInt 64 (Fl.floor cpm) = .ok ⌊x⌋ := hcpm.floor.toInt (by constructor <;> norm_num <;> omega)
  have hci : (Fl.ofInt F ⌊x⌋).Is (⌊x⌋ : ℤ) := by
    apply Fl.Is.ofInt_in
    refine hin _ (⌊x⌋ * 2 ^ 44) (by push_cast; ring) ?_
    rw [abs_lt]; constructor
    · exact_mod_cast (by omega : -256 < ⌊x⌋)
    · exact_mod_cast (by omega : ⌊x⌋ < 256)
  have m0 := Int.fract_nonneg x
  have m1 := Int.fract_lt_one x
  have hfi : Int.fract x * 2 ^ 44 = ((i - ⌊x⌋ * 2 ^ 44 : ℤ) : ℚ) := by
    unfold Int.fract; push_cast; rw [← hi]; ring
  have hmI : (Fl.sub F cpm (Fl.ofInt F ⌊x⌋)).Is (Int.fract x) :=
    Is.round_in (hin _ _ hfi (by rw [abs_of_nonneg m0]; linarith)) (fun h => hcpm.sub hci h)
  have he : Fl.eq (Fl.sub F cpm (Fl.ofInt F ⌊x⌋)) (.num 1) = false := by
    rw [Bool.eq_false_iff, ne_eq, Fl.eq_iff hmI (Fl.Is.num one_ne_zero)]; exact m1.ne
  simp only [hti, bind, Except.bind, he, Bool.false_eq_true, if_false]
  generalize Fl.sub F cpm (Fl.ofInt F ⌊x⌋) = m at hmI
  constructor
  · intro hh
    obtain ⟨g1, d16, -, -⟩ := drOf_spec (c := ⌊x⌋) (by omega) (by omega)
    rw [g1]
    simp only [lut_p _ d16]
    rw [ldFrac_ub hv hmI hh m1 (by omega)]
  · intro hh
    obtain ⟨m', hm', hme⟩ : ∃ m' : Fl, m'.Is (2 * Int.fract x) ∧ m'.half = m := by
      rcases hmI.cases with ⟨h, rfl⟩ | ⟨h, z, rfl⟩
      · exact ⟨.num (2 * Int.fract x), Fl.Is.num (by positivity), by show Fl.num _ = _; rw [mul_div_cancel_left₀ _ (by norm_num)]⟩
      · exact ⟨.zero z, by rw [h, mul_zero]; exact Fl.Is.zero z, rfl⟩
    subst hme
    have hrep : gridF.Rep (2 * Int.fract x) := by
      refine ⟨i - ⌊x⌋ * 2 ^ 44, -43, ?_, ?_, by decide⟩
      · rw [← hfi]; norm_num; ring
      · have : |((i - ⌊x⌋ * 2 ^ 44 : ℤ) : ℚ)| < 2 ^ 53 := by
          rw [← hfi, abs_of_nonneg (by positivity)]; linarith
        exact_mod_cast this
    have hfl : ((⌊2 * Int.fract x * 2 ^ 64⌋ : ℤ) : ℚ) / 2 ^ 64 = 2 * Int.fract x := by
      have : 2 * Int.fract x * 2 ^ 64 = (((i - ⌊x⌋ * 2 ^ 44) * 2 ^ 21 : ℤ) : ℚ) := by
        rw [Int.cast_mul, ← hfi]; push_cast; ring
      rw [this, Int.floor_intCast, ← this]; field_simp
    have hn12 : 12 ≤ n := by omega
    have hb : (0 : ℚ) ≤ 1 / 2 ^ (n - 12) ∧ 1 / (2 : ℚ) ^ (n - 12) ≤ 1 / 2 := by
      refine ⟨by positivity, one_div_le_one_div_of_le (by norm_num) ?_⟩
      calc (2 : ℚ) = 2 ^ 1 := by norm_num
        _ ≤ _ := pow_le_pow_right₀ (by norm_num) (by omega)
    have hfx : (⌊x⌋ : ℚ) + Int.fract x = x := Int.floor_add_fract x
    have hf1' : (-254 : ℚ) ≤ ⌊x⌋ := by exact_mod_cast hf1
    refine enc_tail (by omega) (fracSpec_ld hv) s hm' (by positivity) (by linarith) hrep (by rw [hfl]) ?_ ?_
    · rw [psi_one hn12]; linarith
    · rw [psi_kMax hn12]
      linarith [hb.2]

end Takum
