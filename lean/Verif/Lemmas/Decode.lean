import Verif.Lemmas.Bits

/-!
# The decoder `codec_takum*_to_l` computes `ell`
-/

namespace Takum
open Spec

theorem lut_bias : ∀ d < 16, lut cBiasLut d = .ok (bias d) := by decide
theorem lut_p : ∀ d < 16, lut pLut d = .ok (11 - rr d) := by decide

theorem getC_spec (inp : BitVec 16) :
    getCAndReturnShift inp = .ok
      (bias (inp.toNat / 2 ^ 11 % 16) +
        ((inp.toNat % 2 ^ 11 / 2 ^ (11 - rr (inp.toNat / 2 ^ 11 % 16)) : ℕ) : ℤ),
       5 + rr (inp.toNat / 2 ^ 11 % 16)) := by
  have e1 : ((inp &&& 0x7800#16) >>> 11).toNat = inp.toNat / 2 ^ 11 % 16 := by
    have : (inp &&& 0x7800#16) >>> 11 = (inp >>> 11) &&& 0xf#16 := by
      rw [BitVec.ushiftRight_and_distrib]; rfl
    rw [this, BitVec.toNat_and, BitVec.toNat_ushiftRight, Nat.shiftRight_eq_div_pow]
    exact Nat.and_two_pow_sub_one_eq_mod _ 4
  have e2 : (inp &&& 0x07ff#16).toNat = inp.toNat % 2 ^ 11 := by
    rw [BitVec.toNat_and]; exact Nat.and_two_pow_sub_one_eq_mod _ 11
  unfold getCAndReturnShift
  rw [e1]
  set d := inp.toNat / 2 ^ 11 % 16 with hd
  have hd16 : d < 16 := Nat.mod_lt _ (by norm_num)
  have hr := rr_le d hd16
  have e3 : shrU (inp &&& 0x07ff#16) ((11 - rr d : ℕ) : ℤ) = .ok ((inp &&& 0x07ff#16) >>> (11 - rr d)) := by
    unfold shrU
    rw [if_pos ⟨Int.natCast_nonneg _, by
      have : (11 - rr d) < max 16 32 := by omega
      exact_mod_cast this⟩, Int.toNat_natCast]
  simp only [bind, Except.bind, lut_p d hd16, lut_bias d hd16, e3, pure, Except.pure]
  rw [BitVec.toNat_ushiftRight, Nat.shiftRight_eq_div_pow, e2]
  congr 2
  omega

/-- The top 16 bits. -/
theorem frag_toNat (w : W) (t : T w) : (frag w t).toNat =
    if w = .w8 then t.toNat * 2 ^ 8 else t.toNat / 2 ^ (w.n - 16) := by
  have ht := t.isLt
  cases w
  · simp only [frag, if_true]
    rw [BitVec.toNat_shiftLeft, BitVec.toNat_setWidth, Nat.shiftLeft_eq]
    simp only [W.n] at ht
    omega
  · simp [frag]
  · simp only [frag]
    rw [BitVec.toNat_setWidth, BitVec.toNat_ushiftRight, Nat.shiftRight_eq_div_pow]
    simp only [W.n] at ht ⊢
    simp
    omega
  · simp only [frag]
    rw [BitVec.toNat_setWidth, BitVec.toNat_ushiftRight, Nat.shiftRight_eq_div_pow]
    simp only [W.n] at ht ⊢
    simp
    omega

theorem frag_dr (w : W) (t : T w) : (frag w t).toNat / 2 ^ 11 % 16 = dr t := by
  rw [frag_toNat]
  have ht := t.isLt
  unfold dr low
  cases w <;> simp only [W.n, reduceCtorEq, if_true, if_false] at ht ⊢ <;> omega

theorem frag_C (w : W) (t : T w) : (frag w t).toNat % 2 ^ 11 / 2 ^ (11 - r t) = Cbits t := by
  have hr := r_le (by have := w.n_pos; omega) t
  rw [frag_toNat]
  unfold Cbits p str
  have ht := t.isLt
  generalize r t = k at *
  cases w <;> simp only [W.n, len, reduceCtorEq, if_true, if_false] at ht ⊢ <;>
    interval_cases k <;> simp <;> omega

theorem shl_M (w : W) (t : T w) : ∃ M : T w, shl t (5 + r t : ℤ) = .ok M ∧
    (M.toNat : ℚ) / 2 ^ w.n = m t ∧ M.toNat < 2 ^ w.n ∧ (M.toNat : ℚ) = Spec.M t * 2 ^ w.n / 2 ^ p t := by
  have h8 := w.n_pos
  have hr := r_le (by omega : 5 ≤ w.n) t
  have ht := t.isLt
  refine ⟨t <<< (5 + r t), ?_, ?_⟩
  · have : (5 + r t : ℤ) = ((5 + r t : ℕ) : ℤ) := by push_cast; ring
    rw [this]
    apply shl_ok
    · intro h
      refine ⟨by omega, ?_⟩
      have h16 : w.n ≤ 16 := by cases w <;> simp [W.n] at h ⊢
      calc t.toNat * 2 ^ (5 + r t) < 2 ^ 16 * 2 ^ (5 + r t) := by
            apply Nat.mul_lt_mul_of_pos_right _ (by positivity)
            exact lt_of_lt_of_le ht (Nat.pow_le_pow_right (by norm_num) h16)
        _ ≤ 2 ^ 16 * 2 ^ 12 := by
            apply Nat.mul_le_mul_left
            exact Nat.pow_le_pow_right (by norm_num) (by omega)
        _ < 2 ^ 31 := by norm_num
    · cases w <;> simp only [W.n] at * <;> omega
  · have key : (t <<< (5 + r t)).toNat * 2 ^ p t = Spec.M t * 2 ^ w.n := by
      rw [BitVec.toNat_shiftLeft, Nat.shiftLeft_eq]
      have hp := p_add_r (by omega : 5 ≤ w.n) t
      unfold Spec.M str
      generalize p t = q at *
      generalize r t = k at *
      by_cases hw : w = .w8
      · subst hw
        simp only [W.n, len] at *
        have hq : q = 7 - k := by omega
        subst hq
        interval_cases k <;> simp <;> omega
      · have h12 : len w.n = w.n := by cases w <;> simp_all [len, W.n]
        rw [h12] at hp ⊢
        have hn : w.n = q + (5 + k) := by omega
        rw [Nat.sub_self, pow_zero, mul_one]
        conv_lhs => rw [show 2 ^ w.n = 2 ^ q * 2 ^ (5 + k) by rw [hn, pow_add]]
        rw [Nat.mul_mod_mul_right]
        conv_rhs => rw [show 2 ^ w.n = 2 ^ q * 2 ^ (5 + k) by rw [hn, pow_add]]
        ring
    have hq : ((t <<< (5 + r t)).toNat : ℚ) * 2 ^ p t = Spec.M t * 2 ^ w.n := by exact_mod_cast key
    refine ⟨?_, (t <<< (5 + r t)).isLt, ?_⟩
    · unfold m
      rw [div_eq_div_iff (by positivity) (by positivity)]
      exact hq
    · rw [eq_div_iff (by positivity)]; exact hq

theorem W.lF_facts (w : W) : 1 ≤ w.lF.prec ∧ w.lF.emin ≤ -149 ∧ 128 ≤ w.lF.emax ∧
    len w.n - 4 ≤ w.lF.prec ∧ w.n ≤ w.lF.prec := by
  cases w <;> decide

theorem abs_cpm_lt {n : ℕ} (hn : 5 ≤ n) (t : BitVec n) :
    |(c t : ℚ) + m t| < 2 ^ (r t + 1) := by
  obtain ⟨m0, m1⟩ := m_range t
  have hd := dr_lt hn t
  have hC : Cbits t < 2 ^ r t := Nat.mod_lt _ (by positivity)
  have hc : (c t : ℚ) = bias (dr t) + Cbits t := by exact_mod_cast biasN_eq hn t
  have hC' : (Cbits t : ℚ) + 1 ≤ 2 ^ r t := by exact_mod_cast hC
  have hC0 : (0 : ℚ) ≤ Cbits t := by positivity
  have hr := r_eq hn t
  have tab : ∀ d < 16, -2 ^ (rr d + 1) + 1 ≤ bias d ∧ bias d + 2 ^ rr d ≤ 2 ^ (rr d + 1) := by decide
  obtain ⟨b1, b2⟩ := tab _ hd
  rw [← hr] at b1 b2
  have b1' : (-2 ^ (r t + 1) + 1 : ℚ) ≤ bias (dr t) := by exact_mod_cast b1
  have b2' : (bias (dr t) + 2 ^ r t : ℚ) ≤ 2 ^ (r t + 1) := by exact_mod_cast b2
  rw [abs_lt, hc]
  constructor <;> linarith

/-- `ell` is representable in any format with enough precision. -/
theorem ell_rep {n : ℕ} (hn : 5 ≤ n) (t : BitVec n) {F : Fmt} (hp : len n - 4 ≤ F.prec)
    (he : F.emin ≤ -(len n - 5 : ℕ)) : F.Rep ((c t : ℚ) + m t) := by
  have hpr := p_add_r hn t
  refine Fmt.Rep.of_lt (c t * 2 ^ p t + M t) (-(p t : ℤ)) ?_ ?_ ?_
  · unfold m; push_cast
    rw [zpow_neg, zpow_natCast]
    field_simp
  · omega
  · refine lt_of_lt_of_le (abs_cpm_lt hn t) ?_
    rw [← zpow_natCast]
    apply zpow_le_zpow_right₀ (by norm_num)
    push_cast
    have : len n - 5 + 1 ≤ F.prec := by unfold len at *; omega
    omega

theorem abs_cpm_lt_256 {n : ℕ} (hn : 5 ≤ n) (t : BitVec n) : |(c t : ℚ) + m t| < 256 := by
  refine lt_of_lt_of_le (abs_cpm_lt hn t) ?_
  have := r_le hn t
  calc (2 : ℚ) ^ (r t + 1) ≤ 2 ^ 8 := pow_le_pow_right₀ (by norm_num) (by omega)
    _ = 256 := by norm_num

theorem zpow_big {e : ℤ} (h : 128 ≤ e) : (2 : ℚ) ^ (128 : ℕ) ≤ (2 : ℚ) ^ e := by
  rw [← zpow_natCast]; exact zpow_le_zpow_right₀ (by norm_num) (by simpa using h)

theorem in_of_rep {F : Fmt} (hF : 128 ≤ F.emax) {q : ℚ} (h : F.Rep q) (hq : |q| < 2 ^ 128) : F.In q :=
  ⟨h, lt_of_lt_of_le hq (zpow_big hF)⟩

theorem ell_abs {n : ℕ} (t : BitVec n) : |ell t| = |(c t : ℚ) + m t| := by
  unfold ell; rw [abs_mul, abs_pow, abs_neg, abs_one, one_pow, one_mul]

theorem ell_in (w : W) (t : T w) : w.lF.In (ell t) := by
  have h8 := w.n_pos
  obtain ⟨p1, p2, p3, p4, p5⟩ := w.lF_facts
  have hl : (len w.n - 5 : ℕ) ≤ 149 := by cases w <;> decide
  have hrep := ell_rep (by omega) t p4 (by omega)
  apply in_of_rep p3
  · unfold ell
    rw [neg_one_pow_S (by omega)]
    split
    · simpa using hrep.neg
    · simpa using hrep
  · rw [ell_abs]
    refine lt_of_lt_of_le (abs_cpm_lt_256 (by omega) t) (by norm_num)

theorem Is.round_in {F : Fmt} {x : Fl} {q : ℚ} (hq : F.In q)
    (h : |F.rq q| < (2 : ℚ) ^ F.emax → x.Is (F.rq q)) : x.Is q := by
  have e := F.rq_of_rep hq.1
  rw [e] at h; exact h hq.2

theorem toL_zero (w : W) : toL w 0#w.n = .ok (.inf true) := by
  unfold toL; simp [pure, Except.pure]

theorem toL_nar (w : W) : toL w (nar w.n) = .ok .nan := by
  have h8 := w.n_pos
  unfold toL
  rw [if_neg (nar_ne_zero (by omega)), if_pos (NAR_eq (by omega)).symm]
  rfl

/-- The decoder is exact. -/
theorem toL_regular (w : W) (t : T w) (h : Regular t) : ∃ x, toL w t = .ok x ∧ x.Is (ell t) := by
  have h8 := w.n_pos
  have hn5 : 5 ≤ w.n := by omega
  unfold toL
  rw [if_neg h.1, if_neg (by rw [NAR_eq (by omega)]; exact h.2)]
  have hg := getC_spec (frag w t)
  rw [frag_dr, ← r_eq hn5, frag_C, ← biasN_eq hn5] at hg
  obtain ⟨M, hM, hM1, hM2, hM3⟩ := shl_M w t
  simp only [pure, Except.pure, bind, Except.bind, hg, hM]
  refine ⟨_, rfl, ?_⟩
  obtain ⟨p1, p2, p3, p4, p5⟩ := w.lF_facts
  have hl : (len w.n - 5 : ℕ) ≤ 149 := by cases w <;> decide
  have hrep := ell_rep hn5 t p4 (by omega)
  have hlt := abs_cpm_lt_256 hn5 t
  obtain ⟨m0, m1⟩ := m_range t
  set F := w.lF with hF
  -- the characteristic
  have hcabs : |(c t : ℚ)| < 257 := by
    rw [abs_lt] at hlt ⊢; constructor <;> linarith
  have hcI : |c t| < 257 := by exact_mod_cast hcabs
  have hcin : F.In (c t : ℚ) := by
    apply in_of_rep p3
    · apply Fmt.Rep.int (by omega)
      have : 2 ^ 8 ≤ 2 ^ F.prec := Nat.pow_le_pow_right (by norm_num) (by omega)
      rcases Nat.lt_or_ge 8 F.prec with h | h
      · have h1 : (2 : ℤ) ^ 9 ≤ 2 ^ F.prec := pow_le_pow_right₀ (by norm_num) h
        omega
      · exfalso; clear this; cases w <;> simp [F, W.lF, b32, b64, x80] at h
    · refine lt_of_lt_of_le hcabs (by norm_num)
  -- the mantissa bits as a number
  have hMlt : (M.toNat : ℚ) < 2 ^ w.n := by exact_mod_cast hM2
  have hMin : F.In (M.toNat : ℤ) := by
    apply in_of_rep p3
    · apply Fmt.Rep.int (by omega)
      rw [abs_of_nonneg (by positivity)]
      calc (M.toNat : ℤ) < 2 ^ w.n := by exact_mod_cast hM2
        _ ≤ 2 ^ F.prec := pow_le_pow_right₀ (by norm_num) p5
    · push_cast
      rw [abs_of_nonneg (by positivity)]
      refine lt_of_lt_of_le hMlt (pow_le_pow_right₀ (by norm_num) (by cases w <;> decide))
  have hm : (M.toNat : ℚ) * (2 : ℚ) ^ (-(w.n : ℤ)) = m t := by
    rw [← hM1, zpow_neg, zpow_natCast]; rfl
  have hmin : F.In (m t) := by
    apply in_of_rep p3
    · rw [← hm]
      refine ⟨M.toNat, -(w.n : ℤ), by push_cast; ring, ?_, ?_⟩
      · rw [abs_of_nonneg (by positivity)]
        calc (M.toNat : ℤ) < 2 ^ w.n := by exact_mod_cast hM2
          _ ≤ 2 ^ F.prec := pow_le_pow_right₀ (by norm_num) p5
      · have : w.n ≤ 149 := by cases w <;> decide
        omega
    · rw [abs_of_nonneg m0]; exact lt_of_lt_of_le m1 (by norm_num)
  have hcm : F.In ((c t : ℚ) + m t) :=
    in_of_rep p3 hrep (lt_of_lt_of_le hlt (by norm_num))
  have i1 : (Fl.ofInt F (c t)).Is (c t) := Fl.Is.ofInt_in hcin
  have i2 : (Fl.ofInt F (M.toNat : ℤ)).Is ((M.toNat : ℤ) : ℚ) := Fl.Is.ofInt_in hMin
  have i3 : (Fl.ldexp F (Fl.ofInt F (M.toNat : ℤ)) (-w.n)).Is (m t) := by
    have : ((M.toNat : ℤ) : ℚ) * (2 : ℚ) ^ (-(w.n : ℤ)) = m t := by exact_mod_cast hm
    apply Is.round_in hmin
    intro hb
    rw [← this] at hb ⊢
    exact i2.ldexp hb
  have i4 := Is.round_in hcm (fun hb => i1.add i3 hb)
  have hs : Fl.Is (Fl.ofInt F (1 - 2 * b2i (isNeg t))) ((if t.msb then -1 else 1 : ℤ) : ℚ) := by
    have : (1 - 2 * b2i (isNeg t)) = if t.msb then -1 else 1 := by
      rw [isNeg_eq]; cases t.msb <;> rfl
    rw [this]
    apply Fl.Is.ofInt_in
    apply in_of_rep p3
    · apply Fmt.Rep.int (by omega)
      have : (1 : ℤ) < 2 ^ F.prec := one_lt_pow₀ (by norm_num) (by omega)
      split <;> simpa using this
    · split <;> norm_num
  have e : ell t = ((if t.msb then -1 else 1 : ℤ) : ℚ) * ((c t : ℚ) + m t) := by
    unfold ell; rw [neg_one_pow_S (by omega)]; split <;> simp
  have hin := ell_in w t
  apply Is.round_in hin
  intro hb
  rw [e] at hb ⊢
  exact hs.mul i4 hb

end Takum
