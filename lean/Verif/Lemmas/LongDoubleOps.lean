import Verif.Model.LongDoubleOps
import Verif.Lemmas.LongDouble
import Verif.Lemmas.LinExact

/-! # The functions on platforms with another `long double` -/

namespace Takum
open Spec

theorem ell_in_gen {F : Fmt} (p2 : F.emin ≤ -149) (p3 : 128 ≤ F.emax) (p4 : len W.w64.n - 4 ≤ F.prec) (t : T .w64) :
    F.In (ell t) := by
  have hl : (len W.w64.n - 5 : ℕ) ≤ 149 := by decide
  have hrep := ell_rep (by decide) t p4 (by omega)
  apply in_of_rep p3
  · unfold ell
    rw [neg_one_pow_S (by decide)]
    split
    · simpa using hrep.neg
    · simpa using hrep
  · rw [ell_abs]
    exact lt_of_lt_of_le (abs_cpm_lt_256 (by decide) t) (by norm_num)

/-- The decoder is exact in every format with 64 bits or more. -/
theorem toL64_regular {F : Fmt} (p2 : F.emin ≤ -149) (p3 : 128 ≤ F.emax) (p4 : len W.w64.n - 4 ≤ F.prec) (p5 : W.w64.n ≤ F.prec)
    (t : T .w64) (h : Regular t) : ∃ x, toL64 F t = .ok x ∧ x.Is (ell t) := by
  have p6 : 9 ≤ F.prec := le_trans (by decide) p5
  have h8 := W.n_pos .w64
  have hn5 : 5 ≤ W.w64.n := by omega
  unfold toL64
  rw [if_neg h.1, if_neg (by rw [NAR_eq (by omega)]; exact h.2)]
  have hg := getC_spec (frag .w64 t)
  rw [frag_dr, ← r_eq hn5, frag_C, ← biasN_eq hn5] at hg
  obtain ⟨M, hM, hM1, hM2, hM3⟩ := shl_M .w64 t
  simp only [pure, Except.pure, bind, Except.bind, hg, hM]
  refine ⟨_, rfl, ?_⟩
  
  have hl : (len W.w64.n - 5 : ℕ) ≤ 149 := by decide
  have hrep := ell_rep hn5 t p4 (by omega)
  have hlt := abs_cpm_lt_256 hn5 t
  obtain ⟨m0, m1⟩ := m_range t
  -- the characteristic
  have hcabs : |(c t : ℚ)| < 257 := by
    rw [abs_lt] at hlt ⊢; constructor <;> linarith
  have hcI : |c t| < 257 := by exact_mod_cast hcabs
  have hcin : F.In (c t : ℚ) := by
    apply in_of_rep p3
    · apply Fmt.Rep.int (by omega)
      have : 2 ^ 8 ≤ 2 ^ F.prec := Nat.pow_le_pow_right (by norm_num) (by omega)
      rcases Nat.lt_or_ge 8 F.prec with h | h
      · have h1 : (2 : ℤ) ^ 9 ≤ 2 ^ F.prec := pow_le_pow_right₀ (by norm_num) h
        omega
      · omega
    · refine lt_of_lt_of_le hcabs (by norm_num)
  -- the mantissa bits as a number
  have hMlt : (M.toNat : ℚ) < 2 ^ W.w64.n := by exact_mod_cast hM2
  have hMin : F.In (M.toNat : ℤ) := by
    apply in_of_rep p3
    · apply Fmt.Rep.int (by omega)
      rw [abs_of_nonneg (by positivity)]
      calc (M.toNat : ℤ) < 2 ^ W.w64.n := by exact_mod_cast hM2
        _ ≤ 2 ^ F.prec := pow_le_pow_right₀ (by norm_num) p5
    · push_cast
      rw [abs_of_nonneg (by positivity)]
      refine lt_of_lt_of_le hMlt (pow_le_pow_right₀ (by norm_num) (by decide))
  have hm : (M.toNat : ℚ) * (2 : ℚ) ^ (-(W.w64.n : ℤ)) = m t := by
    rw [← hM1, zpow_neg, zpow_natCast]; rfl
  have hmin : F.In (m t) := by
    apply in_of_rep p3
    · rw [← hm]
      refine ⟨M.toNat, -(W.w64.n : ℤ), by push_cast; ring, ?_, ?_⟩
      · rw [abs_of_nonneg (by positivity)]
        calc (M.toNat : ℤ) < 2 ^ W.w64.n := by exact_mod_cast hM2
          _ ≤ 2 ^ F.prec := pow_le_pow_right₀ (by norm_num) p5
      · have : W.w64.n ≤ 149 := by decide
        omega
    · rw [abs_of_nonneg m0]; exact lt_of_lt_of_le m1 (by norm_num)
  have hcm : F.In ((c t : ℚ) + m t) :=
    in_of_rep p3 hrep (lt_of_lt_of_le hlt (by norm_num))
  have i1 : (Fl.ofInt F (c t)).Is (c t) := Fl.Is.ofInt_in hcin
  have i2 : (Fl.ofInt F (M.toNat : ℤ)).Is ((M.toNat : ℤ) : ℚ) := Fl.Is.ofInt_in hMin
  have i3 : (Fl.ldexp F (Fl.ofInt F (M.toNat : ℤ)) (-W.w64.n)).Is (m t) := by
    have : ((M.toNat : ℤ) : ℚ) * (2 : ℚ) ^ (-(W.w64.n : ℤ)) = m t := by exact_mod_cast hm
    apply Is.round_in hmin
    intro hb
    rw [← this] at hb ⊢
    exact i2.ldexp hb
  have i4 := Is.round_in hcm (fun hb => i1.add i3 hb)
  have hs : Fl.Is (Fl.ofInt F (1 - 2 * b2i (isNeg t))) ((if t.msb then -1 else 1 : ℤ) : ℚ) := by
    have : (1 - 2 * b2i (isNeg t)) = if t.msb then -1 else 1 := by
      rw [isNeg_eq]; cases t.msb <;> rfl
    rw [this]
    apply Fl.Is.ofInt_in
    apply in_of_rep p3
    · apply Fmt.Rep.int (by omega)
      have : (1 : ℤ) < 2 ^ F.prec := one_lt_pow₀ (by norm_num) (by omega)
      split <;> simpa using this
    · split <;> norm_num
  have e : ell t = ((if t.msb then -1 else 1 : ℤ) : ℚ) * ((c t : ℚ) + m t) := by
    unfold ell; rw [neg_one_pow_S (by omega)]; split <;> simp
  have hin : F.In (ell t) := ell_in_gen p2 p3 p4 t
  apply Is.round_in hin
  intro hb
  rw [e] at hb ⊢
  exact hs.mul i4 hb


/-- The takum with the mantissa doubled. -/
theorem exists_double {n : ℕ} (hn : 12 ≤ n) {t : BitVec n} (ht : Regular t) (hm : m t < 1 / 2) :
    ∃ u : BitVec n, Regular u ∧ u.msb = t.msb ∧ ell u = sg t.msb * (c t + 2 * m t) := by
  have h5 : 5 ≤ n := by omega
  obtain ⟨m0, -⟩ := m_range t
  have hlen : len n = n := by unfold len; omega
  have hpr := p_add_r h5 t
  rw [hlen] at hpr
  have hpp : (2 : ℚ) ^ p t * 2 ^ r t = 2 ^ (n - 5) := by rw [← pow_add, hpr]
  have hP : (0 : ℚ) < 2 ^ p t := by positivity
  have hR : (0 : ℚ) < 2 ^ r t := by positivity
  have hd : (dr t : ℚ) ≤ pos t ∧ pos t < dr t + 1 := by
    have h1 : dr t * 2 ^ (n - 5) ≤ low t := Nat.div_mul_le_self _ _
    have h2 : low t < (dr t + 1) * 2 ^ (n - 5) := by
      have := Nat.lt_div_mul_add (a := low t) (b := 2 ^ (n - 5)) (by positivity)
      unfold dr; rw [add_mul, one_mul]; exact this
    unfold pos
    rw [le_div_iff₀ (by positivity), div_lt_iff₀ (by positivity)]
    constructor
    · exact_mod_cast h1
    · exact_mod_cast h2
  have hc := cpm_eq h5 t
  rw [psi_eq_piece hd.1 hd.2] at hc
  unfold piece at hc
  rw [← r_eq h5] at hc
  have hcb := biasN_eq h5 t
  have hC : Cbits t < 2 ^ r t := Nat.mod_lt _ (by positivity)
  have hCq : (Cbits t : ℚ) + 1 ≤ 2 ^ r t := by exact_mod_cast hC
  have hcq : (c t : ℚ) = bias (dr t) + Cbits t := by exact_mod_cast hcb
  have hpos : (((low t + Spec.M t : ℕ) : ℚ)) / ((2 ^ (n - 5) : ℕ) : ℚ) = pos t + m t / 2 ^ r t := by
    unfold pos m
    push_cast
    rw [← hpp]
    field_simp
  have hu : 2 ^ r t * (pos t - dr t) = Cbits t + m t := by linarith
  have h1 : (dr t : ℚ) ≤ pos t + m t / 2 ^ r t := by
    have : 0 ≤ m t / 2 ^ r t := by positivity
    linarith [hd.1]
  have h2 : pos t + m t / 2 ^ r t < dr t + 1 := by
    have e : pos t + m t / 2 ^ r t - dr t = (Cbits t + 2 * m t) / 2 ^ r t := by
      rw [eq_div_iff hR.ne', sub_mul, add_mul, div_mul_cancel₀ _ hR.ne']
      linarith
    have : (Cbits t + 2 * m t) / 2 ^ r t < 1 := by rw [div_lt_one hR]; linarith
    linarith
  have hlt : low t + Spec.M t < 2 ^ (n - 1) := by
    have hd16 : (dr t : ℚ) + 1 ≤ 16 := by exact_mod_cast dr_lt h5 t
    have h3 := h2.trans_le hd16
    rw [← hpos, div_lt_iff₀ (by positivity)] at h3
    have h4 : (16 : ℚ) * ((2 ^ (n - 5) : ℕ) : ℚ) = ((2 ^ (n - 1) : ℕ) : ℚ) := by
      push_cast
      rw [show (16 : ℚ) = 2 ^ 4 by norm_num, ← pow_add]; congr 1; omega
    rw [h4] at h3
    exact_mod_cast h3
  have hlow : 0 < low t := low_pos (by omega) ht
  refine ⟨mkT n t.msb (low t + Spec.M t), regular_mkT (by omega) _ (by omega) hlt, mkT_msb (by omega) _ hlt, ?_⟩
  rw [ell_mkT h5 _ hlt, hpos, psi_eq_piece h1 h2]
  unfold piece
  rw [← r_eq h5, hcq]
  congr 1
  have e : 2 ^ r t * (pos t + m t / 2 ^ r t - dr t) = 2 ^ r t * (pos t - dr t) + m t := by field_simp; ring
  rw [e, hu]; ring

/-- A takum with exactly the number is the nearest one. -/
theorem nearestEll_exact {n : ℕ} {s : Bool} {x : ℚ} {t u : BitVec n} (h : NearestEll s x t) (hu : Regular u) (hs : u.msb = s)
    (e : ell u = x) : ell t = x := by
  have h0 := abs_nonneg (ell t - x)
  rcases h.2.2 u hu hs with h1 | ⟨h1, -⟩
  · rw [e, sub_self, abs_zero] at h1; linarith
  · rw [e, sub_self, abs_zero, abs_eq_zero] at h1; linarith

end Takum
