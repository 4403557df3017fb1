import Verif.Props.LogArith
import Verif.Props.BitOps
import Verif.Props.Irrational

/-!
# C97: squares of logarithmic takums
-/

namespace Takum
open Spec

theorem piece_bounds : ∀ d < 16, (8 ≤ d → bias d = 2 ^ rr d - 1) ∧ (d < 8 → bias d = -2 ^ (rr d + 1) + 1) := by decide

/-- The number of characteristic bits is the length of the integer part of `|y| + 1`. -/
theorem rr_bounds {d : ℕ} (hd : d < 16) {y : ℚ} (h1 : (bias d : ℚ) ≤ y) (h2 : y < bias d + 2 ^ rr d) :
    (2 : ℚ) ^ rr d ≤ |y| + 1 ∧ |y| + 1 ≤ 2 ^ (rr d + 1) := by
  have hp : (1 : ℚ) ≤ 2 ^ rr d := one_le_pow₀ (by norm_num)
  have e : (2 : ℚ) ^ (rr d + 1) = 2 * 2 ^ rr d := by rw [pow_succ]; ring
  rcases lt_or_ge d 8 with h | h
  · have hb : (bias d : ℚ) = -2 ^ (rr d + 1) + 1 := by exact_mod_cast (piece_bounds d hd).2 h
    rw [hb] at h1 h2
    rw [abs_of_nonpos (by linarith)]
    constructor <;> linarith
  · have hb : (bias d : ℚ) = 2 ^ rr d - 1 := by exact_mod_cast (piece_bounds d hd).1 h
    rw [hb] at h1 h2
    rw [abs_of_nonneg (by linarith)]
    constructor <;> linarith

/-- Twice a position of an `n`-bit takum is a position, if it is in range. -/
theorem psi_double {n : ℕ} (hn : 12 ≤ n) {k : ℕ} (hk : k < 2 ^ (n - 1))
    (h : |2 * psi (k / ((2 ^ (n - 5) : ℕ) : ℚ))| < 255) :
    ∃ k' : ℕ, 1 ≤ k' ∧ k' < 2 ^ (n - 1) ∧ psi (k' / ((2 ^ (n - 5) : ℕ) : ℚ)) = 2 * psi (k / ((2 ^ (n - 5) : ℕ) : ℚ)) := by
  have hW : (0 : ℚ) < ((2 ^ (n - 5) : ℕ) : ℚ) := by positivity
  have h16 : (16 : ℚ) * ((2 ^ (n - 5) : ℕ) : ℚ) = ((2 ^ (n - 1) : ℕ) : ℚ) := by
    push_cast
    rw [show (16 : ℚ) = 2 ^ 4 by norm_num, ← pow_add]; congr 1; omega
  have u0 : (0 : ℚ) ≤ k / ((2 ^ (n - 5) : ℕ) : ℚ) := by positivity
  have u1 : (k : ℚ) / ((2 ^ (n - 5) : ℕ) : ℚ) < 16 := by
    rw [div_lt_iff₀ hW, h16]; exact_mod_cast hk
  obtain ⟨d, hd, a, b⟩ := exists_piece u0 u1
  have hy := psi_eq_piece a b
  have hrr := rr_le d hd
  set u := (k : ℚ) / ((2 ^ (n - 5) : ℕ) : ℚ) with hu
  unfold piece at hy
  set y := psi u with hyd
  have hR : (0 : ℚ) < 2 ^ rr d := by positivity
  have y1 : (bias d : ℚ) ≤ y := by
    rw [hy]; have := mul_nonneg hR.le (sub_nonneg.mpr a); linarith
  have y2 : y < bias d + 2 ^ rr d := by
    rw [hy]; have : (2 : ℚ) ^ rr d * (u - d) < 2 ^ rr d * 1 := mul_lt_mul_of_pos_left (by linarith) hR
    linarith
  obtain ⟨i, hi⟩ : ∃ i : ℤ, y * 2 ^ (n - 5 - rr d) = i := by
    refine ⟨bias d * 2 ^ (n - 5 - rr d) + k - d * 2 ^ (n - 5), ?_⟩
    have e : (2 : ℚ) ^ rr d * 2 ^ (n - 5 - rr d) = 2 ^ (n - 5) := by rw [← pow_add]; congr 1; omega
    have e2 : u * 2 ^ (n - 5) = k := by
      rw [hu]; push_cast; field_simp
    rw [hy]
    push_cast
    rw [← e2, ← e]; ring
  obtain ⟨z1, z2⟩ := abs_lt.mp h
  have f1 : -255 ≤ ⌊2 * y⌋ := by rw [Int.le_floor]; push_cast; linarith
  have f2 : ⌊2 * y⌋ < 255 := by rw [Int.floor_lt]; push_cast; linarith
  obtain ⟨_, d16, b1, b2⟩ := drOf_spec f1 f2
  obtain ⟨p0, p1, p2⟩ := psiInv_spec (y := 2 * y) (by linarith) (by linarith)
  have q1 := Int.floor_le (2 * y)
  have q2 := Int.lt_floor_add_one (2 * y)
  have b1' : (bias (drOf ⌊2 * y⌋) : ℚ) ≤ ⌊2 * y⌋ := by exact_mod_cast b1
  have b2' : (⌊2 * y⌋ : ℚ) + 1 ≤ bias (drOf ⌊2 * y⌋) + 2 ^ rr (drOf ⌊2 * y⌋) := by exact_mod_cast b2
  have r1 := (rr_bounds d16 (y := 2 * y) (by linarith) (by linarith)).1
  have r2 := (rr_bounds hd y1 y2).2
  have hr7 := rr_le _ d16
  have hle : rr (drOf ⌊2 * y⌋) ≤ rr d + 1 := by
    by_contra hc
    have h3 : (2 : ℚ) ^ (rr d + 2) ≤ 2 ^ rr (drOf ⌊2 * y⌋) := pow_le_pow_right₀ (by norm_num) (by omega)
    have h4 : (2 : ℚ) ^ (rr d + 2) = 2 * 2 ^ (rr d + 1) := by rw [pow_succ _ (rr d + 1)]; ring
    rw [abs_mul, abs_of_pos (by norm_num : (0 : ℚ) < 2)] at r1
    linarith
  obtain ⟨j, hj⟩ : ∃ j : ℤ, psiInv (2 * y) * 2 ^ (n - 5) = j := by
    refine ⟨drOf ⌊2 * y⌋ * 2 ^ (n - 5) + i * 2 ^ (rr d + 1 - rr (drOf ⌊2 * y⌋))
      - bias (drOf ⌊2 * y⌋) * 2 ^ (n - 5 - rr (drOf ⌊2 * y⌋)), ?_⟩
    unfold psiInv
    generalize drOf ⌊2 * y⌋ = d' at *
    have e1 : (2 : ℚ) ^ (n - 5) = 2 ^ rr d' * 2 ^ (n - 5 - rr d') := by rw [← pow_add]; congr 1; omega
    have e3 : (2 : ℚ) ^ (n - 5 - rr d) * 2 ^ (rr d + 1 - rr d') = 2 * 2 ^ (n - 5 - rr d') := by
      rw [← pow_add, ← pow_succ']; congr 1; omega
    push_cast
    rw [← hi]
    have e4 : y * 2 ^ (n - 5 - rr d) * 2 ^ (rr d + 1 - rr d') = 2 * y * 2 ^ (n - 5 - rr d') := by
      rw [mul_assoc, e3]; ring
    rw [e4, e1]
    field_simp
    ring
  have p0' : 0 < psiInv (2 * y) := by
    rcases lt_or_eq_of_le p0 with h | h
    · exact h
    · rw [← h] at p2
      have : psi 0 = -255 := by decide +kernel
      rw [this] at p2; linarith
  have hP : (0 : ℚ) < 2 ^ (n - 5) := by positivity
  have j0 : 0 < j := by
    have : (0 : ℚ) < j := by rw [← hj]; positivity
    exact_mod_cast this
  obtain ⟨k', rfl⟩ := Int.eq_ofNat_of_zero_le j0.le
  have e : ((k' : ℕ) : ℚ) / ((2 ^ (n - 5) : ℕ) : ℚ) = psiInv (2 * y) := by
    rw [div_eq_iff hW.ne']; push_cast; exact_mod_cast hj.symm
  refine ⟨k', by omega, ?_, by rw [e, p2]⟩
  have : psiInv (2 * y) < 16 := p1
  rw [← e, div_lt_iff₀ hW, h16] at this
  exact_mod_cast this

/-- The takum with the square of the number. -/
theorem exists_square {n : ℕ} (hn : 12 ≤ n) {t : BitVec n} (h : |2 * ell t| < 255) :
    ∃ u : BitVec n, Regular u ∧ u.msb = false ∧ ell u = 2 * ell t := by
  have h5 : 5 ≤ n := by omega
  have hlow := low_lt t
  rw [ell_sg h5, mul_left_comm, sg_abs] at h
  obtain ⟨k, k1, k2, e⟩ := psi_double hn hlow h
  have e' : psi (k / ((2 ^ (n - 5) : ℕ) : ℚ)) = 2 * psi (pos t) := e
  have hW : (0 : ℚ) < ((2 ^ (n - 5) : ℕ) : ℚ) := by positivity
  cases hs : t.msb
  · refine ⟨mkT n false k, regular_mkT (by omega) _ k1 k2, mkT_msb (by omega) _ k2, ?_⟩
    rw [ell_mkT h5 _ k2, ell_sg h5, hs, e']
    simp only [sg]; norm_num
  · have h16 : (16 : ℚ) * ((2 ^ (n - 5) : ℕ) : ℚ) = ((2 ^ (n - 1) : ℕ) : ℚ) := by
      push_cast
      rw [show (16 : ℚ) = 2 ^ 4 by norm_num, ← pow_add]; congr 1; omega
    have k3 : 2 ^ (n - 1) - k < 2 ^ (n - 1) := by omega
    refine ⟨mkT n false (2 ^ (n - 1) - k), regular_mkT (by omega) _ (by omega) k3, mkT_msb (by omega) _ k3, ?_⟩
    have e2 : (((2 ^ (n - 1) - k : ℕ) : ℚ)) / ((2 ^ (n - 5) : ℕ) : ℚ) = 16 - k / ((2 ^ (n - 5) : ℕ) : ℚ) := by
      rw [Nat.cast_sub k2.le, ← h16]; field_simp
    rw [ell_mkT h5 _ k3, ell_sg h5, hs, e2, psi_symm (by positivity) (by rw [div_lt_iff₀ hW, h16]; exact_mod_cast k2), e']
    simp only [sg]; norm_num

theorem square_l {w : W} {t : T w} (ht : Regular t) :
    ∃ l : Fl, l.Is (2 * ell t) ∧ w.lF.Rep (2 * ell t) ∧ multiplication w t t = fromSAndL w false l := by
  obtain ⟨l, il, el⟩ := multiplication_regular ht ht
  have hrep : w.lF.Rep (ell t + ell t) := by
    obtain ⟨m, e, h1, h2, h3⟩ := (ell_in w t).1
    refine ⟨m, e + 1, ?_, h2, by omega⟩
    rw [zpow_add_one₀ (by norm_num), h1]; ring
  rw [w.lF.rq_of_rep hrep, ← two_mul] at il
  rw [← two_mul] at hrep
  rw [Bool.xor_self] at el
  exact ⟨l, il, hrep, el⟩

/-- C97: for 16, 32 and 64 bits a square that is in the range is exact and its square root gives the absolute value back;
otherwise the square is the largest or the smallest positive takum.  Missing: 8 bits. -/
theorem square_exact_partial (w : W) (hw : w ≠ .w8) (t : T w) (ht : Regular t) (x : ℝ) (hx : logVal t = some x) :
    ∃ u : T w, multiplication w t t = .ok u ∧
      (Real.exp (-255 / 2) < x ^ 2 → x ^ 2 < Real.exp (255 / 2) →
        logVal u = some (x ^ 2) ∧ squareRoot w u = absolute w t) ∧
      (Real.exp (255 / 2) ≤ x ^ 2 → u.toInt = 2 ^ (w.n - 1) - 1) ∧ (x ^ 2 ≤ Real.exp (-255 / 2) → u.toInt = 1) := by
  have h8 := w.n_pos
  have hn : 12 ≤ w.n := by cases w <;> first | exact absurd rfl hw | decide
  have e1 := logVal_regular (n := w.n) (by omega) ht
  rw [hx] at e1
  have e1 := Option.some.inj e1
  have hsq : x ^ 2 = Real.exp (ell t : ℝ) := by
    rw [e1, mul_pow, logG_exp, ← Real.exp_nat_mul]
    have : ((sg t.msb : ℚ) : ℝ) ^ 2 = 1 := by cases t.msb <;> simp [sg]
    rw [this, one_mul]; congr 1; push_cast; ring
  obtain ⟨l, il, rl, el⟩ := square_l ht
  have rl' := lF_rep_encF rl
  obtain ⟨u, eu, ru, su⟩ := enc_regular (w := w) false il rl'
  refine ⟨u, el.trans eu, fun h1 h2 => ?_, fun h1 => ?_, fun h1 => ?_⟩
  · rw [hsq, Real.exp_lt_exp] at h1 h2
    have h3 : (-255 / 2 : ℚ) < ell t := by exact_mod_cast (by push_cast; exact h1 : ((-255 / 2 : ℚ) : ℝ) < (ell t : ℝ))
    have h4 : ell t < (255 / 2 : ℚ) := by exact_mod_cast (by push_cast; exact h2 : (ell t : ℝ) < ((255 / 2 : ℚ) : ℝ))
    obtain ⟨v, rv, sv, ev⟩ := exists_square hn (t := t) (by rw [abs_lt]; constructor <;> linarith)
    have e2 : fromSAndL w false l = .ok v := by rw [← sv]; exact enc_of_ell rv (by rw [ev]; exact il)
    obtain rfl : u = v := Except.ok.inj (eu.symm.trans e2)
    constructor
    · rw [logVal_regular (by omega) ru, sv, ev, hsq, logG_exp]
      congr 1
      simp only [sg]; push_cast; norm_num
    · obtain ⟨l', il', el'⟩ := squareRoot_regular ru sv
      rw [ev, mul_div_cancel_left₀ _ (by norm_num)] at il'
      rw [el', absolute_spec ht.2]
      have key : ∀ v : T w, Regular v → v.msb = false → ell v = ell t → fromSAndL w false l' = .ok v := by
        intro v rv sv ev
        rw [← sv]; exact enc_of_ell rv (by rw [ev]; exact il')
      cases hs : t.msb
      · exact key t ht hs rfl
      · obtain ⟨n1, -, n3, n4⟩ := regular_neg (by omega) ht
        exact key (-t) n3 (by rw [n1, hs]; rfl) n4
  · rw [hsq, Real.exp_le_exp] at h1
    have h3 : (255 / 2 : ℚ) ≤ ell t := by exact_mod_cast (by push_cast; exact h1 : ((255 / 2 : ℚ) : ℝ) ≤ (ell t : ℝ))
    obtain ⟨M, rM, sM, iM, lM, n0⟩ : ∃ M : T w, Regular M ∧ M.msb = false ∧ M.toInt = 2 ^ (w.n - 1) - 1 ∧ ell M < 255 ∧ ell M ≠ 0 := by
      refine ⟨BitVec.ofNat w.n (2 ^ (w.n - 1) - 1), ?_⟩
      unfold Regular; cases w <;> decide +kernel
    obtain ⟨a, b, ea, eb, hab⟩ := enc_mono (w := w) false (Fl.Is.num n0) il (lF_rep_encF (ell_in w M).1) rl' (by simp only [sg]; norm_num; linarith)
    obtain rfl : u = b := Except.ok.inj (eu.symm.trans eb)
    have e3 := enc_of_ell rM (Fl.Is.num n0)
    rw [sM] at e3
    obtain rfl : M = a := Except.ok.inj (e3.symm.trans ea)
    have := BitVec.toInt_lt (x := u)
    rw [iM] at hab
    omega
  · rw [hsq, Real.exp_le_exp] at h1
    have h3 : ell t ≤ (-255 / 2 : ℚ) := by exact_mod_cast (by push_cast; exact h1 : (ell t : ℝ) ≤ ((-255 / 2 : ℚ) : ℝ))
    obtain ⟨M, rM, sM, iM, lM, n0⟩ : ∃ M : T w, Regular M ∧ M.msb = false ∧ M.toInt = 1 ∧ -255 < ell M ∧ ell M ≠ 0 := by
      refine ⟨1#w.n, ?_⟩
      unfold Regular; cases w <;> decide +kernel
    obtain ⟨a, b, ea, eb, hab⟩ := enc_mono (w := w) false il (Fl.Is.num n0) rl' (lF_rep_encF (ell_in w M).1) (by simp only [sg]; norm_num; linarith)
    obtain rfl : u = a := Except.ok.inj (eu.symm.trans ea)
    have e3 := enc_of_ell rM (Fl.Is.num n0)
    rw [sM] at e3
    obtain rfl : M = b := Except.ok.inj (e3.symm.trans eb)
    have h0 : 0 ≤ u.toInt := by
      by_contra hc
      have := (isNeg_iff u).mp (by omega)
      rw [su] at this; exact absurd this (by decide)
    have h00 : u.toInt ≠ 0 := fun hc => ru.1 (BitVec.eq_of_toInt_eq (by rw [hc]; simp))
    rw [iM] at hab
    omega

example : Regular (0x5800#16 : T .w16) ∧ ell (0x5800#16 : T .w16) = 7 ∧ multiplication .w16 0x5800#16 0x5800#16 = .ok 0x5f00#16 ∧
    ell (0x5f00#16 : T .w16) = 14 ∧ ∃ x, logVal (0x5800#16 : T .w16) = some x ∧ Real.exp (-255 / 2) < x ^ 2 ∧ x ^ 2 < Real.exp (255 / 2) := by
  have r : Regular (0x5800#16 : T .w16) := by unfold Regular; decide
  refine ⟨r, by decide +kernel, by decide +kernel, by decide +kernel, _, logVal_regular (by decide) r, ?_⟩
  rw [show (0x5800#16 : T .w16).msb = false by decide, show ell (0x5800#16 : T .w16) = 7 by decide +kernel, logG_exp, mul_pow,
    ← Real.exp_nat_mul]
  norm_num [sg]

/-- C97 is false for 8 bits: with `t = √e^8` the product of `t` with itself is `√e^15`, and the square root of that
is `√e^7`. -/
theorem square_exact_refuted :
    ell (0x59#8 : T .w8) = 8 ∧ multiplication .w8 0x59#8 0x59#8 = .ok 0x60#8 ∧ ell (0x60#8 : T .w8) = 15 ∧
      squareRoot .w8 0x60#8 = .ok 0x58#8 ∧ ell (0x58#8 : T .w8) = 7 ∧ absolute .w8 0x59#8 = .ok 0x59#8 := by
  decide +kernel

end Takum
