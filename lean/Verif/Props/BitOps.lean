import Verif.Lemmas.BitOps
import Verif.Props.Format

/-!
# Inversion, absolute value, sign and precision (C19 – C23)
-/

namespace Takum
open Spec

/-- C19: the inverse of a logarithmic takum is exact; inversion is an involution, keeps the sign and
commutes with negation. -/
theorem inversion_exact {w : W} (t : T w) (h : Regular t) :
    (∃ x y : ℝ, logVal t = some x ∧ logVal (inversion w t) = some y ∧ x * y = 1) ∧
      Regular (inversion w t) ∧ inversion w (inversion w t) = t ∧ (inversion w t).msb = t.msb ∧
      inversion w (-t) = -inversion w t := by
  have h8 := w.n_pos
  have hl := low_lt t
  have hp := low_pos (by omega) h
  obtain ⟨i1, i2, i3, i4⟩ := inversion_facts h
  obtain ⟨n1, n2, n3, n4⟩ := regular_neg (by omega) h
  refine ⟨⟨_, _, logVal_val (by omega) h.2, logVal_val (by omega) i3.2, ?_⟩, i3, ?_, i1, ?_⟩
  · unfold val
    rw [if_neg h.1, if_neg i3.1, i1, i4, logG_exp, logG_exp]
    have : Real.exp (((ell t : ℚ) : ℝ) / 2) * Real.exp (((-ell t : ℚ) : ℝ) / 2) = 1 := by
      rw [← Real.exp_add]; push_cast; rw [neg_div, add_neg_cancel, Real.exp_zero]
    cases t.msb
    · simpa using this
    · simpa using this
  · rw [inversion_regular i3, i1, i2, Nat.sub_sub_self hl.le, ← eq_mkT (by omega)]
  · rw [inversion_regular n3, inversion_regular h, n1, n2,
      neg_mkT (by omega) _ (by omega) (by omega)]

example : Regular 0x4c3d#16 ∧ inversion .w16 0x4c3d#16 = 0x33c3#16 := by unfold Regular; decide

/-- C19: 0 and NaR have no inverse. -/
theorem inversion_nar_iff (w : W) (t : T w) : inversion w t = nar w.n ↔ t = 0#w.n ∨ t = nar w.n := by
  constructor
  · intro h
    by_contra hc
    push Not at hc
    exact (inversion_facts hc).2.2.1.2 h
  · rintro (h | h)
    · rw [h, inversion_zero]
    · rw [h, inversion_nar]

/-- C20: inversion reverses the order of takums of one sign. -/
theorem inversion_antitone {w : W} (a b : T w) (ha : Regular a) (hb : Regular b) (hs : a.msb = b.msb)
    (hab : a.toInt < b.toInt) : (inversion w b).toInt < (inversion w a).toInt := by
  have h8 := w.n_pos
  obtain ⟨i1, i2, -⟩ := inversion_facts ha
  obtain ⟨j1, j2, -⟩ := inversion_facts hb
  have h1 := low_lt a
  have h2 := low_lt b
  rw [toInt_mkT (by omega)] at hab ⊢
  rw [toInt_mkT (by omega) b] at hab
  rw [toInt_mkT (by omega) (inversion w a), i1, i2, j1, j2, ← hs]
  rw [← hs] at hab
  push_cast [h1.le, h2.le]
  omega

example : Regular 0x4c3d#16 ∧ Regular 0x4c40#16 ∧ (0x4c3d#16).msb = (0x4c40#16).msb ∧
    (0x4c3d#16).toInt < (0x4c40#16).toInt := by unfold Regular; decide

/-- C20: 1 is the only positive and −1 the only negative takum that is its own inverse. -/
theorem inversion_fixed (w : W) (t : T w) (h : Regular t) :
    inversion w t = t ↔ t = ONE w ∨ t = -ONE w := by
  have h8 := w.n_pos
  obtain ⟨o1, o2, o3, o4⟩ := ONE_facts w
  obtain ⟨m1, m2, m3, m4⟩ := regular_neg (by omega) o3
  have h2 := two_pow_sub_two (by omega : 2 ≤ w.n)
  have hl := low_lt t
  obtain ⟨i1, i2, -⟩ := inversion_facts h
  have key : inversion w t = t ↔ low t = 2 ^ (w.n - 2) := by
    constructor
    · intro e; rw [e] at i2; omega
    · intro e; exact ext_low (by omega) i1 (by rw [i2]; omega)
  rw [key]
  constructor
  · intro e
    cases hm : t.msb
    · left; exact ext_low (by omega) (by rw [hm, o1]) (by rw [e, o2])
    · right; exact ext_low (by omega) (by rw [hm, m1, o1]; rfl) (by rw [e, m2, o2]; omega)
  · rintro (e | e)
    · rw [e, o2]
    · rw [e, m2, o2]; omega

/-- C21 for everything but NaR: `absolute` is defined and gives the absolute value, for the
logarithmic and the linear reading.  Missing for C21: the argument NaR, see
`absolute_nar` and `absolute_nar_refuted`. -/
theorem absolute_value_partial (w : W) (t : T w) (h : t ≠ nar w.n) :
    ∃ v : T w, absolute w t = .ok v ∧ logVal v = (logVal t).map (|·|) ∧
      linVal v = (linVal t).map (|·|) ∧ 0 ≤ v.toInt := by
  have h8 := w.n_pos
  refine ⟨_, absolute_spec h, ?_⟩
  by_cases h0 : t = 0#w.n
  · subst h0
    simp only [BitVec.msb_zero, Bool.false_eq_true, if_false]
    refine ⟨?_, ?_, by simp⟩
    · unfold logVal; rw [if_neg h, if_pos rfl]; simp
    · unfold linVal; rw [if_neg h, if_pos rfl]; simp
  have hr : Regular t := ⟨h0, h⟩
  have hL := (logVal_val (by omega) h)
  have hN := (linVal_val (by omega) h)
  obtain ⟨n1, n2, n3, n4⟩ := regular_neg (by omega) hr
  have e : val logG t = (if t.msb then -1 else 1) * logG (ell t) := by unfold val; rw [if_neg h0]
  have e' : val lam t = (if t.msb then -1 else 1) * lam (ell t) := by unfold val; rw [if_neg h0]
  cases hm : t.msb
  · simp only [Bool.false_eq_true, if_false]
    rw [hL, hN, e, e', hm]
    simp only [Bool.false_eq_true, if_false, one_mul, Option.map_some, abs_of_pos (logG_pos _),
      abs_of_pos (lam_pos _), true_and]
    exact ((toInt_pos_iff (by omega) hr).mpr hm).le
  · simp only [if_true]
    rw [logVal_val (by omega) n3.2, linVal_val (by omega) n3.2, hL, hN, e, e', hm]
    have f : val logG (-t) = (if (-t).msb then -1 else 1) * logG (ell (-t)) := by
      unfold val; rw [if_neg n3.1]
    have f' : val lam (-t) = (if (-t).msb then -1 else 1) * lam (ell (-t)) := by
      unfold val; rw [if_neg n3.1]
    rw [f, f', n1, n4, hm]
    simp only [Bool.not_true, Bool.false_eq_true, if_false, if_true, one_mul, neg_mul, abs_neg, Option.map_some,
      abs_of_pos (logG_pos _), abs_of_pos (lam_pos _), true_and]
    exact ((toInt_pos_iff (by omega) n3).mpr (by rw [n1, hm]; rfl)).le

example : (0xbc00#16 : T .w16) ≠ nar (W.w16).n ∧ absolute .w16 0xbc00#16 = .ok 0x4400#16 ∧
    absolute .w64 0xffffffffffffffff#64 = .ok 1#64 := by decide +kernel

/-- C21, NaR for 8 and 16 bits: the negation is done in `int` and converted back to NaR. -/
theorem absolute_nar : absolute .w8 (nar 8) = .ok (nar 8) ∧ absolute .w16 (nar 16) = .ok (nar 16) := by
  decide +kernel

/-- C21 is false for 32 and 64 bits: the absolute value of NaR negates the most negative value of the
signed type, which is undefined behaviour. -/
theorem absolute_nar_refuted :
    absolute .w32 (nar 32) = .error .overflow ∧ absolute .w64 (nar 64) = .error .overflow := by
  decide +kernel

/-- C22: the sign function, for both readings. -/
theorem sign_value (w : W) (t : T w) :
    logVal (sign w t) = (logVal t).map (fun x => (SignType.sign x : ℝ)) ∧
      linVal (sign w t) = (linVal t).map (fun x => (SignType.sign x : ℚ)) := by
  have h8 := w.n_pos
  obtain ⟨o1, o2, o3, o4⟩ := ONE_facts w
  obtain ⟨m1, m2, m3, m4⟩ := regular_neg (by omega) o3
  have l0 : lam 0 = 1 := by unfold lam; simp
  have g0 : logG 0 = 1 := by unfold logG; simp
  unfold sign
  rw [NAR_eq (by omega), isNeg_eq, isPos_eq]
  by_cases hn : t = nar w.n
  · rw [if_pos hn, hn]
    constructor
    · unfold logVal; rw [if_pos rfl]; rfl
    · unfold linVal; rw [if_pos rfl]; rfl
  rw [if_neg hn, logVal_val (by omega) hn, linVal_val (by omega) hn]
  by_cases h0 : t = 0#w.n
  · subst h0
    simp only [BitVec.msb_zero, Bool.false_eq_true, if_false, bne_self_eq_false, Bool.and_false]
    rw [logVal_val (by omega) hn, linVal_val (by omega) hn]
    unfold val; simp
  have e : ∀ {K : Type} [Field K] [LinearOrder K] (g : ℚ → K), val g t = (if t.msb then -1 else 1) * g (ell t) := by
    intro K _ _ g; unfold val; rw [if_neg h0]
  cases hm : t.msb
  · have hne : (t != 0#w.n) = true := by simpa using h0
    simp only [Bool.false_eq_true, if_false, hne, Bool.not_false, Bool.and_true, if_true]
    rw [logVal_val (by omega) o3.2, linVal_val (by omega) o3.2, e, e, hm]
    unfold val
    rw [if_neg o3.1, if_neg o3.1, o1, o4, l0, g0]
    simp only [Bool.false_eq_true, if_false, one_mul, Option.map_some, sign_pos (logG_pos _),
      sign_pos (lam_pos _)]
    simp
  · simp only [if_true]
    rw [logVal_val (by omega) m3.2, linVal_val (by omega) m3.2, e, e, hm]
    unfold val
    rw [if_neg m3.1, if_neg m3.1, m1, o1, m4, o4, l0, g0]
    have a : -logG (ell t) < 0 := by linarith [logG_pos (ell t)]
    have b : -lam (ell t) < 0 := by linarith [lam_pos (ell t)]
    simp only [Bool.not_false, if_true, neg_mul, one_mul, Option.map_some, sign_neg a, sign_neg b]
    simp

example : sign .w32 0xbc000000#32 = 0xc0000000#32 ∧ linVal (0xc0000000#32) = some (-1) := by
  decide +kernel

/-- C23: the precision is the number of mantissa bits of the format, `p` for patterns of 12 bits and
more, and `p` without the appended zero bits for 8; for 0 and NaR it is the worst case. -/
theorem precision_value (w : W) (t : T w) :
    precision w t = .ok (p t - (len w.n - w.n)) ∧
      (¬ Regular t → precision w t = .ok (w.n - 12)) ∧
      ∃ k, precision w t = .ok k ∧ w.n - 12 ≤ k ∧ k ≤ w.n - 5 := by
  have h8 := w.n_pos
  have h7 := r_le (by omega) t
  have e : precision w t = .ok (p t - (len w.n - w.n)) := by
    rw [precision_spec]; unfold p len; congr 1; omega
  refine ⟨e, ?_, _, precision_spec w t, by omega, by omega⟩
  intro h
  have hl : low t = 0 := by
    by_contra hc; exact h ((regular_iff (by omega) t).mpr hc)
  have hr : r t = 7 := by
    rw [r_eq (by omega)]; unfold dr; rw [hl]; simp; rfl
  rw [precision_spec, hr]; congr 1

/-- C23: changing mantissa bits leaves the precision unchanged. -/
theorem precision_mantissa (w : W) (t t' : T w) (k : ℕ) (hk : precision w t = .ok k)
    (h : t.toNat / 2 ^ k = t'.toNat / 2 ^ k) : precision w t' = .ok k := by
  have h8 := w.n_pos
  rw [precision_spec] at hk ⊢
  have hk' : k = w.n - 5 - r t := (Except.ok.inj hk).symm
  rw [hk']
  have hd : dr t = dr t' := by
    have e : ∀ x : T w, dr x = x.toNat / 2 ^ k / 2 ^ (w.n - 5 - k) % 16 := by
      intro x
      unfold dr low
      rw [pow16 (by omega), mul_comm 16, Nat.mod_mul_right_div_self, Nat.div_div_eq_div_mul, ← pow_add]
      congr 3; omega
    rw [e, e, h]
  rw [r_eq (by omega) t, r_eq (by omega) t', hd]

example : precision .w16 0x4c3d#16 = .ok 10 ∧ (0x4c3d#16).toNat / 2 ^ 10 = (0x4fff#16).toNat / 2 ^ 10 ∧
    precision .w8 0x7f#8 = .ok 0 := by decide +kernel

end Takum
