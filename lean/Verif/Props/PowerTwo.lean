import Verif.Props.Squares

/-!
# C109: integer powers and roots with a power of two as index
-/

namespace Takum
open Spec

/-- `k` successive calls of `takumN_multiplication(t, t)`. -/
def squares (w : W) (t : T w) : ℕ → C (T w)
  | 0 => .ok t
  | k + 1 => do let u ← squares w t k; multiplication w u u

theorem toInt_two {k : ℕ} (h : k ≤ 62) : (BitVec.ofNat 64 (2 ^ k)).toInt = 2 ^ k := by
  have h1 : 2 ^ k ≤ 2 ^ 62 := Nat.pow_le_pow_right (by norm_num) h
  have h2 : (2 ^ k) % 2 ^ 64 = 2 ^ k := Nat.mod_eq_of_lt (lt_of_le_of_lt h1 (by norm_num))
  rw [BitVec.toInt_eq_toNat_of_lt (by rw [BitVec.toNat_ofNat, h2]; exact lt_of_le_of_lt (Nat.mul_le_mul_left 2 h1) (by norm_num)),
    BitVec.toNat_ofNat, h2]
  push_cast; rfl

theorem ell_scale_rep (w : W) (t : T w) (k : ℕ) : w.lF.Rep ((2 : ℚ) ^ k * ell t) := by
  have := (ell_in w t).1.scale k (by omega)
  rwa [zpow_natCast, mul_comm] at this

theorem two_rep (w : W) (k : ℕ) : w.lF.Rep (((2 ^ k : ℤ)) : ℚ) := by
  obtain ⟨q1, q2, q3⟩ := w.lF_prec
  have := Fmt.Rep.zpow (F := w.lF) (k := k) (by omega) (by omega)
  rw [zpow_natCast] at this
  push_cast
  exact this

/-- Repeated squaring reaches `2^k ell t` through takums if the last one is in the range. -/
theorem squares_ell {w : W} (hn : 12 ≤ w.n) {t : T w} (ht : Regular t) (k : ℕ) (h : |(2 : ℚ) ^ (k + 1) * ell t| < 255) :
    ∃ u : T w, Regular u ∧ u.msb = false ∧ ell u = 2 ^ (k + 1) * ell t ∧ squares w t (k + 1) = .ok u := by
  induction k with
  | zero =>
    rw [zero_add, pow_one] at h ⊢
    obtain ⟨u, ru, su, eu⟩ := exists_square hn h
    obtain ⟨l, il, -, el⟩ := square_l ht
    refine ⟨u, ru, su, eu, ?_⟩
    show multiplication w t t = _
    rw [el, ← su]
    exact enc_of_ell ru (by rw [eu]; exact il)
  | succ k ih =>
    obtain ⟨v, rv, sv, ev, e⟩ := ih (by
      have : |(2 : ℚ) ^ (k + 1 + 1) * ell t| = 2 * |(2 : ℚ) ^ (k + 1) * ell t| := by
        rw [pow_succ, mul_right_comm, mul_comm, abs_mul]; norm_num
      have h0 := abs_nonneg ((2 : ℚ) ^ (k + 1) * ell t)
      linarith)
    have e2 : 2 * ell v = 2 ^ (k + 1 + 1) * ell t := by rw [ev]; ring
    obtain ⟨u, ru, su, eu⟩ := exists_square hn (t := v) (by rw [e2]; exact h)
    obtain ⟨l, il, -, el⟩ := square_l rv
    refine ⟨u, ru, su, eu.trans e2, ?_⟩
    show (squares w t (k + 1) >>= fun u => multiplication w u u) = _
    rw [e]
    show multiplication w v v = _
    rw [el, ← su]
    exact enc_of_ell ru (by rw [eu]; exact il)

/-- C109: for 16, 32 and 64 bits, if `x^(2^k)` is in the range it is a takum, repeated squaring and (16 and 32 bits)
`integer_power` return it, and `root` with the index `2^k` gives the absolute value back. -/
theorem power_two_exact (L : Libm) (w : W) (hw : w ≠ .w8) (t : T w) (ht : Regular t) (x : ℝ) (hx : logVal t = some x)
    (k : ℕ) (hk : 1 ≤ k) (hk' : k ≤ 62) (h1 : Real.exp (-255 / 2) < x ^ 2 ^ k) (h2 : x ^ 2 ^ k < Real.exp (255 / 2)) :
    ∃ u : T w, logVal u = some (x ^ 2 ^ k) ∧ squares w t k = .ok u ∧
      (w ≠ .w64 → integerPower L w t (BitVec.ofNat 64 (2 ^ k)) = .ok u) ∧
      root w u (BitVec.ofNat 64 (2 ^ k)) = absolute w t := by
  have h8 := w.n_pos
  have hn : 12 ≤ w.n := by cases w <;> first | exact absurd rfl hw | decide
  obtain ⟨k, rfl⟩ : ∃ j, k = j + 1 := ⟨k - 1, by omega⟩
  have e1 := logVal_regular (n := w.n) (by omega) ht
  rw [hx] at e1
  have e1 := Option.some.inj e1
  have hpow : x ^ 2 ^ (k + 1) = Real.exp (((2 ^ (k + 1) * ell t : ℚ) : ℝ) / 2) := by
    rw [e1, mul_pow, logG_exp, ← Real.exp_nat_mul]
    have : ((sg t.msb : ℚ) : ℝ) ^ 2 ^ (k + 1) = 1 := by
      rw [pow_succ, mul_comm, pow_mul]
      cases t.msb <;> simp [sg]
    rw [this, one_mul]; congr 1; push_cast; ring
  rw [hpow, Real.exp_lt_exp] at h1 h2
  have h3 : (-255 : ℚ) < 2 ^ (k + 1) * ell t := by
    exact_mod_cast (by push_cast at h1 ⊢; linarith : ((-255 : ℚ) : ℝ) < ((2 ^ (k + 1) * ell t : ℚ) : ℝ))
  have h4 : 2 ^ (k + 1) * ell t < (255 : ℚ) := by
    exact_mod_cast (by push_cast at h2 ⊢; linarith : ((2 ^ (k + 1) * ell t : ℚ) : ℝ) < ((255 : ℚ) : ℝ))
  obtain ⟨u, ru, su, eu, es⟩ := squares_ell hn ht k (abs_lt.mpr ⟨h3, h4⟩)
  have ti := toInt_two hk'
  have hr2 := w.lF.rq_of_rep (two_rep w (k + 1))
  have hp0 : ((2 : ℚ) ^ (k + 1)) ≠ 0 := by positivity
  refine ⟨u, ?_, es, fun hw' => ?_, ?_⟩
  · rw [logVal_regular (by omega) ru, su, eu, hpow, logG_exp]
    congr 1
    simp only [sg]; push_cast; norm_num
  · obtain ⟨l, il, el⟩ := integerPowerL_regular ht (BitVec.ofNat 64 (2 ^ (k + 1)))
    rw [ti, hr2] at il
    have e2 : ell t * ((2 ^ (k + 1) : ℤ) : ℚ) = 2 ^ (k + 1) * ell t := by push_cast; ring
    rw [e2, w.lF.rq_of_rep (ell_scale_rep w t (k + 1))] at il
    have ho : odd ((2 : ℤ) ^ (k + 1)) = false := by
      rw [Bool.eq_false_iff, Ne, odd_iff, pow_succ]; omega
    rw [integerPower_eq L hw', el, ti, ho, Bool.and_false, ← su]
    exact enc_of_ell ru (by rw [eu]; exact il)
  · have hz : BitVec.ofNat 64 (2 ^ (k + 1)) ≠ 0#64 := by
      intro hc
      have := congrArg BitVec.toInt hc
      rw [ti, BitVec.toInt_zero] at this
      exact absurd this (by positivity)
    obtain ⟨l, il, el⟩ := root_regular ru hz (by rw [su]; intro h; cases h)
    rw [ti, hr2, eu] at il
    have e2 : 2 ^ (k + 1) * ell t / ((2 ^ (k + 1) : ℤ) : ℚ) = ell t := by push_cast; rw [mul_div_cancel_left₀ _ hp0]
    rw [e2, w.lF.rq_of_rep (ell_in w t).1] at il
    rw [el, su, absolute_spec ht.2]
    have key : ∀ v : T w, Regular v → v.msb = false → ell v = ell t → fromSAndL w false l = .ok v := by
      intro v rv sv ev
      rw [← sv]; exact enc_of_ell rv (by rw [ev]; exact il)
    cases hs : t.msb
    · exact key t ht hs rfl
    · obtain ⟨n1, -, n3, n4⟩ := regular_neg (by omega) ht
      exact key (-t) n3 (by rw [n1, hs]; rfl) n4

/-- `-√e^14` to the power 16 is `√e^224`. -/
example : Regular (0xa100#16 : T .w16) ∧ ell (0xa100#16 : T .w16) = 14 ∧
    ∃ x, logVal (0xa100#16 : T .w16) = some x ∧ Real.exp (-255 / 2) < x ^ 2 ^ 4 ∧ x ^ 2 ^ 4 < Real.exp (255 / 2) := by
  have r : Regular (0xa100#16 : T .w16) := by unfold Regular; decide
  refine ⟨r, by decide +kernel, _, logVal_regular (by decide) r, ?_⟩
  rw [show (0xa100#16 : T .w16).msb = true by decide, show ell (0xa100#16 : T .w16) = 14 by decide +kernel, logG_exp, mul_pow,
    ← Real.exp_nat_mul]
  norm_num [sg]

end Takum
