import Verif.Lemmas.TestLog
import Verif.Props.TestArithmetic
import Verif.Props.LogArith
import Verif.Props.TestRandom

/-!
# C90: the test programs of the arithmetic of logarithmic takums

`Clear E`: no case raises the exceptions underflow and overflow.
-/

namespace Takum.Test
open Takum Spec

/-! ### Rounding and logarithms -/

/-- The logarithm of a rounded number. -/
theorem rq_log {x : ℝ} (h : (2 : ℝ) ^ (-1000 : ℤ) ≤ |x|) :
    x80.rq x ≠ 0 ∧ (x80.rq x < 0 ↔ x < 0) ∧
      |Real.log |((x80.rq x : ℚ) : ℝ)| - Real.log (|x|)| ≤ (1.0001 / 2 ^ 64 : ℚ) := by
  have hx : 0 < |x| := lt_of_lt_of_le (by positivity) h
  have h' : (2 : ℝ) ^ (x80.emin + x80.prec) ≤ |x| :=
    le_trans (zpow_le_zpow_right₀ (by norm_num) (by decide)) h
  have e := rq_real_err (F := x80) h'
  have e' : |((x80.rq x : ℚ) : ℝ) - x| ≤ 1 / 2 ^ 64 * |x| := by
    rw [one_div_mul_eq_div]; exact e
  have ea : |(|((x80.rq x : ℚ) : ℝ)|) - (|x|)| ≤ 1 / 2 ^ 64 * |x| := (abs_abs_sub_abs_le _ _).trans e'
  obtain ⟨p, q⟩ := log_rel hx ea (by norm_num)
  have hne : x80.rq x ≠ 0 := by
    intro h0; rw [h0] at p; simp at p
  refine ⟨hne, ?_, q.trans (by norm_num)⟩
  rw [← Rat.cast_lt (K := ℝ), Rat.cast_zero]
  rw [abs_le] at e'
  constructor <;> intro hs
  · by_contra hc
    rw [abs_of_nonneg (not_lt.mp hc)] at e' hx
    linarith [e'.1]
  · rw [abs_of_neg hs] at e' hx
    linarith [e'.2]

/-- The absolute error of rounding. -/
theorem rq_abs (x : ℚ) : |x80.rq x - x| ≤ |x| / 2 ^ 64 + 1 / 2 ^ 100 := by
  have h := rq_err_add (F := x80) (.inr rfl) x
  have h2 : (2 : ℝ) ^ (-1000 : ℤ) ≤ 1 / 2 ^ 100 := by
    rw [show (1 : ℝ) / 2 ^ 100 = (2 : ℝ) ^ (-100 : ℤ) by norm_num]
    exact zpow_le_zpow_right₀ (by norm_num) (by norm_num)
  have h3 : |(x80.rq x : ℝ) - x| ≤ |(x : ℝ)| / 2 ^ 64 + 1 / 2 ^ 100 := h.trans (add_le_add (le_of_eq rfl) h2)
  have h4 : ((|x80.rq x - x| : ℚ) : ℝ) ≤ ((|x| / 2 ^ 64 + 1 / 2 ^ 100 : ℚ) : ℝ) := by push_cast; exact h3
  exact Rat.cast_le.mp h4

/-! ### Multiplication and division -/

/-- The result and the converted reference differ by at most one unit. -/
def Near {w : W} (L : Libm) (o : C (T w)) (raw : Fl) : Prop :=
  ∃ u v : T w, o = .ok u ∧ fromExt L .log w raw = .ok v ∧ |u.toInt - v.toInt| ≤ 1

theorem near_equal {w : W} {L : Libm} {o : C (T w)} {raw : Fl} (u : T w) (h : o = .ok u)
    (h' : fromExt L .log w raw = .ok u) : Near L o raw := ⟨u, u, h, h', by simp⟩

theorem from_is_zero (L : Libm) (w : W) {f : Fl} (h : f.Is 0) : fromExt L .log w f = .ok 0#w.n := by
  rcases h.cases with ⟨h0, -⟩ | ⟨-, s, rfl⟩
  · exact absurd rfl h0
  · exact fromExt_zero _ _ _ _

theorem mul_is_zero {x y : Fl} {a b : ℚ} (hx : x.Is a) (hy : y.Is b) (h : a * b = 0) : (Fl.mul x80 x y).Is 0 := by
  have e : x80.rq (a * b) = 0 := by rw [h]; exact x80.rq_of_rep (Fmt.Rep.zero _)
  have := hx.mul hy (F := x80) (by rw [e]; decide +kernel)
  rwa [e] at this

theorem dec_sg {s : Bool} {v : ℚ} (h : 0 < v) : decide (sg s * v < 0) = s := by
  cases s
  · simp [sg]; exact h.le
  · simp [sg]; exact h

/-- A sum of two `ℓ`, encoded, and a reference value with the logarithm of that sum. -/
theorem sum_near {L : Libm} (hA : L.Accurate) {w : W} {s : Bool} {a b : T w} {o : C (T w)} {l : Fl}
    (hl : l.Is (w.lF.rq (ell a + ell b))) (ho : o = fromSAndL w s l) {raw : Fl} {z : ℚ} (hr : raw.Is z) (hz : z ≠ 0)
    (hi : x80.In z) (hs : decide (z < 0) = s)
    (hv : |Real.log |(z : ℝ)| - ((ell a + ell b : ℚ) : ℝ) * Real.log (sqe x80)| ≤ (9.0201 / 2 ^ 64 : ℚ)) : Near L o raw := by
  have h1 := abs_ell_lt a
  have h2 := abs_ell_lt b
  have hab : |ell a + ell b| ≤ 512 := (abs_add_le _ _).trans (by linarith)
  obtain ⟨p, v, ev, cv, hp⟩ := ref_conv hA w hr hz hi hv (by linarith) (by norm_num)
  rw [hs] at cv
  by_cases hw : w = .w64
  · subst hw
    obtain ⟨u, eu, nu, au⟩ := enc_next (w := .w64) s hl (lF_rep_encF (lF_rq_rep .w64 _))
    refine ⟨u, v, ho.trans eu, ev, near_big nu au cv ?_⟩
    have h3 := rq_abs (ell a + ell b)
    generalize hq : W.lF .w64 = F at *
    obtain rfl : F = x80 := hq.symm
    have h4 := abs_sub_le p (ell a + ell b) (x80.rq (ell a + ell b))
    have h5 : |ell a + ell b| ≤ |x80.rq (ell a + ell b)| + |x80.rq (ell a + ell b) - (ell a + ell b)| := by
      have := abs_sub (x80.rq (ell a + ell b)) (x80.rq (ell a + ell b) - (ell a + ell b))
      rwa [sub_sub_cancel] at this
    rw [abs_sub_comm (ell a + ell b)] at h4
    have h6 := abs_nonneg (x80.rq (ell a + ell b))
    norm_num at hp h3 ⊢
    linarith
  · obtain ⟨u, eu, nu⟩ := rq_next s hl
    refine ⟨u, v, ho.trans eu, ev, near_small hw nu cv ?_⟩
    have := abs_nonneg (ell a + ell b)
    norm_num at hp ⊢
    linarith

/-- The same for a reference that is a rounded number. -/
theorem rounded_sum_near {L : Libm} (hA : L.Accurate) {w : W} {s : Bool} {a b : T w} {o : C (T w)} {l : Fl}
    (hl : l.Is (w.lF.rq (ell a + ell b))) (ho : o = fromSAndL w s l) {m : ℚ} (pm : 0 < m)
    (m1 : (2 : ℚ) ^ (-600 : ℤ) ≤ m) (m2 : m ≤ (2 : ℚ) ^ (600 : ℤ))
    (hv : |Real.log m - ((ell a + ell b : ℚ) : ℝ) * Real.log (sqe x80)| ≤ (8.02 / 2 ^ 64 : ℚ)) {raw : Fl}
    (hr : raw.Is (x80.rq (sg s * m))) : Near L o raw := by
  have qabs : |sg s * m| = m := by rw [sg_abs, abs_of_pos pm]
  have qge : (2 : ℝ) ^ (-1000 : ℤ) ≤ |((sg s * m : ℚ) : ℝ)| := by
    have h2 : (2 : ℚ) ^ (-1000 : ℤ) ≤ (2 : ℚ) ^ (-600 : ℤ) := zpow_le_zpow_right₀ (by norm_num) (by norm_num)
    have := (Rat.cast_le (K := ℝ)).mpr (h2.trans m1)
    rwa [Rat.cast_zpow, Rat.cast_ofNat, ← qabs, Rat.cast_abs] at this
  obtain ⟨-, x2⟩ := x80_small (q := sg s * m) (by rw [qabs]; exact m2)
  obtain ⟨r1, r2, r3⟩ := rq_log qge
  rw [Fmt.rq_cast] at r1 r2 r3
  refine sum_near hA hl ho hr r1 x2 ?_ ?_
  · have h : decide (x80.rq (sg s * m) < 0) = decide (sg s * m < 0) := by
      rw [decide_eq_decide, r2, Rat.cast_lt_zero]
    rw [h, dec_sg pm]
  · rw [← Rat.cast_abs (sg s * m), qabs] at r3
    have h2 := abs_sub_le (Real.log |((x80.rq (sg s * m) : ℚ) : ℝ)|) (Real.log m)
      (((ell a + ell b : ℚ) : ℝ) * Real.log (sqe x80))
    have h3 : (1.0001 / 2 ^ 64 : ℚ) + (8.02 / 2 ^ 64 : ℚ) ≤ ((9.0201 / 2 ^ 64 : ℚ)) := by norm_num
    have h3' := (Rat.cast_le (K := ℝ)).mpr h3
    rw [Rat.cast_add] at h3'
    linarith

theorem arg_ne {s : Bool} {v : ℚ} (h : 0 < v) : sg s * v ≠ 0 := mul_ne_zero (by cases s <;> simp [sg]) h.ne'

theorem two_lams {x y : ℝ} (hx : |x| ≤ ((4.01 / 2 ^ 64 : ℚ) : ℝ)) (hy : |y| ≤ ((4.01 / 2 ^ 64 : ℚ) : ℝ)) :
    |x + y| ≤ ((8.02 / 2 ^ 64 : ℚ) : ℝ) := by
  have h3 : (4.01 / 2 ^ 64 : ℚ) + (4.01 / 2 ^ 64 : ℚ) ≤ ((8.02 / 2 ^ 64 : ℚ)) := by norm_num
  have h3' := (Rat.cast_le (K := ℝ)).mpr h3
  rw [Rat.cast_add] at h3'
  have := abs_add_le x y
  linarith

/-- C90. The product and the reference, converted, differ by at most one unit, for all widths. -/
theorem multiplication_near {L : Libm} (hL : L.Powers) (hA : L.Accurate) (w : W) (a b : T w) {x y : Fl}
    (hx : toExt L .log w a = .ok x) (hy : toExt L .log w b = .ok y) :
    Near L (multiplication w a b) (multiplicationReference x y) := by
  rcases takum_cases b with rfl | rfl | rb
  · rw [toExt_zero hL] at hy
    obtain rfl := Except.ok.inj hy
    by_cases na : a = nar w.n
    · subst na
      rw [toExt_nar hL] at hx
      obtain rfl := Except.ok.inj hx
      refine near_equal (nar w.n) ?_ (fromExt_nonfinite _ _ _ rfl)
      rw [multiplication_comm', multiplication_nar]
    · refine near_equal 0#w.n (multiplication_zero na) ?_
      rcases takum_cases a with rfl | h | ra
      · rw [toExt_zero hL] at hx
        obtain rfl := Except.ok.inj hx
        exact from_is_zero L w (mul_is_zero (Fl.Is.mk false 0) (Fl.Is.mk false 0) (mul_zero _))
      · exact absurd h na
      · obtain ⟨f, v, e, i, -⟩ := arg_log hL hA ra
        rw [e] at hx
        obtain rfl := Except.ok.inj hx
        exact from_is_zero L w (mul_is_zero i (Fl.Is.mk false 0) (mul_zero _))
  · rw [toExt_nar hL] at hy
    obtain rfl := Except.ok.inj hy
    exact near_equal (nar w.n) (multiplication_nar w a) (fromExt_nonfinite _ _ _ (mul_fin.2 _))
  rcases takum_cases a with rfl | rfl | ra
  · rw [toExt_zero hL] at hx
    obtain rfl := Except.ok.inj hx
    refine near_equal 0#w.n (by rw [multiplication_comm']; exact multiplication_zero rb.2) ?_
    obtain ⟨f, v, e, i, -⟩ := arg_log hL hA rb
    rw [e] at hy
    obtain rfl := Except.ok.inj hy
    exact from_is_zero L w (mul_is_zero (Fl.Is.mk false 0) i (zero_mul _))
  · rw [toExt_nar hL] at hx
    obtain rfl := Except.ok.inj hx
    exact near_equal (nar w.n) (by rw [multiplication_comm']; exact multiplication_nar w b)
      (fromExt_nonfinite _ _ _ (mul_fin.1 _))
  obtain ⟨f, v, e, i, -, pv, hv, v1, v2⟩ := arg_log hL hA ra
  obtain ⟨g, u, e', i', -, pu, hu, u1, u2⟩ := arg_log hL hA rb
  rw [e] at hx; rw [e'] at hy
  obtain rfl := Except.ok.inj hx; obtain rfl := Except.ok.inj hy
  obtain ⟨l, hl, el⟩ := multiplication_regular ra rb
  have es : sg (a.msb ^^ b.msb) * (v * u) = sg a.msb * v * (sg b.msb * u) := by rw [sg_xor]; ring
  have m1 : (2 : ℚ) ^ (-600 : ℤ) ≤ v * u := by
    rw [show (-600 : ℤ) = -300 + -300 by norm_num, zpow_add₀ (by norm_num)]
    gcongr
  have m2 : v * u ≤ (2 : ℚ) ^ (600 : ℤ) := by
    rw [show (600 : ℤ) = 300 + 300 by norm_num, zpow_add₀ (by norm_num)]
    gcongr
  refine rounded_sum_near hA hl el (mul_pos pv pu) m1 m2 ?_ ?_
  · rw [Rat.cast_mul, Real.log_mul (by exact_mod_cast pv.ne') (by exact_mod_cast pu.ne')]
    refine le_trans (le_of_eq ?_) (two_lams hv hu)
    rw [Rat.cast_add]; exact congrArg abs (by ring)
  · rw [es]
    refine i.mul i' (x80_small ?_).1
    rw [← es, sg_abs, abs_of_pos (mul_pos pv pu)]; exact m2

/-- C90. The same for the quotient. -/
theorem division_near {L : Libm} (hL : L.Powers) (hA : L.Accurate) (w : W) (a b : T w) {x y : Fl}
    (hx : toExt L .log w a = .ok x) (hy : toExt L .log w b = .ok y) :
    Near L (division w a b) (divisionReference x y) := by
  obtain ⟨d1, d2, d3, d4, -⟩ := division_special w a
  rcases takum_cases b with rfl | rfl | rb
  · rw [toExt_zero hL] at hy
    obtain rfl := Except.ok.inj hy
    exact near_equal (nar w.n) d1 (fromExt_nonfinite _ _ _ (div_fin.2.2 _ _))
  · rw [toExt_nar hL] at hy
    obtain rfl := Except.ok.inj hy
    exact near_equal (nar w.n) d2 (fromExt_nonfinite _ _ _ (div_fin.2.1 _))
  obtain ⟨g, u, e', i', -, pu, hu, u1, u2⟩ := arg_log hL hA rb
  rw [e'] at hy
  obtain rfl := Except.ok.inj hy
  have nu := arg_ne (s := b.msb) pu
  rcases takum_cases a with rfl | rfl | ra
  · rw [toExt_zero hL] at hx
    obtain rfl := Except.ok.inj hx
    refine near_equal 0#w.n ((division_special w b).2.2.2.1 rb) (from_is_zero L w ?_)
    have e : x80.rq (0 / (sg b.msb * u)) = 0 := by rw [zero_div]; exact x80.rq_of_rep (Fmt.Rep.zero _)
    have := (Fl.Is.zero false).div i' nu (F := x80) (by rw [e]; decide +kernel)
    rwa [e] at this
  · rw [toExt_nar hL] at hx
    obtain rfl := Except.ok.inj hx
    exact near_equal (nar w.n) (division_special w b).2.2.1 (fromExt_nonfinite _ _ _ (div_fin.1 _))
  obtain ⟨f, v, e, i, -, pv, hv, v1, v2⟩ := arg_log hL hA ra
  rw [e] at hx
  obtain rfl := Except.ok.inj hx
  obtain ⟨i1, -, i3, i4⟩ := inversion_facts rb
  obtain ⟨l, hl, el⟩ := multiplication_regular ra i3
  rw [i1, ← division_eq] at el
  have es : sg (a.msb ^^ b.msb) * (v / u) = sg a.msb * v / (sg b.msb * u) := by
    rw [sg_xor]; cases a.msb <;> cases b.msb <;> simp [sg, neg_div, div_neg]
  have p300 : (0 : ℚ) < 2 ^ (300 : ℤ) := by positivity
  have m300 : (2 : ℚ) ^ (-300 : ℤ) * 2 ^ (300 : ℤ) = 1 := by rw [← zpow_add₀ (by norm_num)]; norm_num
  have m1 : (2 : ℚ) ^ (-600 : ℤ) ≤ v / u := by
    rw [le_div_iff₀ pu]
    calc (2 : ℚ) ^ (-600 : ℤ) * u ≤ (2 : ℚ) ^ (-600 : ℤ) * 2 ^ (300 : ℤ) := by gcongr
      _ = (2 : ℚ) ^ (-300 : ℤ) := by rw [← zpow_add₀ (by norm_num)]; norm_num
      _ ≤ v := v1
  have m2 : v / u ≤ (2 : ℚ) ^ (600 : ℤ) := by
    rw [div_le_iff₀ pu]
    calc v ≤ (2 : ℚ) ^ (300 : ℤ) := v2
      _ = (2 : ℚ) ^ (600 : ℤ) * 2 ^ (-300 : ℤ) := by rw [← zpow_add₀ (by norm_num)]; norm_num
      _ ≤ (2 : ℚ) ^ (600 : ℤ) * u := by gcongr
  refine rounded_sum_near hA hl el (div_pos pv pu) m1 m2 ?_ ?_
  · rw [Rat.cast_div, Real.log_div (by exact_mod_cast pv.ne') (by exact_mod_cast pu.ne')]
    refine le_trans (le_of_eq ?_) (two_lams hv (by rw [← abs_neg] at hu; exact hu))
    rw [i4, Rat.cast_add, Rat.cast_neg]; exact congrArg abs (by ring)
  · rw [es]
    refine i.div i' nu (x80_small ?_).1
    rw [← es, sg_abs, abs_of_pos (div_pos pv pu)]; exact m2

/-! ### Inversion and square root -/

/-- A case is passed if the results differ by at most one unit and, for 64 bits, the expected one is
regular and not the largest takum unless they are equal. -/
theorem passed_unary {E : Env} {ref : Fl → Fl} {f : Kind → (w : W) → T w → C (T w)} {k : Kind} {w : W}
    {t u v : T w} {a : Fl} (hfl : E.flags k w t.toInt 0 = (false, false)) (ha : toExt E.L k w t = .ok a)
    (hf : f k w t = .ok u) (hr : fromExt E.L k w (ref a) = .ok v) (hn : |u.toInt - v.toInt| ≤ 1)
    (hv : v ≠ nar w.n) (h64 : w = .w64 → v.toInt = 2 ^ 63 - 1 → u = v) : PassedUnary E ref f k w t := by
  refine ⟨_, ⟨a, ha, rfl⟩, u, v.toInt, hf, ?_, ?_, hn⟩
  · rw [hfl]; exact .regular _ _ _ (.inl rfl) hr
  · rintro rfl
    refine ⟨fun h => h.2 (by rw [h64 rfl h.1]), fun h => hv (BitVec.eq_of_toInt_eq (h.1.trans ?_))⟩
    decide

/-- C90. Every case of the test of the inversion of logarithmic takums is passed. -/
theorem log_inversion_case {E : Env} (hE : Clear E) (hL : E.L.Powers) (hA : E.L.Accurate) (w : W) (t : T w) :
    PassedUnary E inversionReference (fun k w => match k with
      | .log => inversionC w
      | .lin => linInversion w) .log w t := by
  rcases takum_cases t with rfl | rfl | rt
  · refine unary_exact (hE _ _ _ _) (toExt_zero hL .log w) (u := nar w.n) ?_ (fromExt_nonfinite _ _ _ rfl)
    show inversionC w _ = _
    rw [inversionC_eq, inversion_zero]
  · refine unary_exact (hE _ _ _ _) (toExt_nar hL .log w) (u := nar w.n) ?_ (fromExt_nonfinite _ _ _ rfl)
    show inversionC w _ = _
    rw [inversionC_eq, inversion_nar]
  obtain ⟨f, v, e, i, -, pv, hv, v1, v2⟩ := arg_log hL hA rt
  obtain ⟨i1, -, i3, i4⟩ := inversion_facts rt
  have ne := arg_ne (s := t.msb) pv
  have es : (1 : ℚ) / (sg t.msb * v) = sg t.msb * (1 / v) := by
    cases t.msb <;> simp [sg, inv_neg]
  have pm : 0 < 1 / v := by positivity
  have qabs : |1 / (sg t.msb * v)| = 1 / v := by rw [es, sg_abs, abs_of_pos pm]
  have h1 : (2 : ℚ) ^ (300 : ℤ) = 1 / 2 ^ (-300 : ℤ) := by rw [zpow_neg, one_div, inv_inv]
  have h2 : (2 : ℚ) ^ (-300 : ℤ) = 1 / 2 ^ (300 : ℤ) := by rw [zpow_neg, one_div]
  have m2 : 1 / v ≤ (2 : ℚ) ^ (300 : ℤ) := by
    rw [h1]; exact one_div_le_one_div_of_le (by positivity) v1
  have m1 : (2 : ℚ) ^ (-300 : ℤ) ≤ 1 / v := by
    rw [h2]; exact one_div_le_one_div_of_le pv v2
  have qge : (2 : ℝ) ^ (-1000 : ℤ) ≤ |((1 / (sg t.msb * v) : ℚ) : ℝ)| := by
    have h2 : (2 : ℚ) ^ (-1000 : ℤ) ≤ (2 : ℚ) ^ (-300 : ℤ) := zpow_le_zpow_right₀ (by norm_num) (by norm_num)
    have := (Rat.cast_le (K := ℝ)).mpr (h2.trans m1)
    rwa [Rat.cast_zpow, Rat.cast_ofNat, ← qabs, Rat.cast_abs] at this
  obtain ⟨x1, x2⟩ := x80_small (q := 1 / (sg t.msb * v)) (by
    rw [qabs]; exact m2.trans (zpow_le_zpow_right₀ (by norm_num) (by norm_num)))
  obtain ⟨r1, r2, r3⟩ := rq_log qge
  rw [Fmt.rq_cast] at r1 r2 r3
  have hr := (Fl.Is.num (one_ne_zero (α := ℚ))).div i ne x1
  have hlog : |Real.log |((x80.rq (1 / (sg t.msb * v)) : ℚ) : ℝ)| - ((-ell t : ℚ) : ℝ) * Real.log (sqe x80)| ≤
      (5.0101 / 2 ^ 64 : ℚ) := by
    rw [← Rat.cast_abs (1 / (sg t.msb * v)), qabs, Rat.cast_div, Rat.cast_one, Real.log_div one_ne_zero (by exact_mod_cast pv.ne'),
      Real.log_one, zero_sub] at r3
    have h2 := abs_sub_le (Real.log |((x80.rq (1 / (sg t.msb * v)) : ℚ) : ℝ)|) (-Real.log v)
      (((-ell t : ℚ) : ℝ) * Real.log (sqe x80))
    have h4 : |-Real.log v - ((-ell t : ℚ) : ℝ) * Real.log (sqe x80)| = |Real.log v - (ell t : ℝ) * Real.log (sqe x80)| := by
      rw [← abs_neg, Rat.cast_neg]; exact congrArg abs (by ring)
    have h3 : (1.0001 / 2 ^ 64 : ℚ) + (4.01 / 2 ^ 64 : ℚ) ≤ ((5.0101 / 2 ^ 64 : ℚ)) := by norm_num
    have h3' := (Rat.cast_le (K := ℝ)).mpr h3
    rw [Rat.cast_add] at h3'
    rw [h4] at h2
    linarith
  have hb := abs_ell_lt t
  have hs : decide (x80.rq (1 / (sg t.msb * v)) < 0) = t.msb := by
    have h : decide (x80.rq (1 / (sg t.msb * v)) < 0) = decide (sg t.msb * (1 / v) < 0) := by
      rw [decide_eq_decide, r2, Rat.cast_lt_zero, es]
    rw [h, dec_sg pm]
  obtain ⟨p, z, ez, cz, hp⟩ := ref_conv hA w hr r1 x2 hlog (by rw [abs_neg]; linarith) (by norm_num)
  rw [hs, ← i1] at cz
  rw [← i4] at hp
  have hb' := abs_ell_lt (inversion w t)
  generalize hu : inversion w t = u at *
  obtain ⟨u', eu', nu, au⟩ := enc_next (w := w) u.msb (Fl.Is.mk false (ell u)) (lF_rep_encF (ell_in w u).1)
  rw [enc_of_ell i3 (Fl.Is.mk false (ell u))] at eu'
  obtain rfl := Except.ok.inj eu'
  have hn : |u.toInt - z.toInt| ≤ 1 := by
    have h0 := abs_nonneg (ell u)
    by_cases hw : w = .w64
    · subst hw
      refine near_big nu au cz ?_
      norm_num at hp ⊢
      linarith
    · refine near_small hw nu cz ?_
      norm_num at hp ⊢
      linarith
  refine passed_unary (hE _ _ _ _) e (u := u) ?_ ez hn cz.next.reg.2 ?_
  · show inversionC w t = _
    rw [inversionC_eq, hu]
  · rintro rfl hm
    refine top_exact i3 rfl cz ?_ hm
    have h0 := abs_nonneg (ell u)
    norm_num at hp ⊢
    linarith

/-- C90. Every case of the test of the square root of logarithmic takums is passed. -/
theorem log_squareRoot_case {E : Env} (hE : Clear E) (hL : E.L.Powers) (hA : E.L.Accurate) (w : W) (t : T w) :
    PassedUnary E squareRootReference (fun k w => match k with
      | .log => squareRoot w
      | .lin => linSquareRoot w) .log w t := by
  have h8 := w.n_pos
  rcases takum_cases t with rfl | rfl | rt
  · refine unary_exact (hE _ _ _ _) (toExt_zero hL .log w) (u := 0#w.n) ?_ (fromExt_zero _ _ _ _)
    exact (squareRoot_special w _).2.mpr rfl
  · refine unary_exact (hE _ _ _ _) (toExt_nar hL .log w) (u := nar w.n) ?_ (fromExt_nonfinite _ _ _ rfl)
    refine (squareRoot_special w _).1.mpr ?_
    rw [nar_toInt (by omega)]
    have : (0 : ℤ) < 2 ^ (w.n - 1) := by positivity
    omega
  obtain ⟨f, v, e, i, iv, pv, hv, v1, v2⟩ := arg_log hL hA rt
  have hf := i.eq_num (arg_ne (s := t.msb) pv)
  cases hm : t.msb
  · rw [hm] at hf
    simp only [sg, Bool.false_eq_true, if_false, one_mul] at hf
    obtain ⟨l, hl, el⟩ := squareRoot_regular rt hm
    have rv : (0 : ℝ) < v := by exact_mod_cast pv
    have sp : 0 < Real.sqrt v := Real.sqrt_pos.mpr rv
    have b1 : (2 : ℝ) ^ (-150 : ℤ) ≤ Real.sqrt v := by
      apply Real.le_sqrt_of_sq_le
      have h : ((2 : ℚ) ^ (-150 : ℤ)) ^ 2 ≤ v := le_trans (by decide +kernel) v1
      have := (Rat.cast_le (K := ℝ)).mpr h
      rwa [Rat.cast_pow, Rat.cast_zpow, Rat.cast_ofNat] at this
    have b2 : Real.sqrt v ≤ (2 : ℝ) ^ (150 : ℤ) := by
      rw [Real.sqrt_le_left (by positivity)]
      have h : v ≤ ((2 : ℚ) ^ (150 : ℤ)) ^ 2 := le_trans v2 (by decide +kernel)
      have := (Rat.cast_le (K := ℝ)).mpr h
      rwa [Rat.cast_pow, Rat.cast_zpow, Rat.cast_ofNat] at this
    obtain ⟨r1, r2, r3⟩ := rq_log (x := Real.sqrt v) (by
      rw [abs_of_pos sp]; exact le_trans (zpow_le_zpow_right₀ (by norm_num) (by norm_num)) b1)
    have pr : 0 < x80.rq (Real.sqrt v) := lt_of_le_of_ne (not_lt.mp (by rw [r2]; exact not_lt.mpr sp.le)) (Ne.symm r1)
    have ix : x80.In (x80.rq (Real.sqrt v)) := by
      refine ⟨x80.rq_real_rep (by decide) _, ?_⟩
      rw [abs_of_pos pr]
      refine lt_of_le_of_lt (Fmt.rq_real_le x80 (by decide) (b := (2 : ℚ) ^ (150 : ℤ)) (Fmt.Rep.zpow (by decide) (by decide)) ?_) ?_
      · rw [Rat.cast_zpow, Rat.cast_ofNat]; exact b2
      · exact zpow_lt_zpow_right₀ (by norm_num) (by decide)
    have hr : (squareRootReference f).Is (x80.rq (Real.sqrt v)) := by
      rw [hf]
      unfold squareRootReference Fl.sqrt
      simp only [not_lt.mpr pv.le, if_false]
      rw [x80.sqrtQ_eq pv]; exact Fl.Is.num r1
    have hlog : |Real.log |((x80.rq (Real.sqrt v) : ℚ) : ℝ)| - ((ell t / 2 : ℚ) : ℝ) * Real.log (sqe x80)| ≤
        (3.0061 / 2 ^ 64 : ℚ) := by
      rw [abs_of_pos sp, Real.log_sqrt rv.le] at r3
      have h2 := abs_sub_le (Real.log |((x80.rq (Real.sqrt v) : ℚ) : ℝ)|) (Real.log v / 2)
        (((ell t / 2 : ℚ) : ℝ) * Real.log (sqe x80))
      have h4 : |Real.log v / 2 - ((ell t / 2 : ℚ) : ℝ) * Real.log (sqe x80)| = |Real.log v - (ell t : ℝ) * Real.log (sqe x80)| / 2 := by
        rw [← abs_two, ← abs_div, abs_two, Rat.cast_div, Rat.cast_ofNat]; exact congrArg abs (by ring)
      have h3 : (1.0001 / 2 ^ 64 : ℚ) + (4.01 / 2 ^ 64 : ℚ) / 2 ≤ ((3.0061 / 2 ^ 64 : ℚ)) := by norm_num
      have h3' := (Rat.cast_le (K := ℝ)).mpr h3
      rw [Rat.cast_add, Rat.cast_div _ 2, Rat.cast_ofNat] at h3'
      rw [h4] at h2
      linarith
    have hb := abs_ell_lt t
    have hq : |ell t / 2| ≤ 128 := by rw [abs_div, abs_two]; linarith
    obtain ⟨p, z, ez, cz, hp⟩ := ref_conv hA w hr r1 ix hlog (by linarith) (by norm_num)
    have hs : decide (x80.rq (Real.sqrt v) < 0) = false := by simpa using pr.le
    rw [hs] at cz
    obtain ⟨u, eu, nu, au⟩ := enc_next (w := w) false hl (lF_rep_encF (ell_half_rep t))
    have h0 := abs_nonneg (ell t / 2)
    have hn : |u.toInt - z.toInt| ≤ 1 := by
      by_cases hw : w = .w64
      · subst hw
        refine near_big nu au cz ?_
        norm_num at hp ⊢
        linarith
      · refine near_small hw nu cz ?_
        norm_num at hp ⊢
        linarith
    refine passed_unary (hE _ _ _ _) e (u := u) (el.trans eu) ez hn cz.next.reg.2 ?_
    rintro rfl h'
    refine absurd h' (not_top cz.next ?_)
    have h1 := le_abs_self (p - ell t / 2)
    have h2 := le_abs_self (ell t / 2)
    norm_num at hp
    linarith
  · refine unary_exact (hE _ _ _ _) e (u := nar w.n) ?_ (fromExt_nonfinite _ _ _ ?_)
    · exact (squareRoot_special w t).1.mpr ((isNeg_iff t).mpr hm)
    · rw [hf, hm]
      unfold squareRootReference Fl.sqrt
      have : sg true * v < 0 := by simp [sg]; exact pv
      simp only [this, if_true]; rfl

/-! ### The test programs -/

theorem block_types {E : Env} {blk : Block} (h : ∀ k w, ∃ p t, runType E blk k w (2 ^ 22) = .ok ⟨0, p, t⟩) :
    runBlock E blk = .ok 0 := by
  unfold runBlock
  obtain ⟨_, _, e1⟩ := h .log .w8
  obtain ⟨_, _, e2⟩ := h .log .w16
  obtain ⟨_, _, e3⟩ := h .log .w32
  obtain ⟨_, _, e4⟩ := h .log .w64
  obtain ⟨_, _, e5⟩ := h .lin .w8
  obtain ⟨_, _, e6⟩ := h .lin .w16
  obtain ⟨_, _, e7⟩ := h .lin .w32
  obtain ⟨_, _, e8⟩ := h .lin .w64
  simp only [e1, e2, e3, e4, e5, e6, e7, e8, R_ok_bind]
  rfl

theorem block_types_or {E : Env} {blk : Block}
    (h : ∀ k w, (∃ p t, runType E blk k w (2 ^ 22) = .ok ⟨0, p, t⟩) ∨
      k = .log ∧ w = .w64 ∧ ∃ u, runType E blk k w (2 ^ 22) = .error (.ub u)) :
    runBlock E blk = .ok 0 ∨ ∃ u, runBlock E blk = .error (.ub u) := by
  by_cases g : ∀ k w, ∃ p t, runType E blk k w (2 ^ 22) = .ok ⟨0, p, t⟩
  · exact .inl (block_types g)
  · right
    have f : ∀ k w, ¬ (k = .log ∧ w = .w64) → ∃ p t, runType E blk k w (2 ^ 22) = .ok ⟨0, p, t⟩ := fun k w n =>
      (h k w).elim id fun h => absurd ⟨h.1, h.2.1⟩ n
    have : ∃ u, runType E blk .log .w64 (2 ^ 22) = .error (.ub u) := by
      by_contra c
      refine g fun k w => ?_
      rcases h k w with h | ⟨rfl, rfl, h⟩
      · exact h
      · exact absurd h c
    obtain ⟨u, e4⟩ := this
    obtain ⟨_, _, e1⟩ := f .log .w8 (by simp)
    obtain ⟨_, _, e2⟩ := f .log .w16 (by simp)
    obtain ⟨_, _, e3⟩ := f .log .w32 (by simp)
    refine ⟨u, ?_⟩
    unfold runBlock
    simp only [e1, e2, e3, e4, R_ok_bind]
    rfl

/-- C90. The test program of the inversion reports no failure. -/
theorem inversion_passes {E : Env} (hE : Clear E) (hL : E.L.Powers) (hA : E.L.Accurate) : inversionMain E = .ok 0 := by
  refine block_types (blk := inversionBlock) fun k w => ?_
  cases k
  · exact type_pass (blk := inversionBlock) trivial .log w fun t => (case_unary t _).2.mp (log_inversion_case hE hL hA w t)
  · exact lin_inversion_passes hE w

/-- C90. The test program of the square root reports no failure. -/
theorem squareRoot_passes {E : Env} (hE : Clear E) (hL : E.L.Powers) (hA : E.L.Accurate) : squareRootMain E = .ok 0 := by
  refine block_types (blk := squareRootBlock) fun k w => ?_
  cases k
  · exact type_pass (blk := squareRootBlock) trivial .log w fun t => (case_unary t _).2.mp (log_squareRoot_case hE hL hA w t)
  · exact lin_squareRoot_passes hE w

/-- The only way for a case with near results not to be passed: a 64-bit result below the largest takum,
which is the expected one, so that the comparison overflows. -/
theorem near_case {E : Env} (hE : Clear E) {ref : Fl → Fl → Fl} {f : Kind → (w : W) → T w → T w → C (T w)} {w : W}
    {a b : T w} {x y : Fl} (hx : toExt E.L .log w a = .ok x) (hy : toExt E.L .log w b = .ok y)
    (h : Near E.L (f .log w a b) (ref x y)) :
    PassedBinary E ref f .log w a b ∨
      w = .w64 ∧ ¬ DefinedBinary E ref f .log w a b := by
  obtain ⟨u, v, hu, hv, hn⟩ := h
  by_cases hc : Comparable w u.toInt v.toInt
  · left
    refine ⟨_, ⟨x, y, hx, hy, rfl⟩, u, v.toInt, hu, ?_, hc, hn⟩
    rw [hE]; exact .regular _ _ _ (.inl rfl) hv
  · right
    refine ⟨by by_contra h; exact hc fun e => absurd e h, ?_⟩
    rintro ⟨raw, ⟨x', y', hx', hy', rfl⟩, u', r, hu', he, hc'⟩
    rw [hx] at hx'; rw [hy] at hy'; rw [hu] at hu'
    obtain rfl := Except.ok.inj hx'
    obtain rfl := Except.ok.inj hy'
    obtain rfl := Except.ok.inj hu'
    rw [hE] at he
    generalize hf : (false, false) = fl at he
    cases he with
    | tiny _ o h h0 => cases hf; simp at h
    | huge => cases hf
    | negHuge => cases hf
    | regular _ t _ ht =>
      rw [hv] at ht
      obtain rfl := Except.ok.inj ht
      exact hc hc'

theorem type_pass_or {E : Env} {ref : Fl → Fl → Fl} {f : Kind → (w : W) → T w → T w → C (T w)} (k : Kind) (w : W)
    (h : ∀ t u : T w, PassedBinary E ref f k w t u ∨ w = .w64 ∧ ¬ DefinedBinary E ref f k w t u) :
    (∃ p t, runType E (.binary ref f) k w (2 ^ 22) = .ok ⟨0, p, t⟩) ∨
      w = .w64 ∧ ∃ u, runType E (.binary ref f) k w (2 ^ 22) = .error (.ub u) := by
  by_cases hw : w = .w64
  · subst hw
    obtain ⟨x, -, r1, r2⟩ := random_binary E ref f k (w := .w64) (M := 2 ^ 22) (by norm_num) (by norm_num) (by decide)
    by_cases hd : ∀ i, DefinedBinary E ref f k .w64 (x i).1 (x i).2
    · left
      obtain ⟨s, e, -, hs⟩ := r1 hd
      have : s = 0 := hs.mpr fun i => (h _ _).elim id fun n => absurd (hd i) n.2
      subst this
      exact ⟨_, _, e⟩
    · right
      exact ⟨rfl, r2 (by simpa using hd)⟩
  · exact .inl (type_pass2 k w fun t u => (case_binary t u).2.mp ((h t u).elim id fun n => absurd n.1 hw))

/-- C90. Every case of the test of the multiplication of logarithmic takums is passed or, for 64 bits,
not defined. -/
theorem log_multiplication_case {E : Env} (hE : Clear E) (hL : E.L.Powers) (hA : E.L.Accurate) (w : W) (a b : T w) :
    PassedBinary E multiplicationReference (fun k w => match k with
        | .log => multiplication w
        | .lin => linMultiplication w) .log w a b ∨
      w = .w64 ∧ ¬ DefinedBinary E multiplicationReference (fun k w => match k with
        | .log => multiplication w
        | .lin => linMultiplication w) .log w a b := by
  obtain ⟨x, hx⟩ := toExt_ok E.L .log w a
  obtain ⟨y, hy⟩ := toExt_ok E.L .log w b
  exact near_case hE hx hy (multiplication_near hL hA w a b hx hy)

/-- C90. The same for the division. -/
theorem log_division_case {E : Env} (hE : Clear E) (hL : E.L.Powers) (hA : E.L.Accurate) (w : W) (a b : T w) :
    PassedBinary E divisionReference (fun k w => match k with
        | .log => division w
        | .lin => linDivision w) .log w a b ∨
      w = .w64 ∧ ¬ DefinedBinary E divisionReference (fun k w => match k with
        | .log => division w
        | .lin => linDivision w) .log w a b := by
  obtain ⟨x, hx⟩ := toExt_ok E.L .log w a
  obtain ⟨y, hy⟩ := toExt_ok E.L .log w b
  exact near_case hE hx hy (division_near hL hA w a b hx hy)

/-- C90. The test of the multiplication of logarithmic takums of 8, 16 and 32 bits reports no failure. -/
theorem log_multiplication_passes {E : Env} (hE : Clear E) (hL : E.L.Powers) (hA : E.L.Accurate) {w : W} (hw : w ≠ .w64) :
    ∃ p t, runType E multiplicationBlock .log w (2 ^ 22) = .ok ⟨0, p, t⟩ :=
  (type_pass_or .log w (log_multiplication_case hE hL hA w)).elim id fun h => absurd h.1 hw

/-- C90. The same for the division. -/
theorem log_division_passes {E : Env} (hE : Clear E) (hL : E.L.Powers) (hA : E.L.Accurate) {w : W} (hw : w ≠ .w64) :
    ∃ p t, runType E divisionBlock .log w (2 ^ 22) = .ok ⟨0, p, t⟩ :=
  (type_pass_or .log w (log_division_case hE hL hA w)).elim id fun h => absurd h.1 hw

/-- C90. The test program of the multiplication reports no failure, unless a case is undefined. -/
theorem multiplication_passes {E : Env} (hE : Clear E) (hL : E.L.Powers) (hA : E.L.Accurate) :
    multiplicationMain E = .ok 0 ∨ ∃ u, multiplicationMain E = .error (.ub u) := by
  refine block_types_or (blk := multiplicationBlock) fun k w => ?_
  cases k
  · exact (type_pass_or .log w (log_multiplication_case hE hL hA w)).imp id fun h => ⟨rfl, h⟩
  · exact .inl (lin_multiplication_passes hE w)

/-- C90. The same for the division. -/
theorem division_passes {E : Env} (hE : Clear E) (hL : E.L.Powers) (hA : E.L.Accurate) :
    divisionMain E = .ok 0 ∨ ∃ u, divisionMain E = .error (.ub u) := by
  refine block_types_or (blk := divisionBlock) fun k w => ?_
  cases k
  · exact (type_pass_or .log w (log_division_case hE hL hA w)).imp id fun h => ⟨rfl, h⟩
  · exact .inl (lin_division_passes hE w)

end Takum.Test
