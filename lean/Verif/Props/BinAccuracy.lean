import Verif.Lemmas.BinAcc2
import Verif.Lemmas.IdealAcc
import Verif.Props.Accuracy
import Mathlib.Data.Real.Sign

/-!
# Accuracy of the functions of two arguments (C68)
-/

namespace Takum
open Spec

theorem argTol2_ge (k : Kind) {v x : ℝ} (h : |v - x| ≤ inTol k * |x|) : |v - x| ≤ argTol2 k * |x| := by
  refine h.trans (mul_le_mul_of_nonneg_right ?_ (abs_nonneg x))
  cases k <;> norm_num [inTol, argTol2]

theorem resTol2_ge (k : Kind) (w : W) : 8 / 2 ^ (kF k w).prec + 1.1 * outTol k ≤ resTol2 k w := by
  have p53 : b64.prec = 53 := rfl
  cases k
  · have e : (kF .log w).prec = 64 := rfl
    rw [e]; simp only [outTol, resTol2]; norm_num
  · cases w
    case w64 =>
      have e : (kF .lin .w64).prec = 64 := rfl
      rw [e]; simp only [outTol, resTol2]; norm_num
    all_goals
      first
        | (have e : (kF .lin .w8).prec = 53 := rfl; rw [e]; simp only [outTol, resTol2]; norm_num)
        | (have e : (kF .lin .w16).prec = 53 := rfl; rw [e]; simp only [outTol, resTol2]; norm_num)
        | (have e : (kF .lin .w32).prec = 53 := rfl; rw [e]; simp only [outTol, resTol2]; norm_num)

/-- C68: the result of `arctan2`, `arctan2_over_pi`, `hypotenuse` and `power` is one of the two takums enclosing
a number within a relative error of `resTol2` of the exact value of the function at points within relative
errors of `argTol2` of the arguments; it is NaR exactly if the function is not defined at these points. -/
theorem binary_accurate {L : Libm} (hL : L.Conforming) (hA : L.Approximates) (u : BFun) (k : Kind) (w : W) (s t : T w) (a b : ℝ)
    (ha : value k s = some a) (hb : value k t = some b) :
    ∃ (a' b' : ℝ) (v : T w), u.call L k w s t = .ok v ∧ |a' - a| ≤ argTol2 k * |a| ∧ |b' - b| ≤ argTol2 k * |b| ∧
      ((Undefined2 u a' b' ∧ v = nar w.n) ∨
       (¬Undefined2 u a' b' ∧ ∃ y : ℝ, |y - realFn2 u a' b'| ≤ resTol2 k w * |realFn2 u a' b'| ∧ Faithful k y v)) := by
  obtain ⟨r, p, e, hp⟩ := kTo_acc hL k w ha
  obtain ⟨r', q, e', hq⟩ := kTo_acc hL k w hb
  have h2 := good2_all hL hA u hp hq
  rw [bcall_eq e e']
  have t1 := argTol2_ge k hp.close
  have t2 := argTol2_ge k hq.close
  rcases h2 with ⟨h4, h5⟩ | ⟨h4, h5⟩
  · exact ⟨p, q, nar w.n, kFrom_bad h5, t1, t2, Or.inl ⟨h4, rfl⟩⟩
  · have hF := kF_std k w
    obtain ⟨v, y, h6, h7, h8⟩ := h5.out hL (by positivity)
      (by rcases hF with h | h <;> rw [h]
          · have : b64.prec = 53 := rfl
            rw [this]; norm_num
          · rw [prec80]; norm_num) le_rfl
    exact ⟨p, q, v, h6, t1, t2, Or.inr ⟨h4, y, h7.trans (mul_le_mul_of_nonneg_right (resTol2_ge k w) (abs_nonneg _)), h8⟩⟩

/-- For linear takums the arguments are exact. -/
theorem binary_accurate_lin {L : Libm} (hL : L.Conforming) (hA : L.Approximates) (u : BFun) (w : W) (s t : T w) (a b : ℝ)
    (ha : value .lin s = some a) (hb : value .lin t = some b) :
    ∃ v : T w, u.call L .lin w s t = .ok v ∧ (v = nar w.n ↔ Undefined2 u a b) ∧
      (¬Undefined2 u a b → ∃ y : ℝ, |y - realFn2 u a b| ≤ resTol2 .lin w * |realFn2 u a b| ∧ Faithful .lin y v) := by
  obtain ⟨a', b', v, h1, h2, h3, h4⟩ := binary_accurate hL hA u .lin w s t a b ha hb
  rw [argTol2, zero_mul] at h2 h3
  have : a' = a := by have := abs_nonpos_iff.mp h2; linarith
  subst this
  have : b' = b := by have := abs_nonpos_iff.mp h3; linarith
  subst this
  refine ⟨v, h1, ?_, ?_⟩
  · rcases h4 with h4 | ⟨h4, y, -, h5⟩
    · exact iff_of_true h4.2 h4.1
    · exact iff_of_false h5.1 h4
  · intro h
    rcases h4 with h4 | h4
    · exact absurd h4.1 h
    · exact h4.2

/-- One and a half to the one and a half, and minus one and a half to the one and a half. -/
example : (∃ v : T .w16, BFun.power.call ideal .lin .w16 (0x4400#16) (0x4400#16) = .ok v ∧
      ∃ y : ℝ, |y - (3 / 2 : ℝ) ^ (3 / 2 : ℝ)| ≤ 1 / 2 ^ 50 * |(3 / 2 : ℝ) ^ (3 / 2 : ℝ)| ∧ Faithful .lin y v) ∧
    BFun.power.call ideal .lin .w16 (-0x4400#16) (0x4400#16) = .ok (nar 16) := by
  constructor
  · obtain ⟨v, h1, -, h3⟩ := binary_accurate_lin ideal_conforming ideal_approximates .power .w16 _ _ _ _ value_three_halves16 value_three_halves16
    exact ⟨v, h1, h3 (by rintro (⟨h, -⟩ | ⟨h, -⟩) <;> norm_num at h)⟩
  · have hv : value .lin (-0x4400#16) = some (-3 / 2) := by
      have := value_lin (show linVal (-0x4400#16) = some (-3 / 2) by decide +kernel)
      rw [this]; norm_num
    obtain ⟨v, h1, h2, -⟩ := binary_accurate_lin ideal_conforming ideal_approximates .power .w16 _ _ _ _ hv value_three_halves16
    have : v = nar W.w16.n := h2.mpr (Or.inr ⟨by norm_num, by
      rintro ⟨k, hk⟩
      have h : (3 : ℝ) = 2 * k := by linarith
      have h' : (3 : ℤ) = 2 * k := by exact_mod_cast h
      omega⟩)
    rw [h1, this]

/-- C68: logarithmic addition and subtraction. -/
theorem log_addition_accurate {L : Libm} (hL : L.Conforming) (w : W) (s t : T w) (a b : ℝ)
    (ha : value .log s = some a) (hb : value .log t = some b) :
    (∃ (a' b' y : ℝ) (v : T w), addition L w s t = .ok v ∧ |a' - a| ≤ 1 / 2 ^ 56 * |a| ∧ |b' - b| ≤ 1 / 2 ^ 56 * |b| ∧
      |y - (a' + b')| ≤ 1 / 2 ^ 54 * |a' + b'| ∧ Faithful .log y v) ∧
    (∃ (a' b' y : ℝ) (v : T w), subtraction L w s t = .ok v ∧ |a' - a| ≤ 1 / 2 ^ 56 * |a| ∧ |b' - b| ≤ 1 / 2 ^ 56 * |b| ∧
      |y - (a' - b')| ≤ 1 / 2 ^ 54 * |a' - b'| ∧ Faithful .log y v) := by
  obtain ⟨r, p, e, hp⟩ := kTo_acc hL .log w ha
  obtain ⟨r', q, e', hq⟩ := kTo_acc hL .log w hb
  have t1 : |(p : ℝ) - a| ≤ 1 / 2 ^ 56 * |a| := argTol2_ge .log hp.close
  have t2 : |(q : ℝ) - b| ≤ 1 / 2 ^ 56 * |b| := argTol2_ge .log hq.close
  have fin : ∀ (f : Fl) (x : ℝ), Near x80 (1.25 / 2 ^ 64) x f → ∃ (y : ℝ) (v : T w), logFrom L .ext w f = .ok v ∧
      |y - x| ≤ 1 / 2 ^ 54 * |x| ∧ Faithful .log y v := by
    intro f x hn
    have hr : Res (kF .log w) (1.25 / 2 ^ 64 * |x|) x f := hn.res
    obtain ⟨v, y, h6, h7, h8⟩ := Res.out (k := .log) (w := w) (y := x) hL hr (by positivity) (by norm_num) le_rfl
    refine ⟨y, v, h6, h7.trans (mul_le_mul_of_nonneg_right ?_ (abs_nonneg _)), h8⟩
    simp only [outTol]; norm_num
  constructor
  · have n := sum_near hp.isIn hq.isIn hp.ge hq.ge hp.le hq.le (r.sgn && r'.sgn)
    rw [← Fl.add_eq hp.is hq.is, Rat.cast_add] at n
    obtain ⟨y, v, h1, h2, h3⟩ := fin _ _ n
    exact ⟨p, q, y, v, (binaryLog_eq e e').trans h1, t1, t2, h2, h3⟩
  · have n := sum_near hp.isIn (In_neg hq.isIn) hp.ge (by rw [abs_neg]; exact fun h => hq.ge (fun h' => h (by rw [h', neg_zero])))
      hp.le (by rw [abs_neg]; exact hq.le) (r.sgn && r'.neg.sgn)
    rw [← Fl.add_eq hp.is hq.is.neg, Rat.cast_add, Rat.cast_neg, ← sub_eq_add_neg] at n
    obtain ⟨y, v, h1, h2, h3⟩ := fin _ _ n
    exact ⟨p, q, y, v, (binaryLog_eq e e').trans h1, t1, t2, h2, h3⟩

/-- The value of the 64-bit logarithmic takum 0x4400000000000000. -/
theorem value_log64 : value .log (0x4400000000000000#64) = some (Real.sqrt (Real.exp 1) ^ (1 / 2 : ℝ)) := by
  show logVal _ = _
  unfold logVal
  rw [if_neg (by decide), if_neg (by decide), show ell (0x4400000000000000#64) = 1 / 2 by decide +kernel,
    show S (0x4400000000000000#64) = 0 by decide +kernel]
  norm_num

example : ∃ v : T .w64, addition ideal .w64 (0x4400000000000000#64) (0x4400000000000000#64) = .ok v := by
  obtain ⟨⟨-, -, -, v, h, -⟩, -⟩ := log_addition_accurate ideal_conforming .w64 _ _ _ _ value_log64 value_log64
  exact ⟨v, h⟩

/-- The `long double` that the integral powers which use the math library convert. -/
theorem integer_power_res {L : Libm} (hL : L.Conforming) (hA : L.Approximates) (k : Kind) (w : W) (hk : k = .lin ∨ w = .w64)
    (t : T w) (x : ℝ) (hx : value k t = some x) (n : BitVec 64) (hn : x ≠ 0 ∨ 0 < n.toInt) :
    ∃ (p : ℝ) (g : Fl), integerPowerOf L k w t n = eFrom L k w g ∧ |p - x| ≤ argTol2 k * |x| ∧ Res x80 (4 / 2 ^ 64 * |p ^ n.toInt|) (p ^ n.toInt) g := by
  have h8 := w.n_pos
  obtain ⟨f, p, e, i, ip, z, sg, lp, gp, hc, -⟩ := eTo_acc hL k w hx
  have ht : t ≠ nar w.n := by rw [Ne, ← value_none (k := k), hx]; simp
  have x0 : t = 0#w.n → x = 0 := by
    rintro rfl; rw [value_zero] at hx; exact (Option.some.inj hx).symm
  have hcond : ¬ (t = NAR w.n ∨ (t = 0#w.n ∧ n.toInt ≤ 0)) := by
    rw [NAR_eq (by omega)]
    rintro (h | h)
    · exact ht h
    · rcases hn with hn | hn
      · exact hn (x0 h.1)
      · omega
  have ecall : integerPowerOf L k w t n = eFrom L k w (intPowFix t n.toInt (L.pow x80 f (Fl.ofInt x80 n.toInt))) := by
    cases k
    · obtain rfl := hk.resolve_left (by simp)
      change logTo L .ext _ t = _ at e
      show integerPower64 L t n = _
      unfold integerPower64
      rw [if_neg hcond, show toExtended L .w64 t = .ok f from e]; rfl
    · change linTo .ext _ t = _ at e
      show linIntegerPower L w t n = _
      unfold linIntegerPower
      rw [if_neg hcond, show linToExtended w t = .ok f from e]; rfl
  have io := Fl.Is.ofInt_in (int64_in n)
  have t1 := argTol2_ge k hc
  by_cases p0 : p = 0
  · have t0 := z.mp p0
    have hpos : 0 < n.toInt := hn.resolve_left (fun h => h (x0 t0))
    have nq : (0 : ℚ) < ((n.toInt : ℤ) : ℚ) := by exact_mod_cast hpos
    subst p0
    rcases i.cases with ⟨h, _⟩ | ⟨_, s, rfl⟩
    · exact absurd rfl h
    obtain ⟨s', es⟩ := hL.powSigns.zero_pos x80 s _ nq
    have e0 : ((0 : ℚ) : ℝ) ^ n.toInt = 0 := by rw [Rat.cast_zero, zero_zpow _ hpos.ne']
    have eg : intPowFix t n.toInt (L.pow x80 (.zero s) (Fl.ofInt x80 n.toInt)) = .zero s' := by
      rw [io.eq_num nq.ne', es]; unfold intPowFix; simp [Fl.isinf, t0]
    rw [eg] at ecall
    exact ⟨_, _, ecall, t1, 0, Fl.Is.zero _, ⟨Fmt.Rep.zero _, by rw [abs_zero]; positivity⟩, Or.inl (by rw [e0]; simp)⟩
  · have pr : (p : ℝ) ≠ 0 := by exact_mod_cast p0
    have t0 : t ≠ 0#w.n := fun h => p0 (z.mpr h)
    have ap := hA.pow_int x80 (Or.inr rfl) f _ p n.toInt i ip p0 io (int64_in n)
    have hs : (isNeg t && odd n.toInt) = true ↔ (p : ℝ) ^ n.toInt < 0 := by
      rw [zpow_neg_iff_odd pr, Bool.and_eq_true, odd_iff, isNeg_eq, ← isNeg_iff, ← sg]
      exact and_congr_left' (by exact_mod_cast Iff.rfl)
    have hr := intPowFix_ext t0 ap.ext (by rw [prec80]; norm_num) (zpow_ne_zero _ pr) hs
    rw [prec80] at hr
    exact ⟨_, _, ecall, t1, hr⟩

/-- C68: the integral powers that use the math library (64-bit logarithmic takums and all linear takums; for
the other widths see C29). -/
theorem integer_power_accurate {L : Libm} (hL : L.Conforming) (hA : L.Approximates) (k : Kind) (w : W) (hk : k = .lin ∨ w = .w64)
    (t : T w) (x : ℝ) (hx : value k t = some x) (n : BitVec 64) (hn : x ≠ 0 ∨ 0 < n.toInt) :
    ∃ (x' y : ℝ) (v : T w), integerPowerOf L k w t n = .ok v ∧ |x' - x| ≤ argTol2 k * |x| ∧
      |y - x' ^ n.toInt| ≤ resTolE k * |x' ^ n.toInt| ∧ Faithful k y v := by
  obtain ⟨p, g, e, h1, hg⟩ := integer_power_res hL hA k w hk t x hx n hn
  have tol : 4 / 2 ^ 64 + 1.1 * outTol k ≤ resTolE k := by cases k <;> norm_num [outTol, resTolE]
  obtain ⟨v, y, h6, h7, h8⟩ := hg.conv (eFrom_faithful hL k) (by norm_num) (by norm_num) le_rfl
  exact ⟨p, y, v, e.trans h6, h1, h7.trans (mul_le_mul_of_nonneg_right tol (abs_nonneg _)), h8⟩

/-- The power -3 of one and a half. -/
example : ∃ (v : T .w16) (y : ℝ), integerPowerOf ideal .lin .w16 (0x4400#16) (-3#64) = .ok v ∧
    |y - 8 / 27| ≤ 1 / 2 ^ 60 * (8 / 27) ∧ Faithful .lin y v := by
  obtain ⟨x', y, v, h1, h2, h3, h4⟩ := integer_power_accurate ideal_conforming ideal_approximates .lin .w16 (Or.inl rfl) _ _ value_three_halves16 (-3#64) (by norm_num)
  rw [argTol2, zero_mul] at h2
  have : x' = 3 / 2 := by have := abs_nonpos_iff.mp h2; linarith
  subst this
  rw [show (-3#64 : BitVec 64).toInt = -3 by decide] at h3
  have e : ((3 / 2 : ℝ)) ^ (-3 : ℤ) = 8 / 27 := by norm_num
  rw [e, abs_of_pos (show (0 : ℝ) < 8 / 27 by norm_num), resTolE] at h3
  exact ⟨v, y, h1, h3, h4⟩

/-- The reciprocal of the index is rounded once. -/
theorem root_exponent_err {n : BitVec 64} (hn : n.toInt ≠ 0) {y : ℚ} (h : Fl.div x80 (.num 1) (Fl.ofInt x80 n.toInt) = .num y) :
    |(y : ℝ) - 1 / (n.toInt : ℝ)| ≤ 1 / 2 ^ 64 * |1 / (n.toInt : ℝ)| ∧ (|n.toInt| = 1 → y = n.toInt) := by
  have io := Fl.Is.ofInt_in (int64_in n)
  have nq : ((n.toInt : ℤ) : ℚ) ≠ 0 := by exact_mod_cast hn
  set N := n.toInt with hN
  have hb : |N| ≤ 2 ^ 63 := by
    have h1 := n.le_toInt
    have h2 := n.toInt_lt
    rw [abs_le]; constructor
    · simpa using h1
    · have : N < 2 ^ 63 := by simpa using h2
      omega
  have ha1 : 1 ≤ |N| := Int.one_le_abs hn
  have q1 : (1 : ℚ) ≤ |(N : ℚ)| := by exact_mod_cast ha1
  have q2 : |(N : ℝ)| ≤ 2 ^ 63 := by exact_mod_cast hb
  have e : |1 / (N : ℚ)| = 1 / |(N : ℚ)| := by rw [abs_div, abs_one]
  have hx : |1 / (N : ℚ)| ≤ 1 := by rw [e]; exact div_le_one_of_le₀ q1 (abs_nonneg _)
  have r1 : x80.Rep (1 : ℚ) := ⟨1, 0, by norm_num, by decide, by decide⟩
  have u1 := x80.abs_rq_le (by decide) r1 hx
  have hd := Fl.Is.div (F := x80) (Fl.Is.num one_ne_zero) io nq (lt_of_le_of_lt u1 (by decide +kernel))
  rw [h] at hd
  have hy : y = x80.rq (1 / (N : ℚ)) := by
    rcases hd.cases with ⟨_, h'⟩ | ⟨_, s, h'⟩
    · exact Fl.num.inj h'
    · cases h'
  constructor
  · have hge : (2 : ℝ) ^ (x80.emin + x80.prec) ≤ |(((1 / (N : ℚ) : ℚ)) : ℝ)| := by
      push_cast
      rw [abs_div, abs_one, le_div_iff₀ (by positivity)]
      calc (2 : ℝ) ^ (x80.emin + x80.prec) * |(N : ℝ)| ≤ (2 : ℝ) ^ (-63 : ℤ) * 2 ^ 63 :=
            mul_le_mul (z_le (by decide)) q2 (abs_nonneg _) (by positivity)
        _ = 1 := by norm_num
    have := rq_real_err hge
    rw [Fmt.rq_cast, ← hy, prec80] at this
    push_cast at this
    refine this.trans (le_of_eq ?_)
    ring
  · intro h1
    rw [hy]
    rcases (abs_eq (by norm_num : (0 : ℤ) ≤ 1)).mp h1 with h | h
    · rw [h]; norm_num; exact x80.rq_of_rep r1
    · rw [h]; norm_num; exact x80.rq_of_rep r1.neg

theorem rpow_perturb {x y z : ℝ} (hx : 0 < x) (hu : |Real.log x * (y - z)| ≤ 1) :
    |x ^ y - x ^ z| ≤ 2 * |Real.log x * (y - z)| * |x ^ z| := by
  have e : x ^ y = x ^ z * Real.exp (Real.log x * (y - z)) := by
    rw [← Real.rpow_def_of_pos hx, ← Real.rpow_add hx]; congr 1; ring
  rw [e, show x ^ z * Real.exp (Real.log x * (y - z)) - x ^ z = (Real.exp (Real.log x * (y - z)) - 1) * x ^ z by ring, abs_mul]
  exact mul_le_mul_of_nonneg_right (Real.abs_exp_sub_one_le hu) (abs_nonneg _)

/-- The `long double` that the linear root of a number other than 0 converts. -/
theorem lin_root_res {L : Libm} (hL : L.Conforming) (hA : L.Approximates) (w : W)
    (t : T w) (x : ℝ) (hx : value .lin t = some x) (n : BitVec 64) (n0 : n.toInt ≠ 0) (hd : 0 < x ∨ (x < 0 ∧ |n.toInt| = 1)) :
    ∃ (g : Fl) (G : ℝ), linRoot L w t n = eFrom L .lin w g ∧ Near x80 (4 / 2 ^ 64) G g ∧
      |G - Real.sign x * |x| ^ (1 / (n.toInt : ℝ))| ≤ 500 / 2 ^ 64 * |x| ^ (1 / (n.toInt : ℝ)) := by
  obtain ⟨f, p, e, i, ip, z, sg, lp, gp, -, hc⟩ := eTo_acc hL .lin w hx
  obtain rfl := hc rfl
  have ht : t ≠ nar w.n := by rw [Ne, ← value_none (k := .lin), hx]; simp
  have t0 : t ≠ 0#w.n := by
    intro h
    obtain rfl := z.mpr h
    rcases hd with h | h <;> simp at h
  have p0 : p ≠ 0 := fun h => t0 (z.mp h)
  have pr : (p : ℝ) ≠ 0 := by exact_mod_cast p0
  have gp := gp t0
  obtain ⟨y, ey, y0, y1, iy, -⟩ := root_exponent n0
  obtain ⟨err, one⟩ := root_exponent_err n0 ey
  have y1r : |(y : ℝ)| ≤ 1 := by exact_mod_cast y1
  have lpr : |(p : ℝ)| ≤ (2 : ℝ) ^ (300 : ℤ) := by
    have := (Rat.cast_le (K := ℝ)).mpr lp; rwa [Rat.cast_zpow, Rat.cast_abs, Rat.cast_ofNat] at this
  have gpr : (2 : ℝ) ^ (-300 : ℤ) ≤ |(p : ℝ)| := by
    have := (Rat.cast_le (K := ℝ)).mpr gp; rwa [Rat.cast_zpow, Rat.cast_abs, Rat.cast_ofNat] at this
  -- the computed power
  have key : ∃ G : ℝ, Near x80 (4 / 2 ^ 64) G (L.pow x80 f (.num y)) ∧ G ≠ 0 ∧
      |G - Real.sign p * |(p : ℝ)| ^ (1 / (n.toInt : ℝ))| ≤ 500 / 2 ^ 64 * |(p : ℝ)| ^ (1 / (n.toInt : ℝ)) := by
    rcases lt_or_gt_of_ne p0 with hneg | hpos
    · have hnr : (p : ℝ) < 0 := by exact_mod_cast hneg
      have h1 : |n.toInt| = 1 := by
        rcases hd with h | h
        · linarith
        · exact h.2
      have hy := one h1
      have ap := hA.pow_int x80 (Or.inr rfl) f (.num y) p n.toInt i ip p0 (by rw [← hy]; exact Fl.Is.num y0) (by rw [← hy]; exact iy)
      have eG : (p : ℝ) ^ n.toInt = Real.sign p * |(p : ℝ)| ^ (1 / (n.toInt : ℝ)) := by
        rw [Real.sign_of_neg hnr, abs_of_neg hnr]
        rcases (abs_eq (by norm_num : (0 : ℤ) ≤ 1)).mp h1 with h | h
        · rw [h]; simp
        · rw [h]; norm_num [Real.rpow_neg_one]
      refine ⟨(p : ℝ) ^ n.toInt, ?_, zpow_ne_zero _ pr, ?_⟩
      · have := ap.near (mod_of (fun _ => ?_) ?_)
        · rwa [prec80] at this
        · rcases (abs_eq (by norm_num : (0 : ℤ) ≤ 1)).mp h1 with h | h
          · rw [h, zpow_one]; exact (z_le (by norm_num)).trans gpr
          · rw [h, zpow_neg_one, abs_inv]
            calc (2 : ℝ) ^ (-900 : ℤ) ≤ ((2 : ℝ) ^ (300 : ℤ))⁻¹ := by rw [← zpow_neg]; exact z_le (by norm_num)
              _ ≤ |(p : ℝ)|⁻¹ := inv_anti₀ (abs_pos.mpr pr) lpr
        · rcases (abs_eq (by norm_num : (0 : ℤ) ≤ 1)).mp h1 with h | h
          · rw [h, zpow_one]; exact lpr.trans (z_le (by norm_num))
          · rw [h, zpow_neg_one, abs_inv]
            calc |(p : ℝ)|⁻¹ ≤ ((2 : ℝ) ^ (-300 : ℤ))⁻¹ := inv_anti₀ (by positivity) gpr
              _ ≤ _ := by rw [← zpow_neg]; exact z_le (by norm_num)
      · rw [eG, sub_self, abs_zero]; positivity
    · have hpr : (0 : ℝ) < p := by exact_mod_cast hpos
      have ap := hA.pow x80 (Or.inr rfl) f (.num y) p y i ip hpos (Fl.Is.num y0) iy
      rw [abs_of_pos hpr] at lpr gpr
      have hl : |Real.log p| ≤ 300 * Real.log 2 := by
        rw [abs_le]; constructor
        · have := Real.log_le_log (by positivity) gpr
          rw [Real.log_zpow] at this; push_cast at this; linarith
        · have := Real.log_le_log hpr lpr
          rw [Real.log_zpow] at this; push_cast at this; linarith
      have h2 := Real.log_two_lt_d9
      have hly : |Real.log p * y| ≤ 300 * Real.log 2 := by
        rw [abs_mul]
        calc |Real.log p| * |(y : ℝ)| ≤ |Real.log p| * 1 := mul_le_mul_of_nonneg_left y1r (abs_nonneg _)
          _ ≤ _ := by rw [mul_one]; exact hl
      have hG : (0 : ℝ) < (p : ℝ) ^ (y : ℝ) := Real.rpow_pos_of_pos hpr _
      have e2 : ∀ m : ℤ, Real.exp (m * Real.log 2) = (2 : ℝ) ^ m := by
        intro m
        rw [mul_comm, ← Real.rpow_def_of_pos (by norm_num), Real.rpow_intCast]
      refine ⟨(p : ℝ) ^ (y : ℝ), ?_, hG.ne', ?_⟩
      · have := ap.near (mod_of (fun _ => ?_) ?_)
        · rwa [prec80] at this
        · rw [abs_of_pos hG, Real.rpow_def_of_pos hpr]
          refine (z_le (by norm_num : (-900 : ℤ) ≤ -300)).trans ?_
          rw [← e2, Real.exp_le_exp]; push_cast; linarith [(abs_le.mp hly).1]
        · rw [abs_of_pos hG, Real.rpow_def_of_pos hpr]
          refine le_trans ?_ (z_le (by norm_num : (300 : ℤ) ≤ 900))
          rw [← e2, Real.exp_le_exp]; push_cast; linarith [(abs_le.mp hly).2]
      · rw [Real.sign_of_pos hpr, one_mul, abs_of_pos hpr]
        have hN1 : |1 / (n.toInt : ℝ)| ≤ 1 := by
          rw [abs_div, abs_one]
          have : (1 : ℝ) ≤ |(n.toInt : ℝ)| := by exact_mod_cast Int.one_le_abs n0
          exact div_le_one_of_le₀ this (abs_nonneg _)
        have hu : |Real.log p * ((y : ℝ) - 1 / (n.toInt : ℝ))| ≤ 250 / 2 ^ 64 := by
          rw [abs_mul]
          have : |(y : ℝ) - 1 / (n.toInt : ℝ)| ≤ 1 / 2 ^ 64 := err.trans (mul_le_of_le_one_right (by positivity) hN1)
          calc |Real.log p| * |(y : ℝ) - 1 / (n.toInt : ℝ)| ≤ 250 * (1 / 2 ^ 64) :=
                mul_le_mul (by linarith) this (abs_nonneg _) (by norm_num)
            _ = _ := by norm_num
        refine (rpow_perturb hpr (hu.trans (by norm_num))).trans ?_
        rw [abs_of_pos (Real.rpow_pos_of_pos hpr (1 / (n.toInt : ℝ)))]
        refine mul_le_mul_of_nonneg_right ?_ (Real.rpow_pos_of_pos hpr _).le
        linarith
  obtain ⟨G, hn, G0, hG⟩ := key
  obtain ⟨q, iq, -, hq⟩ := id hn
  have q0 : q ≠ 0 := by
    rintro rfl
    rw [Rat.cast_zero, zero_sub, abs_neg] at hq
    have : 0 < |G| := abs_pos.mpr G0
    linarith
  refine ⟨_, G, ?_, hn, hG⟩
  · change linTo .ext _ t = _ at e
    unfold linRoot
    rw [if_neg, show linToExtended w t = .ok f from e, ok_bind, ey]
    · have e3 := iq.eq_num q0
      rw [e3]
      have : Fl.eq (.num q) (.zero false) = false := by simp [Fl.eq, Fl.toQ, q0]
      dsimp only
      rw [this, Bool.false_and, if_neg (by decide)]
      rfl
    · rintro (h | ⟨h, h'⟩)
      · exact n0 (by rw [h]; rfl)
      · rw [isNeg_eq, ← isNeg_iff, ← sg] at h
        rw [odd_iff] at h'
        have hnr : (p : ℝ) < 0 := by exact_mod_cast h
        rcases hd with hd | hd
        · linarith
        · rcases (abs_eq (by norm_num : (0 : ℤ) ≤ 1)).mp hd.2 with g | g <;> rw [g] at h' <;> norm_num at h'

/-- C68: the linear root. -/
theorem lin_root_accurate {L : Libm} (hL : L.Conforming) (hA : L.Approximates) (w : W)
    (t : T w) (x : ℝ) (hx : value .lin t = some x) (n : BitVec 64) (n0 : n.toInt ≠ 0)
    (hd : 0 < x ∨ (x = 0 ∧ 0 < n.toInt) ∨ (x < 0 ∧ |n.toInt| = 1)) :
    ∃ (v : T w) (y : ℝ), linRoot L w t n = .ok v ∧
      |y - Real.sign x * |x| ^ (1 / (n.toInt : ℝ))| ≤ 1 / 2 ^ 55 * |x| ^ (1 / (n.toInt : ℝ)) ∧ Faithful .lin y v := by
  by_cases x0 : x = 0
  · subst x0
    have hpos : 0 < n.toInt := by
      rcases hd with h | h | h
      · simp at h
      · exact h.2
      · simp at h
    have t0 : t = 0#w.n := BitVec.eq_of_toInt_eq (le_antisymm ((value_order .lin hx (value_zero .lin)).mpr le_rfl) ((value_order .lin (value_zero .lin) hx).mpr le_rfl))
    obtain ⟨v, e1, -, e2, -⟩ := lin_root_sign L hL.nans hL.powers hL.specials hL.powSigns w t n
    refine ⟨v, 0, e1, ?_, ?_⟩
    · rw [Real.sign_zero, zero_mul, sub_zero, abs_zero]; positivity
    · rw [e2.mpr ⟨t0, hpos⟩]; exact Faithful.zero _
  obtain ⟨g, G, e, hn, hG⟩ := lin_root_res hL hA w t x hx n n0 (hd.imp_right (fun h => h.resolve_left (fun h => x0 h.1)))
  obtain ⟨v, y', h6, h7, h8⟩ := Res.conv (y := G) (eFrom_faithful hL .lin (w := w)) (hn.res : Res x80 (4 / 2 ^ 64 * |G|) G _) (by norm_num) (by norm_num) le_rfl
  refine ⟨v, y', e.trans h6, ?_, h8⟩
  set X := |x| ^ (1 / (n.toInt : ℝ)) with hX
  have X0 : 0 ≤ X := Real.rpow_nonneg (abs_nonneg _) _
  have sX : |Real.sign x * X| ≤ X := by
    rw [abs_mul, abs_of_nonneg X0]
    refine mul_le_of_le_one_left X0 ?_
    rcases Real.sign_apply_eq x with g | g | g <;> rw [g] <;> norm_num
  have hGX : |G| ≤ 2 * X := by
    have := abs_sub_abs_le_abs_sub G (Real.sign x * X)
    have h5 : 500 / 2 ^ 64 * X ≤ 1 * X := mul_le_mul_of_nonneg_right (by norm_num) X0
    linarith
  have hfin : |y' - Real.sign x * X| ≤ |y' - G| + |G - Real.sign x * X| := abs_sub_le _ _ _
  have h9 : (4 / 2 ^ 64 + 1.1 * outTol .lin) * |G| ≤ 1 / 2 ^ 62 * (2 * X) :=
    mul_le_mul (by norm_num [outTol]) hGX (abs_nonneg _) (by norm_num)
  have h10 : (1 / 2 ^ 62 * (2 * X) : ℝ) + 500 / 2 ^ 64 * X ≤ 1 / 2 ^ 55 * X := by
    have : (1 / 2 ^ 62 * (2 * X) : ℝ) + 500 / 2 ^ 64 * X = (2 / 2 ^ 62 + 500 / 2 ^ 64) * X := by ring
    rw [this]; exact mul_le_mul_of_nonneg_right (by norm_num) X0
  linarith

/-- The cube root of one and a half, and the first root of minus one and a half. -/
example : (∃ (v : T .w16) (y : ℝ), linRoot ideal .w16 (0x4400#16) 3#64 = .ok v ∧
      |y - (3 / 2 : ℝ) ^ (1 / 3 : ℝ)| ≤ 1 / 2 ^ 55 * (3 / 2 : ℝ) ^ (1 / 3 : ℝ) ∧ Faithful .lin y v) ∧
    (∃ v, linRoot ideal .w16 (-0x4400#16) 1#64 = .ok v) := by
  constructor
  · obtain ⟨v, y, h1, h2, h3⟩ := lin_root_accurate ideal_conforming ideal_approximates .w16 _ _ value_three_halves16 3#64 (by decide) (Or.inl (by norm_num))
    rw [show (3#64 : BitVec 64).toInt = 3 by decide, Real.sign_of_pos (by norm_num), one_mul, abs_of_pos (by norm_num : (0 : ℝ) < 3 / 2)] at h2
    rw [show ((3 : ℤ) : ℝ) = 3 by norm_num] at h2
    exact ⟨v, y, h1, h2, h3⟩
  · have hv : value .lin (-0x4400#16) = some (-3 / 2) := by
      have := value_lin (show linVal (-0x4400#16) = some (-3 / 2) by decide +kernel)
      rw [this]; norm_num
    obtain ⟨v, y, h1, -⟩ := lin_root_accurate ideal_conforming ideal_approximates .w16 _ _ hv 1#64 (by decide) (Or.inr (Or.inr ⟨by norm_num, by decide⟩))
    exact ⟨v, h1⟩

end Takum
