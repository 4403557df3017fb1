import Verif.Lemmas.Elem
import Verif.Lemmas.Ideal
import Verif.Props.BitOps
import Verif.Props.Widths
import Verif.Props.LogArith
import Verif.Props.LinArith
import Verif.Props.LinNearest

/-!
# NaR in, NaR out (C39, C40, C41)

`u.log L w` and `u.lin L w` are the logarithmic and linear versions of the elementary function `u`
with the math library `L`.  The hypotheses on the library are what C99 Annex F requires.
-/

namespace Takum
open Spec

/-- C39: all 48 elementary functions of one argument, all types. -/
theorem nar_unary (L : Libm) (hL : L.NaNs) (u : UFun) (w : W) :
    u.log L w (nar w.n) = .ok (nar w.n) ∧ u.lin L w (nar w.n) = .ok (nar w.n) := by
  constructor
  · unfold UFun.log
    rw [unaryLog_eq (logTo_nar hL.pow_right .ext w), evl_nan hL, fix_nan]
    exact logFrom_nonfinite L .ext w rfl
  · unfold UFun.lin
    rw [unaryLin_eq (linTo_src_nar w), ev_nan hL, fix_nan]
    exact linFrom_nan _ _

example : ideal.NaNs := ideal_nans

/-- C39: conversions between takums. -/
theorem nar_conversion (L : Libm) (hL : L.NaNs) (a b : W) :
    linFromLog L a b (nar a.n) = .ok (nar b.n) ∧ logFromLin L a b (nar a.n) = .ok (nar b.n) ∧
      (a.n < b.n → expand a b (nar a.n) = .ok (nar b.n)) ∧ (b.n < a.n → reduce a b (nar a.n) = .ok (nar b.n)) := by
  refine ⟨?_, ?_, fun h => ?_, fun h => ?_⟩
  · unfold linFromLog
    split_ifs
    · rw [show toExtended L a (nar a.n) = .ok .nan from logTo_nar hL.pow_right .ext a, ok_bind]; exact linFrom_nan .ext b
    · rw [show toFloat64 L a (nar a.n) = .ok .nan from logTo_nar hL.pow_right .f64 a, ok_bind]; exact linFrom_nan .f64 b
  · unfold logFromLin
    split_ifs
    · rw [linToExtended_nar, ok_bind]; exact logFrom_nonfinite L .ext b rfl
    · rw [linToFloat64_nar, ok_bind]; exact logFrom_nonfinite L .f64 b rfl
  · obtain ⟨v, e, -, -, h1, -⟩ := widen_exact h (nar a.n)
    rw [e, h1.mpr rfl]
  · obtain ⟨v, e, h1, -⟩ := narrow_special h (nar a.n)
    rw [e, h1.mpr rfl]

example : ideal.NaNs ∧ (W.w16).n < (W.w64).n := ⟨ideal_nans, by decide⟩

/-- C39: inversion, sign and square root.  For `absolute` see `absolute_nar` and
`absolute_nar_refuted`. -/
theorem nar_basic (w : W) :
    inversion w (nar w.n) = nar w.n ∧ linInversion w (nar w.n) = .ok (nar w.n) ∧ sign w (nar w.n) = nar w.n ∧
      squareRoot w (nar w.n) = .ok (nar w.n) ∧ linSquareRoot w (nar w.n) = .ok (nar w.n) := by
  have h8 := w.n_pos
  have hneg : (nar w.n).toInt < 0 := by rw [isNeg_iff]; exact nar_msb (by omega)
  refine ⟨(inversion_nar_iff w _).mpr (Or.inr rfl), ?_, ?_, ((squareRoot_special w _).1).mpr hneg, ?_⟩
  · obtain ⟨r, e, -, h, -⟩ := lin_inversion_special w (nar w.n)
    rw [e, h.mpr (Or.inr rfl)]
  · unfold sign; rw [NAR_eq (by omega), if_pos rfl]
  · obtain ⟨⟨r, e, h, -⟩, -⟩ := lin_squareRoot_special w (nar w.n)
    rw [e, h.mpr hneg]

/-- C40: the four operations. -/
theorem nar_arith (L : Libm) (hL : L.NaNs) (w : W) (t : T w) :
    (addition L w (nar w.n) t = .ok (nar w.n) ∧ addition L w t (nar w.n) = .ok (nar w.n)) ∧
    (subtraction L w (nar w.n) t = .ok (nar w.n) ∧ subtraction L w t (nar w.n) = .ok (nar w.n)) ∧
    (multiplication w (nar w.n) t = .ok (nar w.n) ∧ multiplication w t (nar w.n) = .ok (nar w.n)) ∧
    (division w (nar w.n) t = .ok (nar w.n) ∧ division w t (nar w.n) = .ok (nar w.n)) ∧
    (linAddition w (nar w.n) t = .ok (nar w.n) ∧ linAddition w t (nar w.n) = .ok (nar w.n)) ∧
    (linSubtraction w (nar w.n) t = .ok (nar w.n) ∧ linSubtraction w t (nar w.n) = .ok (nar w.n)) ∧
    (linMultiplication w (nar w.n) t = .ok (nar w.n) ∧ linMultiplication w t (nar w.n) = .ok (nar w.n)) ∧
    (linDivision w (nar w.n) t = .ok (nar w.n) ∧ linDivision w t (nar w.n) = .ok (nar w.n)) := by
  have hN := logTo_nar hL.pow_right .ext w
  obtain ⟨x, hx⟩ := logTo_ok L .ext w t
  have nl : ∀ {fn : Fl → Fl → Fl}, (∀ x, fn .nan x = .nan) → (∀ x, fn x .nan = .nan) →
      binaryLog L fn noFix2 w (nar w.n) t = .ok (nar w.n) ∧ binaryLog L fn noFix2 w t (nar w.n) = .ok (nar w.n) := by
    intro fn h1 h2
    rw [binaryLog_eq hN hx, binaryLog_eq hx hN]
    unfold noFix2
    rw [h1, h2]
    exact ⟨logFrom_nonfinite L .ext w rfl, logFrom_nonfinite L .ext w rfl⟩
  have dn : ∀ F x, Fl.div F .nan x = .nan := fun F x => by cases x <;> rfl
  have an : ∀ F x, Fl.add F .nan x = .nan := fun F x => by cases x <;> rfl
  have mn : ∀ F x, Fl.mul F .nan x = .nan := fun F x => by cases x <;> rfl
  exact ⟨nl (fun x => an _ x) (fun x => add_nan _ x), nl (fun x => an _ _) (fun x => add_nan _ x),
    ⟨by rw [(multiplication_comm w _ t)]; exact (multiplication_special w t).1, (multiplication_special w t).1⟩,
    ⟨(division_special w t).2.2.1, (division_special w t).2.1⟩,
    binaryLin_nar an add_nan t, binaryLin_nar (fn := Fl.sub) (fun F x => an F _) (fun F x => add_nan F x) t,
    binaryLin_nar mn mul_nan t, binaryLin_nar dn div_nan t⟩

example : ideal.NaNs := ideal_nans

theorem linTo_ok (w : W) (t : T w) : ∃ x, linTo w.src w t = .ok x := by
  by_cases h : t = nar w.n
  · exact ⟨_, h ▸ linTo_src_nar w⟩
  · obtain ⟨x, h1, -⟩ := linTo_src w h; exact ⟨x, h1⟩

/-- C40: `arctan2`, `arctan2_over_pi`, and `hypotenuse`; the latter, for logarithmic takums, with a
library whose powers do not overflow (`hypot(∞, NaN)` is `∞`). -/
theorem nar_binary (L : Libm) (hL : L.NaNs) (hP : L.Powers) (u : BFun) (hu : u ≠ .power) (w : W) (t : T w) :
    (u.log L w (nar w.n) t = .ok (nar w.n) ∧ u.log L w t (nar w.n) = .ok (nar w.n)) ∧
    (u.lin L w (nar w.n) t = .ok (nar w.n) ∧ u.lin L w t (nar w.n) = .ok (nar w.n)) := by
  have hN := logTo_nar hL.pow_right .ext w
  have hM := linTo_src_nar w
  obtain ⟨x, hx, ix⟩ : ∃ x, logTo L .ext w t = .ok x ∧ x.isinf = false := by
    by_cases h : t = nar w.n
    · exact ⟨_, h ▸ hN, rfl⟩
    · obtain ⟨f, v, e, i, -⟩ := logTo_ext hP w h
      exact ⟨f, e, i.isinf⟩
  obtain ⟨y, hy, iy⟩ : ∃ y, linTo w.src w t = .ok y ∧ y.isinf = false := by
    by_cases h : t = nar w.n
    · exact ⟨_, h ▸ hM, rfl⟩
    · obtain ⟨f, e, i⟩ := linTo_src w h
      exact ⟨f, e, i.isinf⟩
  have key : ∀ F z, z.isinf = false → u.fix .nan z (u.ev L F .nan z) = .nan ∧ u.fix z .nan (u.ev L F z .nan) = .nan := by
    intro F z hz
    cases u
    · exact ⟨hL.atan2_left F z, hL.atan2_right F z⟩
    · constructor
      · show Fl.cast F (Fl.div x80 (L.atan2 x80 .nan z) PI) = _
        rw [hL.atan2_left]; rfl
      · show Fl.cast F (Fl.div x80 (L.atan2 x80 z .nan) PI) = _
        rw [hL.atan2_right]; rfl
    · constructor
      · show fixHypot .nan z (L.hypot F .nan z) = _
        rw [hL.hypot_left F z hz]; rfl
      · show fixHypot z .nan (L.hypot F z .nan) = _
        rw [hL.hypot_right F z hz]; rfl
    · exact absurd rfl hu
  unfold BFun.log BFun.lin
  rw [binaryLog_eq hN hx, binaryLog_eq hx hN, binaryLin_eq hM hy, binaryLin_eq hy hM,
    (key _ _ ix).1, (key _ _ ix).2, (key _ _ iy).1, (key _ _ iy).2]
  exact ⟨⟨logFrom_nonfinite L .ext w rfl, logFrom_nonfinite L .ext w rfl⟩, linFrom_nan _ _, linFrom_nan _ _⟩

example : ideal.NaNs ∧ ideal.Powers ∧ BFun.hypotenuse ≠ .power := ⟨ideal_nans, ideal_powers, by decide⟩

theorem inv_ofInt {n : BitVec 64} (hn : n ≠ 0#64) : ∀ s, Fl.div x80 (.num 1) (Fl.ofInt x80 n.toInt) ≠ .zero s := by
  intro s
  have hn0 : n.toInt ≠ 0 := by
    intro h; exact hn (BitVec.eq_of_toInt_eq (by rw [h]; rfl))
  have hq : (n.toInt : ℚ) ≠ 0 := by exact_mod_cast hn0
  have h1 := BitVec.le_toInt n
  have h2 := BitVec.toInt_lt (x := n)
  have hb : |(n.toInt : ℚ)| ≤ 2 ^ 63 := by
    have : |n.toInt| ≤ 2 ^ 63 := by rw [abs_le]; constructor <;> norm_num at h1 h2 ⊢ <;> omega
    exact_mod_cast this
  have rep : x80.Rep (n.toInt : ℚ) := ⟨n.toInt, 0, by simp, by
    have : |n.toInt| ≤ 2 ^ 63 := by exact_mod_cast hb
    show |n.toInt| < 2 ^ 64
    omega, by decide⟩
  have i1 : (Fl.ofInt x80 n.toInt).Is (n.toInt : ℚ) :=
    Fl.Is.ofInt_in ⟨rep, lt_of_le_of_lt hb (by decide +kernel)⟩
  rw [i1.eq_num hq]
  have p : (1 : ℚ) / 2 ^ 63 ≤ |1 / (n.toInt : ℚ)| := by
    rw [abs_div, abs_one]
    exact one_div_le_one_div_of_le (abs_pos.mpr hq) hb
  have p2 : |1 / (n.toInt : ℚ)| ≤ 1 := by
    rw [abs_div, abs_one, div_le_one (abs_pos.mpr hq)]
    exact_mod_cast Int.one_le_abs hn0
  have r1 : (1 : ℚ) / 2 ^ 63 ≤ |x80.rq (1 / (n.toInt : ℚ))| := by
    have hr : x80.Rep ((1 : ℚ) / 2 ^ 63) := ⟨1, -63, by norm_num, by decide, by decide⟩
    rcases le_or_gt 0 (1 / (n.toInt : ℚ)) with h | h
    · rw [abs_of_nonneg h] at p
      exact (x80.le_rq (by decide) hr p).trans (le_abs_self _)
    · rw [abs_of_neg h] at p
      have := x80.le_rq (by decide) hr p
      rw [x80.rq_neg] at this
      exact this.trans (neg_le_abs _)
  have r2 : |x80.rq (1 / (n.toInt : ℚ))| ≤ 1 := x80.abs_rq_le (by decide) ⟨1, 0, by norm_num, by decide, by decide⟩ p2
  have i2 : (Fl.div x80 (.num 1) (.num (n.toInt : ℚ))).Is (x80.rq (1 / (n.toInt : ℚ))) :=
    Fl.Is.div (Fl.Is.num one_ne_zero) (Fl.Is.num hq) hq (lt_of_le_of_lt r2 (by decide +kernel))
  have hne : x80.rq (1 / (n.toInt : ℚ)) ≠ 0 := by
    intro h; rw [h, abs_zero] at r1; norm_num at r1
  rw [i2.eq_num hne]
  exact fun h => by cases h

/-- C40: integer powers and roots. -/
theorem nar_integer (L : Libm) (hL : L.NaNs) (w : W) (n : BitVec 64) :
    integerPower L w (nar w.n) n = .ok (nar w.n) ∧ linIntegerPower L w (nar w.n) n = .ok (nar w.n) ∧
      root w (nar w.n) n = .ok (nar w.n) ∧ linRoot L w (nar w.n) n = .ok (nar w.n) := by
  have h8 := w.n_pos
  refine ⟨?_, ?_, ((root_special w _ n).1).mpr (Or.inl rfl), ?_⟩
  · by_cases hw : w = .w64
    · subst hw
      show integerPower64 L (nar 64) n = _
      unfold integerPower64
      rw [if_pos (Or.inl (NAR_eq (by decide)).symm), NAR_eq (by decide)]
    · exact ((integerPower_special L w hw _ n).1).mpr (Or.inl rfl)
  · unfold linIntegerPower
    rw [if_pos (Or.inl (NAR_eq (by omega)).symm), NAR_eq (by omega)]
  · unfold linRoot
    by_cases h : n = 0#64 ∨ isNeg (nar w.n) = true ∧ ¬odd n.toInt = true
    · rw [if_pos h, NAR_eq (by omega)]
    · rw [if_neg h]
      push Not at h
      rw [linToExtended_nar, ok_bind, hL.pow_left x80 _ (inv_ofInt h.1)]
      exact linFrom_nan .ext w

example : ideal.NaNs := ideal_nans

/-! ### Power -/

theorem logFrom_one {L : Libm} (hS : L.Specials) (w : W) : logFrom L .ext w (.num 1) = .ok (ONE w) := by
  obtain ⟨o1, o2, o3, o4⟩ := ONE_facts w
  have hl : twoLog L (logF .ext w) (.num 1) = .zero false := by
    unfold twoLog
    have : (Fl.num 1).abs = .num 1 := by simp [Fl.abs]
    rw [this, hS.log_one]
    have : Fl.ofInt (logF .ext w) 2 = .num 2 := by
      have := (Fl.Is.ofInt_in (two_in (logF_std .ext w)) (F := logF .ext w)).eq_num (by norm_num)
      exact_mod_cast this
    rw [this]
    show Fl.round _ _ (2 * 0) = _
    simp [Fl.round, Fl.sgn]
  rw [logFrom_eq L .ext w (Fl.Is.num one_ne_zero) one_ne_zero, hl]
  have hd : decide ((1 : ℚ) < 0) = (ONE w).msb := by rw [o1]; rfl
  rw [hd]
  obtain ⟨v, e, rv, sv, dv⟩ := logEnc_close .ext (by decide) w (by simp) o3 (η := 0) (Fl.Is.zero false) (Fmt.Rep.zero _) (by rw [o4]; simp)
  rw [e]
  congr 1
  by_contra hc
  have gap := ell_gap (w := w) (a := ONE w) (b := v) sv.symm (fun h => hc h.symm)
  have h1 : (1 : ℚ) / 2 ^ 59 ≤ max 1 ((|ell (ONE w)| + 1) / 2) / 2 ^ (w.n - 5) := by
    apply div_le_div₀ (by positivity) (le_max_left _ _) (by positivity)
    apply pow_le_pow_right₀ (by norm_num)
    cases w <;> decide
  have h2 : (if w = .w64 then (2 : ℚ) else 4) * (0 + 1 / 2 ^ 64) ≤ 4 / 2 ^ 64 := by split_ifs <;> norm_num
  have := (h1.trans gap).trans (dv.trans h2)
  norm_num at this

theorem logTo_one {L : Libm} (hS : L.Specials) (w : W) : logTo L .ext w (ONE w) = .ok (.num 1) := by
  obtain ⟨o1, o2, o3, o4⟩ := ONE_facts w
  obtain ⟨l, e, hl⟩ := toL_regular w _ o3
  rw [o4] at hl
  rcases hl.cases with ⟨h, _⟩ | ⟨_, s, rfl⟩
  · exact absurd rfl h
  have e1 : expo .ext w (.zero s) = .zero s := by cases w <;> rfl
  have key : Fl.mul (powF .ext w) (Fl.ofInt (powF .ext w) (signFactor (ONE w)))
      (L.pow (powF .ext w) (.num (sqe (powF .ext w))) (expo .ext w (.zero s))) = .num 1 := by
    rw [e1, hS.exp_zero, signFactor_regular o3, o1, ofInt_unit (powF_std .ext w)]
    have : powF .ext w = x80 := by cases w <;> rfl
    rw [this]
    decide +kernel
  rcases logTo_eq L .ext w e with h | ⟨-, h⟩
  · rw [h, key]; decide +kernel
  · rw [h, key]

theorem linFrom_one (w : W) : linFrom w.src w (.num 1) = .ok (ONE w) := by
  have h1 : w.src.fmt.In 1 := by have := qv_src (t := ONE w); rwa [qv_one] at this
  obtain ⟨f, e, i⟩ := linTo_src w (ONE_facts w).2.2.1.2
  rw [linFrom_enc (Fl.Is.num one_ne_zero) h1, ← qv_one w]
  rw [linEnc_qv (ONE_facts w).2.2.1.2]

/-- C40 for `power` is false (both formats, any library conforming to C99): NaR to the power 0, and 1
to the power NaR, are 1. -/
theorem power_nar_refuted (L : Libm) (hL : L.NaNs) (hP : L.Powers) (hS : L.Specials) (w : W) :
    (BFun.power.log L w (nar w.n) 0#w.n = .ok (ONE w) ∧ BFun.power.log L w (ONE w) (nar w.n) = .ok (ONE w)) ∧
    (BFun.power.lin L w (nar w.n) 0#w.n = .ok (ONE w) ∧ BFun.power.lin L w (ONE w) (nar w.n) = .ok (ONE w)) ∧
    ONE w ≠ nar w.n := by
  have hN := logTo_nar hL.pow_right .ext w
  have hM := linTo_src_nar w
  have h0 := logTo_zero hP .ext w
  have h1 := logTo_one hS w
  have f1 : ∀ x y, fixPower x y (.num 1) = .num 1 := fun x y => rfl
  obtain ⟨z, hz, iz⟩ := linTo_src w (zero_ne_nar w)
  rw [qv_zero] at iz
  obtain ⟨s, rfl⟩ : ∃ s, z = .zero s := by
    rcases iz.cases with ⟨h, _⟩ | ⟨_, s, h⟩
    · exact absurd rfl h
    · exact ⟨s, h⟩
  obtain ⟨o, ho, io⟩ := linTo_src w (ONE_facts w).2.2.1.2
  rw [qv_one] at io
  rw [io.eq_num one_ne_zero] at ho
  unfold BFun.log BFun.lin
  rw [binaryLog_eq hN h0, binaryLog_eq h1 hN, binaryLin_eq hM hz, binaryLin_eq ho hM]
  simp only [BFun.fix, BFun.ev]
  rw [hS.exp_zero, hS.base_one, hS.exp_zero, hS.base_one, f1, f1]
  exact ⟨⟨logFrom_one hS w, logFrom_one hS w⟩, ⟨linFrom_one w, linFrom_one w⟩, (ONE_facts w).2.2.1.2⟩

example : ideal.NaNs ∧ ideal.Powers ∧ ideal.Specials := ⟨ideal_nans, ideal_powers, ideal_specials⟩

/-- C40 for `power`, everything but the two exceptions of `power_nar_refuted`. -/
theorem power_nar_partial (L : Libm) (hL : L.NaNs) (hP : L.Powers) (hA : L.Accurate) (hS : L.Specials) (w : W) (t : T w) :
    (t ≠ 0#w.n → BFun.power.log L w (nar w.n) t = .ok (nar w.n) ∧ BFun.power.lin L w (nar w.n) t = .ok (nar w.n)) ∧
    (t ≠ ONE w → BFun.power.log L w t (nar w.n) = .ok (nar w.n) ∧ BFun.power.lin L w t (nar w.n) = .ok (nar w.n)) := by
  have hN := logTo_nar hL.pow_right .ext w
  have hM := linTo_src_nar w
  have f1 : ∀ x y, fixPower x y .nan = .nan := fun x y => rfl
  obtain ⟨x, hx⟩ := logTo_ok L .ext w t
  obtain ⟨y, hy⟩ := linTo_ok w t
  have nf := logFrom_nonfinite L .ext w (f := .nan) rfl
  unfold BFun.log BFun.lin
  rw [binaryLog_eq hN hx, binaryLog_eq hx hN, binaryLin_eq hM hy, binaryLin_eq hy hM]
  simp only [BFun.fix, BFun.ev]
  constructor
  · intro h0
    rw [hL.pow_left, hL.pow_left, f1, f1]
    · exact ⟨nf, linFrom_nan _ _⟩
    · rintro s rfl
      by_cases h : t = nar w.n
      · subst h; rw [hM] at hy; cases hy
      · obtain ⟨f, e, i⟩ := linTo_src w h
        rw [e] at hy; obtain rfl := Except.ok.inj hy
        have := i.unique (Fl.Is.zero s)
        exact h0 ((qv_eq_zero h).mp this)
    · rintro s rfl
      by_cases h : t = nar w.n
      · subst h; rw [hN] at hx; cases hx
      · obtain ⟨f, v, e, i, -, h', -⟩ := logTo_ext hP w h
        rw [e] at hx; obtain rfl := Except.ok.inj hx
        exact h0 (h'.mp (i.unique (Fl.Is.zero s)))
  · intro h1
    rw [hL.pow_right, hL.pow_right, f1, f1]
    · exact ⟨nf, linFrom_nan _ _⟩
    · rintro rfl
      by_cases h : t = nar w.n
      · subst h; rw [hM] at hy; cases hy
      · obtain ⟨f, e, i⟩ := linTo_src w h
        rw [e] at hy; obtain rfl := Except.ok.inj hy
        have := i.unique (Fl.Is.num one_ne_zero)
        exact h1 (qv_inj h (ONE_facts w).2.2.1.2 (by rw [this, qv_one]))
    · rintro rfl
      by_cases h : t = nar w.n
      · subst h; rw [hN] at hx; cases hx
      by_cases h0 : t = 0#w.n
      · subst h0; rw [logTo_zero hP] at hx; cases hx
      obtain ⟨f, e, e'⟩ := round_trip hP hA .ext (by decide) w (by simp) ⟨h0, h⟩
      rw [e] at hx; obtain rfl := Except.ok.inj hx
      rw [logFrom_one hS] at e'
      exact h1 (Except.ok.inj e').symm

example : ideal.NaNs ∧ ideal.Powers ∧ ideal.Accurate ∧ ideal.Specials ∧ (0x12#8 : T .w8) ≠ 0#8 ∧ (0x12#8 : T .w8) ≠ ONE .w8 :=
  ⟨ideal_nans, ideal_powers, ideal_accurate, ideal_specials, by decide, by decide⟩

/-- C41 is false: 0 to the power 0 is 1, not NaR. -/
theorem power_zero_refuted (L : Libm) (hP : L.Powers) (hS : L.Specials) (w : W) :
    BFun.power.log L w 0#w.n 0#w.n = .ok (ONE w) ∧ BFun.power.lin L w 0#w.n 0#w.n = .ok (ONE w) ∧ ONE w ≠ nar w.n := by
  have h0 := logTo_zero hP .ext w
  obtain ⟨z, hz, iz⟩ := linTo_src w (zero_ne_nar w)
  rw [qv_zero] at iz
  obtain ⟨s, rfl⟩ : ∃ s, z = .zero s := by
    rcases iz.cases with ⟨h, _⟩ | ⟨_, s, h⟩
    · exact absurd rfl h
    · exact ⟨s, h⟩
  have f1 : ∀ x y, fixPower x y (.num 1) = .num 1 := fun x y => rfl
  unfold BFun.log BFun.lin
  rw [binaryLog_eq h0 h0, binaryLin_eq hz hz]
  simp only [BFun.fix, BFun.ev]
  rw [hS.exp_zero, hS.exp_zero, f1, f1]
  exact ⟨logFrom_one hS w, linFrom_one w, (ONE_facts w).2.2.1.2⟩

/-- C41 for negative exponents. -/
theorem power_zero_partial (L : Libm) (hP : L.Powers) (hS : L.Specials) (w : W) (t : T w) (h : t.toInt < 0) (hn : t ≠ nar w.n) :
    BFun.power.log L w 0#w.n t = .ok (nar w.n) ∧ BFun.power.lin L w 0#w.n t = .ok (nar w.n) := by
  have h0 := logTo_zero hP .ext w
  obtain ⟨z, hz, iz⟩ := linTo_src w (zero_ne_nar w)
  rw [qv_zero] at iz
  obtain ⟨s, rfl⟩ : ∃ s, z = .zero s := by
    rcases iz.cases with ⟨h, _⟩ | ⟨_, s, h⟩
    · exact absurd rfl h
    · exact ⟨s, h⟩
  have fx : ∀ s y r, r.isinf = true → fixPower (.zero s) y r = .nan := by
    intro s y r hr
    cases r with
    | inf s' => rfl
    | _ => simp [Fl.isinf] at hr
  obtain ⟨f, v, e, i, -, -, hv, -⟩ := logTo_ext hP w hn
  have hv' := hv.mpr h
  rw [i.eq_num hv'.ne] at e
  obtain ⟨g, e2, i2⟩ := linTo_src w hn
  have hq : qv t < 0 := by
    have := (qv_le_iff (zero_ne_nar w) hn).not
    rw [qv_zero] at this
    exact not_le.mp (this.mpr (by simp; exact h))
  rw [i2.eq_num hq.ne] at e2
  unfold BFun.log BFun.lin
  rw [binaryLog_eq h0 e, binaryLin_eq hz e2]
  simp only [BFun.fix, BFun.ev]
  rw [fx _ _ _ (hS.zero_neg _ _ _ hv'), fx _ _ _ (hS.zero_neg _ _ _ hq)]
  exact ⟨logFrom_nonfinite L .ext w rfl, linFrom_nan _ _⟩

example : ideal.Powers ∧ ideal.Specials ∧ (0xc0#8 : T .w8).toInt < 0 ∧ (0xc0#8 : T .w8) ≠ nar 8 :=
  ⟨ideal_powers, ideal_specials, by decide, by decide⟩

end Takum
