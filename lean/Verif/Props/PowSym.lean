import Verif.Props.MonoPow
import Verif.Lemmas.IdealPowSym
import Verif.Lemmas.SymmetryCall
import Verif.Props.Powers

/-!
# C129: powers of negative bases

Hypothesis: `Libm.PowSymmetric` (`PowSymSpec.lean`; the ideal library has it).
-/

namespace Takum
open Spec

theorem intPowFix_neg {n : ℕ} {t t' : BitVec n} (hz : t ≠ 0#n) (hz' : t' ≠ 0#n) (hs : isNeg t' = !isNeg t) {k : ℤ} (hk : odd k = true) (r : Fl)
    (hr : r ≠ .num 0) : intPowFix t' k r.neg = (intPowFix t k r).neg := by
  have nz : (t != 0#n) = true := by simpa using hz
  have nz' : (t' != 0#n) = true := by simpa using hz'
  unfold intPowFix
  rw [hs, hk, nz, nz']
  cases r with
  | nan => rfl
  | inf s => cases s <;> simp [Fl.neg, Fl.isinf, Fl.lt]; generalize DBL_MAX = d; cases d <;> simp
  | zero s => cases isNeg t <;> simp [Fl.neg, Fl.isinf, Fl.eq, Fl.toQ]; generalize DBL_MIN = d; cases d <;> simp
  | num q =>
    have h0 : q ≠ 0 := fun h => hr (by rw [h])
    simp [Fl.neg, Fl.isinf, Fl.eq, Fl.toQ, h0]

theorem intPowFix_even {n : ℕ} {t t' : BitVec n} (hz : t ≠ 0#n) (hz' : t' ≠ 0#n) {k : ℤ} (hk : odd k = false) (r : Fl) :
    intPowFix t' k r = intPowFix t k r := by
  have nz : (t != 0#n) = true := by simpa using hz
  have nz' : (t' != 0#n) = true := by simpa using hz'
  unfold intPowFix
  rw [hk, nz, nz', Bool.and_false, Bool.and_false]

/-- The `long double` of a takum and of its negation. -/
theorem eTo_neg {L : Libm} (hL : L.Conforming) (k : Kind) (w : W) {t : T w} (ht : Regular t) :
    ∃ v : ℚ, v ≠ 0 ∧ eTo L k w t = .ok (.num v) ∧ eTo L k w (-t) = .ok (.num (-v)) ∧ x80.In v := by
  have h5 : 5 ≤ w.n := by have := w.n_pos; omega
  obtain ⟨-, -, rn, -⟩ := regular_neg h5 ht
  cases k
  · obtain ⟨v, h0, e, e', i, -⟩ := kTo_neg hL .log w ht
    exact ⟨v, h0, e, e', i.2⟩
  · obtain ⟨f, v, e, i, n, -, -, -, -, hv⟩ := eTo_fin hL.powers .lin w ht.2
    obtain ⟨f', v', e', i', -, -, -, -, -, hv'⟩ := eTo_fin hL.powers .lin w rn.2
    obtain rfl := hv rfl
    obtain rfl := hv' rfl
    rw [qv_neg ht.2] at i'
    have h0 := qv_ne ht
    exact ⟨_, h0, by rw [e, i.eq_num h0], by rw [e', i'.eq_num (neg_ne_zero.mpr h0)], n⟩

/-- What is returned for a float and for its negation: the negation (linear takums but those with 16 bits), or a takum next to it. -/
theorem eFrom_neg {L : Libm} (hL : L.Conforming) (k : Kind) (w : W) {f : Fl} (hf : f.In x80) :
    ∃ a b : T w, eFrom L k w f = .ok a ∧ eFrom L k w f.neg = .ok b ∧
      (b = -a ∨ (k = .log ∨ w = .w16) ∧ Regular a ∧ Regular b ∧ |a.toInt + b.toInt| ≤ 1) := by
  have h8 := w.n_pos
  have e0 : -(0#w.n) = 0#w.n := by simp
  have en : -(nar w.n) = nar w.n := ((neg_value (by omega : 5 ≤ w.n) _).2.2).mpr (Or.inr rfl)
  cases k
  · obtain ⟨a, b, ea, eb, h⟩ := kFrom_neg hL .log w hf
    exact ⟨a, b, ea, eb, h.imp_right fun h => ⟨.inl rfl, h⟩⟩
  · cases f with
    | nan => exact ⟨_, _, eFrom_bad .lin w rfl, eFrom_bad .lin w rfl, .inl en.symm⟩
    | inf s => exact ⟨_, _, eFrom_bad .lin w rfl, eFrom_bad .lin w rfl, .inl en.symm⟩
    | zero s => exact ⟨_, _, linFrom_zero .ext w s, linFrom_zero .ext w (!s), .inl e0.symm⟩
    | num z =>
      obtain ⟨hz, hi⟩ := hf
      by_cases hw : w = .w16
      · obtain ⟨a, ea, fa⟩ := lin_from_faithful .ext w z hz hi
        obtain ⟨b, eb, fb⟩ := lin_from_faithful .ext w (-z) (neg_ne_zero.mpr hz) (In_neg hi)
        have hzr : (z : ℝ) ≠ 0 := by exact_mod_cast hz
        have ga := fa.faithful hzr
        have gb := fb.faithful (by exact_mod_cast neg_ne_zero.mpr hz)
        rw [Rat.cast_neg] at gb
        exact ⟨a, b, ea, eb, .inr ⟨.inr hw, fa.1, fb.1, faithful_opposite (by omega) ga gb⟩⟩
      · obtain ⟨t, e1, e2⟩ := linFrom_neg .ext w (fun h => hw h.2) (Fl.Is.num hz) hz hi
        exact ⟨t, -t, e1, e2, .inl rfl⟩

/-- The call of a power computed with `powl`. -/
theorem int_power_call {L : Libm} (k : Kind) {w : W} (hk : k = .lin ∨ w = .w64) {a : T w} (ha : Regular a) {f : Fl} (e : eTo L k w a = .ok f) (n : BitVec 64) :
    integerPowerOf L k w a n = eFrom L k w (intPowFix a n.toInt (L.pow x80 f (Fl.ofInt x80 n.toInt))) := by
  have h8 := w.n_pos
  have hcond : ¬ (a = NAR w.n ∨ (a = 0#w.n ∧ n.toInt ≤ 0)) := by
    rw [NAR_eq (by omega)]
    exact fun h => h.elim ha.2 fun h => ha.1 h.1
  cases k
  · obtain rfl := hk.resolve_left (by simp)
    change logTo L .ext _ a = _ at e
    show integerPower64 L a n = _
    unfold integerPower64
    rw [if_neg hcond, show toExtended L .w64 a = .ok f from e]; rfl
  · change linTo .ext _ a = _ at e
    show linIntegerPower L w a n = _
    unfold linIntegerPower
    rw [if_neg hcond, show linToExtended w a = .ok f from e]; rfl

section
variable {L : Libm} (hL : L.Conforming) (hS : L.PowSymmetric)
include hL hS

/-- The floats of the powers of a takum and of its negation. -/
theorem int_power_floats (k : Kind) {w : W} (hk : k = .lin ∨ w = .w64) {a : T w} (ha : Regular a) (n : BitVec 64) :
    ∃ r : Fl, r.In x80 ∧ integerPowerOf L k w a n = eFrom L k w r ∧
      integerPowerOf L k w (-a) n = eFrom L k w (if n.toInt % 2 = 1 then r.neg else r) ∧
      ∀ f, eTo L k w a = .ok f → r = intPowFix a n.toInt (L.pow x80 f (Fl.ofInt x80 n.toInt)) := by
  have h8 := w.n_pos
  obtain ⟨n1, -, rn, -⟩ := regular_neg (by omega) ha
  obtain ⟨v, v0, e, e', iv⟩ := eTo_neg hL k w ha
  have io := Fl.Is.ofInt_in (int64_in n)
  obtain ⟨f, v', e2, i2, n2, z2, s2, -⟩ := eTo_fin hL.powers k w ha.2
  have hf : f = .num v := by rw [e] at e2; exact (Except.ok.inj e2).symm
  subst hf
  obtain rfl := i2.unique (Fl.Is.num v0)
  obtain ⟨z, hz, iz, -⟩ := intPow_core hL.specials hL.powSigns i2 iv z2 s2 n (fun h => ha.1 h.1)
  refine ⟨_, fl_in_of_is hz iz, int_power_call k hk ha e n, ?_, fun f hf => by rw [e] at hf; rw [← Except.ok.inj hf]⟩
  rw [int_power_call k hk rn e' n]
  have hp : L.pow x80 (.num v') (Fl.ofInt x80 n.toInt) ≠ .num 0 := by
    by_cases n0 : n.toInt = 0
    · have : (Fl.ofInt x80 n.toInt).Is 0 := by have := io; rw [n0] at this; rw [n0]; exact_mod_cast this
      rcases this.cases with ⟨h, -⟩ | ⟨-, s, hs⟩
      · exact absurd rfl h
      · rw [hs, hL.specials.exp_zero]; simp
    · have hq : ((n.toInt : ℤ) : ℚ) ≠ 0 := by exact_mod_cast n0
      rw [io.eq_num hq]
      obtain ⟨-, h2, -⟩ := hL.powSigns.regular x80 (.inr rfl) v' n.toInt v0 hq iv (int64_in n) (.inr ⟨_, rfl⟩)
      intro h
      rw [h] at h2
      exact h2.1 rfl
  congr 1
  split_ifs with ho
  · have hk2 : n.toInt = 2 * (n.toInt / 2) + 1 := by omega
    have hq : ((n.toInt : ℤ) : ℚ) = 2 * ((n.toInt / 2 : ℤ) : ℚ) + 1 := by exact_mod_cast hk2
    have io' := io
    have iq := int64_in n
    rw [hq] at io' iq
    rw [hS.odd x80 (.inr rfl) v' _ _ v0 iv io' iq]
    refine intPowFix_neg ha.1 rn.1 ?_ ((odd_iff _).mpr ho) _ hp
    rw [isNeg_eq, isNeg_eq, n1]
  · have hk2 : n.toInt = 2 * (n.toInt / 2) := by omega
    have hq : ((n.toInt : ℤ) : ℚ) = 2 * ((n.toInt / 2 : ℤ) : ℚ) := by exact_mod_cast hk2
    have io' := io
    have iq := int64_in n
    rw [hq] at io' iq
    rw [hS.even x80 (.inr rfl) v' _ _ v0 iv io' iq]
    exact intPowFix_even ha.1 rn.1 (by rw [← Bool.not_eq_true, odd_iff]; exact ho) _

/-- C129: an even power does not depend on the sign of the base. -/
theorem int_power_even (k : Kind) (w : W) (a : T w) (n : BitVec 64) (hn : n.toInt % 2 = 0) :
    integerPowerOf L k w (-a) n = integerPowerOf L k w a n := by
  have h8 := w.n_pos
  have en : -(nar w.n) = nar w.n := ((neg_value (by omega : 5 ≤ w.n) _).2.2).mpr (Or.inr rfl)
  by_cases h0 : a = 0#w.n
  · subst h0; simp
  by_cases h1 : a = nar w.n
  · subst h1; rw [en]
  have ha : Regular a := ⟨h0, h1⟩
  obtain ⟨n1, -, rn, n4⟩ := regular_neg (by omega) ha
  by_cases hk : k = .lin ∨ w = .w64
  · obtain ⟨r, -, e, e', -⟩ := int_power_floats hL hS k hk ha n
    rw [e, e', if_neg (by omega)]
  · obtain ⟨hk, hw⟩ := not_or.mp hk
    obtain rfl : k = .log := by cases k <;> simp_all
    show integerPower L w (-a) n = integerPower L w a n
    obtain ⟨l, hl, e⟩ := integerPowerL_regular ha n
    obtain ⟨l', hl', e'⟩ := integerPowerL_regular rn n
    have ho : odd n.toInt = false := by rw [← Bool.not_eq_true, odd_iff]; omega
    rw [integerPower_eq L hw, integerPower_eq L hw, e, e', ho, Bool.and_false, Bool.and_false]
    rw [n4] at hl'
    exact enc_congr _ hl' hl (lF_rep_encF (lF_rq_rep w _))

/-- C129: an odd power passes the sign of the base on: exactly for linear takums of 8, 32 and 64 bits, up to one unit otherwise. -/
theorem int_power_odd (k : Kind) (w : W) (a : T w) (n : BitVec 64) (hn : n.toInt % 2 = 1) :
    ∃ u v : T w, integerPowerOf L k w a n = .ok u ∧ integerPowerOf L k w (-a) n = .ok v ∧
      (v = -u ∨ (k = .log ∨ w = .w16) ∧ (u ≠ 0#w.n ∧ u ≠ nar w.n) ∧ (v ≠ 0#w.n ∧ v ≠ nar w.n) ∧ |u.toInt + v.toInt| ≤ 1) := by
  have h8 := w.n_pos
  have en : -(nar w.n) = nar w.n := ((neg_value (by omega : 5 ≤ w.n) _).2.2).mpr (Or.inr rfl)
  obtain ⟨u, eu, u1, u2, -, -⟩ := integer_power_sign L hL.powers hL.specials hL.logs hL.powSigns k w a n
  by_cases h0 : a = 0#w.n
  · subst h0
    refine ⟨u, u, eu, by simpa using eu, .inl ?_⟩
    rcases lt_or_ge 0 n.toInt with h | h
    · rw [u2.mpr ⟨rfl, h⟩]; simp
    · rw [u1.mpr (.inr ⟨rfl, h⟩), en]
  by_cases h1 : a = nar w.n
  · subst h1
    exact ⟨u, u, eu, by rw [en]; exact eu, .inl (by rw [u1.mpr (.inl rfl), en])⟩
  have ha : Regular a := ⟨h0, h1⟩
  obtain ⟨n1, -, rn, n4⟩ := regular_neg (by omega) ha
  by_cases hk : k = .lin ∨ w = .w64
  · obtain ⟨r, hr, e, e', -⟩ := int_power_floats hL hS k hk ha n
    rw [if_pos hn] at e'
    obtain ⟨a', b', ea, eb, h⟩ := eFrom_neg hL k w hr
    exact ⟨a', b', e.trans ea, e'.trans eb, h⟩
  · obtain ⟨hk, hw⟩ := not_or.mp hk
    obtain rfl : k = .log := by cases k <;> simp_all
    obtain ⟨l, hl, e⟩ := integerPowerL_regular ha n
    obtain ⟨l', hl', e'⟩ := integerPowerL_regular rn n
    rw [(odd_iff _).mpr hn, Bool.and_true] at e e'
    rw [n4] at hl'
    obtain ⟨p, ep, fp⟩ := enc_faithfulLog (w := w) a.msb hl
    obtain ⟨q, eq, fq⟩ := enc_faithfulLog (w := w) (-a).msb hl'
    refine ⟨p, q, by rw [← ep, ← e]; exact integerPower_eq L hw a n, by rw [← eq, ← e']; exact integerPower_eq L hw (-a) n,
      .inr ⟨.inl rfl, fp.1, fq.1, ?_⟩⟩
    have hs : (sg (-a).msb : ℚ) = -(sg a.msb : ℚ) := by rw [n1]; cases a.msb <;> simp [sg]
    have c0 : ((sg a.msb : ℚ) : ℝ) * logG (ell a * w.lF.rq (n.toInt : ℚ)) ≠ 0 :=
      mul_ne_zero (by cases a.msb <;> norm_num [sg]) (logG_pos _).ne'
    have gp := fp.faithful c0
    have gq := fq.faithful (by rw [hs]; push_cast; rw [neg_mul]; exact neg_ne_zero.mpr c0)
    rw [hs] at gq
    push_cast at gq
    rw [neg_mul] at gq
    exact faithful_opposite (by omega) gp gq

/-- C129: `takum_linearN_power` with an integer as exponent, bit for bit: an even exponent makes the sign of the base irrelevant, an odd one
passes it on. -/
theorem lin_power_negative (w : W) (a b : T w) (j : ℤ) :
    (linVal b = some (2 * (j : ℚ)) → BFun.power.lin L w (-a) b = BFun.power.lin L w a b) ∧
    (linVal b = some (2 * (j : ℚ) + 1) → ∃ v : T w, BFun.power.lin L w a b = .ok v ∧ BFun.power.lin L w (-a) b = .ok (-v)) := by
  have h8 := w.n_pos
  have en : -(nar w.n) = nar w.n := ((neg_value (by omega : 5 ≤ w.n) _).2.2).mpr (Or.inr rfl)
  have call : ∀ t s : T w, BFun.power.lin L w t s = BFun.power.call L .lin w t s := fun _ _ => rfl
  have fx : ∀ (p : ℚ) (y r : Fl), p ≠ 0 → r ≠ .num 0 → fixPower (.num (-p)) y r.neg = (fixPower (.num p) y r).neg ∧
      fixPower (.num (-p)) y r = fixPower (.num p) y r := by
    intro p y r hp hr
    have p0 : Fl.eq (.num p) (.zero false) = false := by simp [Fl.eq, Fl.toQ, hp]
    have p1 : Fl.eq (.num (-p)) (.zero false) = false := by simp [Fl.eq, Fl.toQ, hp]
    unfold fixPower
    rw [p0, p1]
    refine ⟨?_, rfl⟩
    cases r with
    | nan => rfl
    | inf s => cases s <;> simp [Fl.neg, Fl.isinf, Fl.eq, Fl.sgn]; generalize DBL_MAX = d; cases d <;> simp
    | zero s => cases s <;> simp [Fl.neg, Fl.eq, Fl.sgn, Fl.toQ]; generalize DBL_MIN = d; cases d <;> simp
    | num q =>
      have h0 : q ≠ 0 := fun h => hr (by rw [h])
      simp [Fl.neg, Fl.isinf, Fl.eq, Fl.toQ, h0]
  by_cases h1 : a = nar w.n
  · subst h1
    rw [en]
    refine ⟨fun _ => rfl, fun hb => ⟨nar w.n, ?_, ?_⟩⟩
    all_goals
      have hb' : b ≠ nar w.n := by rintro rfl; unfold linVal at hb; rw [if_pos rfl] at hb; cases hb
      obtain ⟨y, q, ey, iy, -, -, -, hq⟩ := kTo_fin hL.powers .lin w hb'
      have hq := hq rfl
      rw [hb] at hq
      have q0 : q ≠ 0 := by
        rw [← Option.some.inj hq]
        have : (2 * j + 1 : ℤ) ≠ 0 := by omega
        exact_mod_cast this
      rw [iy.eq_num q0] at ey
      first | rw [en] | skip
      rw [call, bcall_eq (kTo_nar L hL .lin w) ey]
      refine kFrom_nonfinite L .lin w ?_
      show (fixPower .nan (.num q) (L.pow _ .nan (.num q))).isfinite = false
      rw [hL.nans.pow_left _ _ (by simp)]; rfl
  by_cases h0 : a = 0#w.n
  · subst h0
    have e0 : -(0#w.n) = 0#w.n := by simp
    rw [e0]
    refine ⟨fun _ => rfl, fun hb => ?_⟩
    have hb' : b ≠ nar w.n := by rintro rfl; unfold linVal at hb; rw [if_pos rfl] at hb; cases hb
    obtain ⟨v, ev, -, v1, v2, -⟩ := power_sign L hL.powers hL.specials hL.logs hL.powSigns .lin w 0#w.n b (zero_ne_nar w) hb'
    have b0 : b.toInt ≠ 0 := by
      intro h
      have : b = 0#w.n := BitVec.eq_of_toInt_eq (by rw [h]; simp)
      subst this
      rw [linVal_qv (zero_ne_nar w), qv_zero, Option.some.injEq] at hb
      have : (2 * j + 1 : ℤ) = 0 := by exact_mod_cast hb.symm
      omega
    refine ⟨v, ev, ?_⟩
    rcases lt_or_gt_of_ne b0 with h | h
    · rw [v2 rfl h] at ev ⊢; rw [en]; exact ev
    · rw [v1 rfl h] at ev ⊢; rw [e0]; exact ev
  have ha : Regular a := ⟨h0, h1⟩
  obtain ⟨v, v0, ev, ev', iv, -⟩ := kTo_neg hL .lin w ha
  have nz : ∀ (y : Fl) (i : ℤ), y.Is (i : ℚ) → (kF .lin w).In (i : ℚ) → L.pow (kF .lin w) (.num v) y ≠ .num 0 ∧ (fixPower (.num v) y (L.pow (kF .lin w) (.num v) y)).In (kF .lin w) := by
    intro y i hy iy
    rcases hy.cases with ⟨hi, rfl⟩ | ⟨hi, s, rfl⟩
    · obtain ⟨-, h2, -⟩ := hL.powSigns.regular _ (kF_std .lin w) v i v0 hi iv.2 iy (.inr ⟨_, rfl⟩)
      obtain ⟨z, hz, iz, -⟩ := pow_core hL.powSigns (kF_std .lin w) v0 hi iv.2 iy (.inr ⟨_, rfl⟩)
      refine ⟨fun h => ?_, fl_in_of_is hz iz⟩
      rw [h] at h2; exact h2.1 rfl
    · rw [hL.specials.exp_zero]
      refine ⟨by simp, ?_⟩
      have : fixPower (.num v) (.zero s) (.num 1) = .num 1 := by simp [fixPower, Fl.eq, Fl.toQ, Fl.isinf]
      rw [this]
      refine ⟨one_ne_zero, ?_⟩
      rcases kF_std .lin w with h | h <;> rw [h] <;> exact ⟨⟨1, 0, by norm_num, by decide, by decide⟩, by decide +kernel⟩
  refine ⟨fun hb => ?_, fun hb => ?_⟩
  · have hb' : b ≠ nar w.n := by rintro rfl; unfold linVal at hb; rw [if_pos rfl] at hb; cases hb
    obtain ⟨y, q, ey, iy, nq, -, -, hq⟩ := kTo_fin hL.powers .lin w hb'
    have hq := hq rfl
    rw [hb] at hq
    obtain rfl := Option.some.inj hq
    obtain ⟨p1, -⟩ := nz y (2 * j) (by exact_mod_cast iy) (by exact_mod_cast nq)
    rw [call, call, bcall_eq ev ey, bcall_eq ev' ey]
    show kFrom L .lin w (fixPower (.num (-v)) y (L.pow _ (.num (-v)) y)) = kFrom L .lin w (fixPower (.num v) y (L.pow _ (.num v) y))
    rw [hS.even _ (kF_std .lin w) v y j v0 iv.2 iy nq, (fx v y _ v0 p1).2]
  · have hb' : b ≠ nar w.n := by rintro rfl; unfold linVal at hb; rw [if_pos rfl] at hb; cases hb
    obtain ⟨y, q, ey, iy, nq, -, -, hq⟩ := kTo_fin hL.powers .lin w hb'
    have hq := hq rfl
    rw [hb] at hq
    obtain rfl := Option.some.inj hq
    obtain ⟨p1, p2⟩ := nz y (2 * j + 1) (by exact_mod_cast iy) (by exact_mod_cast nq)
    obtain ⟨c, d, ec, ed, hcd⟩ := kFrom_neg hL .lin w p2
    refine ⟨c, ?_, ?_⟩
    · rw [call, bcall_eq ev ey]; exact ec
    · rw [call, bcall_eq ev' ey, show -c = d from Eq.symm hcd, ← ed, ← (fx v y _ v0 p1).1, ← hS.odd _ (kF_std .lin w) v y j v0 iv.2 iy nq]; rfl


variable (hm : Increasing L.log) (hT : L.MonotoneTwo)
include hm hT

/-- C129: on the negative numbers odd powers keep the direction they have on the positive numbers, even powers reverse it. -/
theorem int_power_negative_monotone (k : Kind) (w : W) (hk : k = .lin ∨ w = .w64) (a a' : T w) (n : BitVec 64) (x x' : ℝ)
    (hx : value k a = some x) (hx' : value k a' = some x') (h0 : x' < 0) (h : x ≤ x') :
    ∃ (s t : T w) (y y' : ℝ), integerPowerOf L k w a n = .ok s ∧ integerPowerOf L k w a' n = .ok t ∧ value k s = some y ∧ value k t = some y' ∧
      (n.toInt % 2 = 1 → (0 ≤ n.toInt → y ≤ y') ∧ (n.toInt ≤ 0 → y' ≤ y)) ∧
      (n.toInt % 2 = 0 → (0 ≤ n.toInt → y' ≤ y) ∧ (n.toInt ≤ 0 → y ≤ y')) := by
  have h8 := w.n_pos
  have reg : ∀ {c : T w} {z : ℝ}, value k c = some z → z < 0 → Regular c := fun {c z} hz h => by
    refine ⟨?_, by rw [Ne, ← value_none (k := k), hz]; simp⟩
    rintro rfl; rw [value_zero] at hz; exact h.ne (Option.some.inj hz).symm
  have ra := reg hx (h.trans_lt h0)
  have ra' := reg hx' h0
  obtain ⟨-, -, rn, -⟩ := regular_neg (by omega) ra
  obtain ⟨-, -, rn', -⟩ := regular_neg (by omega) ra'
  have nx : value k (-a) = some (-x) := by rw [value_neg (by omega), hx]; rfl
  have nx' : value k (-a') = some (-x') := by rw [value_neg (by omega), hx']; rfl
  by_cases ho : n.toInt % 2 = 1
  · have core : ∀ {c : T w} {z : ℝ}, Regular c → value k c = some z → 0 < z → ∃ (f : Fl) (v : ℚ), eTo L k w c = .ok f ∧ f.Is v ∧ x80.In v ∧ 0 < v ∧
        integerPowerOf L k w (-c) n = eFrom L k w (fixExp f (L.pow x80 f (Fl.ofInt x80 n.toInt))).neg := by
      intro c z rc hz z0
      obtain ⟨f, v, e, i, iv, v0, -⟩ := eTo_pos hL k hz z0
      obtain ⟨n1, n2, n3⟩ := pow_pos_facts hL X2 i (Fl.Is.ofInt_in (int64_in n)) iv (int64_in n) v0
      obtain ⟨r, -, -, e2, hr⟩ := int_power_floats hL hS k hk rc n
      rw [if_pos ho] at e2
      refine ⟨f, v, e, i, iv, v0, ?_⟩
      rw [e2, hr f e]
      congr 2
      have ng : isNeg c = false := by
        rw [isNeg_eq, Bool.eq_false_iff, Ne, ← isNeg_iff, not_lt]
        have := (value_order k (value_zero k) hz).mpr z0.le
        simpa using this
      generalize L.pow x80 f (Fl.ofInt x80 n.toInt) = X at n1 n2
      have nz : (c != 0#w.n) = true := by simpa using rc.1
      unfold intPowFix fixExp
      rw [ng, nz]
      cases X with
      | nan => exact absurd rfl n1
      | zero s => simp [Fl.isinf]
      | inf s => cases s <;> simp [Fl.isinf, Fl.lt, Fl.eq, Fl.sgn] at n2 ⊢
      | num q => simp [Fl.isinf]
    obtain ⟨f, v, e, i, iv, v0, c1⟩ := core rn nx (by linarith)
    obtain ⟨f', v', e', i', iv', v0', c2⟩ := core rn' nx' (by linarith)
    rw [BitVec.neg_neg] at c1 c2
    have io := Fl.Is.ofInt_in (int64_in n)
    have im := int64_in n
    obtain ⟨m1, m2⟩ := hT.pow_base _ X2 _ _ _ _ _ _ i' i io iv' iv im v0' (eTo_mono hL k nx' nx (by linarith) e' e i' i)
    rcases le_total 0 n.toInt with hz | hz
    · obtain ⟨s, t, y, z, es, et, hy, hz', hle⟩ := eFrom_cl hL hm k (w := w)
        (Cl.neg (powl_cl hL i' io iv' im v0' i io iv im v0 (m1 (by exact_mod_cast hz))))
      exact ⟨s, t, y, z, c1.trans es, c2.trans et, hy, hz', fun _ => ⟨fun _ => hle, fun h => by omega⟩, fun h => by omega⟩
    · obtain ⟨t, s, z, y, et, es, hz', hy, hle⟩ := eFrom_cl hL hm k (w := w)
        (Cl.neg (powl_cl hL i io iv im v0 i' io iv' im v0' (m2 (by exact_mod_cast hz))))
      exact ⟨s, t, y, z, c1.trans es, c2.trans et, hy, hz', fun _ => ⟨fun h => by omega, fun _ => hle⟩, fun h => by omega⟩
  · have he : n.toInt % 2 = 0 := by omega
    obtain ⟨t, s, z, y, et, es, hz, hy, l1, l2⟩ := int_power_base_monotone hL hm hT k w hk (-a') (-a) n _ _ nx' nx (by linarith) (by linarith)
    rw [int_power_even hL hS k w a' n he] at et
    rw [int_power_even hL hS k w a n he] at es
    exact ⟨s, t, y, z, es, et, hy, hz, fun h => absurd h ho, fun _ => ⟨l1, l2⟩⟩

/-- C129: an odd positive power is increasing over all numbers. -/
theorem int_power_odd_increasing (k : Kind) (w : W) (hk : k = .lin ∨ w = .w64) (a a' : T w) (n : BitVec 64) (x x' : ℝ)
    (hx : value k a = some x) (hx' : value k a' = some x') (h : x ≤ x') (h0 : 0 < n.toInt) (ho : n.toInt % 2 = 1) :
    ∃ (s t : T w) (y y' : ℝ), integerPowerOf L k w a n = .ok s ∧ integerPowerOf L k w a' n = .ok t ∧ value k s = some y ∧ value k t = some y' ∧
      y ≤ y' := by
  have h8 := w.n_pos
  rcases lt_or_ge x' 0 with hn | hn
  · obtain ⟨s, t, y, y', es, et, hy, hy', l, -⟩ := int_power_negative_monotone hL hS hm hT k w hk a a' n x x' hx hx' hn h
    exact ⟨s, t, y, y', es, et, hy, hy', (l ho).1 h0.le⟩
  rcases lt_or_ge 0 x with hp | hp
  · obtain ⟨s, t, y, y', es, et, hy, hy', l, -⟩ := int_power_base_monotone hL hm hT k w hk a a' n x x' hx hx' hp h
    exact ⟨s, t, y, y', es, et, hy, hy', l h0.le⟩
  obtain ⟨s, es, s1, s2, s3, -⟩ := integer_power_sign L hL.powers hL.specials hL.logs hL.powSigns k w a n
  obtain ⟨t, et, t1, t2, t3, -⟩ := integer_power_sign L hL.powers hL.specials hL.logs hL.powSigns k w a' n
  have fin : ∀ {c r : T w} {z : ℝ}, value k c = some z → (r = nar w.n ↔ c = nar w.n ∨ c = 0#w.n ∧ n.toInt ≤ 0) → ∃ q, value k r = some q := by
    intro c r z hz hr
    refine value_some fun h => ?_
    rcases hr.mp h with h | h
    · rw [← value_none (k := k), hz] at h; cases h
    · omega
  obtain ⟨y, hy⟩ := fin hx s1
  obtain ⟨y', hy'⟩ := fin hx' t1
  have nn : ∀ {r : T w} {q : ℝ}, value k r = some q → r ≠ nar w.n := fun h e => by
    rw [← value_none (k := k), h] at e; cases e
  refine ⟨s, t, y, y', es, et, hy, hy', (value_order k hy hy').mp ?_⟩
  have i0 : (0#w.n).toInt = 0 := by simp
  have ia := (value_order k hx (value_zero k)).mpr hp
  have ia' := (value_order k (value_zero k) hx').mpr hn
  rw [i0] at ia ia'
  have lt : 0 ≤ t.toInt := by
    by_contra hc
    have := ((t3 (nn hy')).mp (by omega)).1
    omega
  have ls : s.toInt ≤ 0 := by
    by_cases hz : a = 0#w.n
    · rw [s2.mpr ⟨hz, h0⟩, i0]
    · have : a.toInt ≠ 0 := fun h => hz (BitVec.eq_of_toInt_eq (by rw [h, i0]))
      exact ((s3 (nn hy)).mpr ⟨by omega, ho⟩).le
  omega

end

/-- Non-vacuity: exponents 3 and 2, the library of `Ideal.lean`. -/
example : ∃ u v : T .w32, integerPowerOf ideal .lin .w32 0x4A000000#32 3#64 = .ok u ∧ integerPowerOf ideal .lin .w32 (-0x4A000000#32) 3#64 = .ok v ∧ v = -u := by
  obtain ⟨u, v, e, e', h⟩ := int_power_odd ideal_conforming ideal_pow_symmetric .lin .w32 (0x4A000000#32) 3#64 (by decide)
  exact ⟨u, v, e, e', h.resolve_right fun h => h.1.elim (by simp) (by simp)⟩

example : integerPowerOf ideal .log .w64 (-0x4A00000000000000#64) 2#64 = integerPowerOf ideal .log .w64 (0x4A00000000000000#64) 2#64 :=
  int_power_even ideal_conforming ideal_pow_symmetric .log .w64 _ _ (by decide)

example : linVal (0x4A00#16) = some (2 * ((1 : ℤ) : ℚ) + 1) ∧ linVal (0x4800#16) = some (2 * ((1 : ℤ) : ℚ)) := by decide +kernel

example : ∃ v : T .w16, BFun.power.lin ideal .w16 0x5000#16 0x4A00#16 = .ok v ∧ BFun.power.lin ideal .w16 (-0x5000#16) 0x4A00#16 = .ok (-v) :=
  (lin_power_negative ideal_conforming ideal_pow_symmetric .w16 0x5000#16 0x4A00#16 1).2 (by decide +kernel)

/-- Non-vacuity of the monotonicity theorems: -5 ≤ -3 < 0 and -3 ≤ 5. -/
example : ideal.Conforming ∧ ideal.PowSymmetric ∧ Increasing ideal.log ∧ ideal.MonotoneTwo ∧ linVal (-0x4D00#16) = some (-5) ∧ linVal (-0x4A00#16) = some (-3) ∧
    linVal (0x4D00#16) = some 5 ∧ (3#64).toInt % 2 = 1 ∧ 0 < (3#64).toInt :=
  ⟨ideal_conforming, ideal_pow_symmetric, im_log, ideal_monotone_two, by decide +kernel, by decide +kernel, by decide +kernel, by decide, by decide⟩

end Takum
