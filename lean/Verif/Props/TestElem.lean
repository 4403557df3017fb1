import Verif.Props.TestCopies
import Verif.Lemmas.TestFix

/-!
# C92: the tests of the elementary functions pass
-/

namespace Takum.Test
open Takum Spec

/-- The exception flags of the cases of a test of an elementary function.  Overflow is raised only for
infinite results of functions that grow without bound, or for zero results of those that approach zero
(`csch` and `sech` divide by an infinite number), and always in the first case; a zero result of a
function without zeros raises one of the flags, and a zero of another function does not raise underflow.
Nothing is said of the underflow flag of other results (it does not matter). -/
def Signals (E : Env) (u : UFun) : Prop :=
  ∀ k w (t : T w) raw, RefIs E.L k w t (refU E.L u) raw →
    ((E.flags k w t.toInt 0).2 = true →
      (raw.isinf = true ∧ Grows u = true) ∨ (raw.isfinite = true ∧ raw.toQ = 0 ∧ NoZero u = true)) ∧
    (raw.isinf = true → Grows u = true → (E.flags k w t.toInt 0).2 = true) ∧
    (raw.isfinite = true → raw.toQ = 0 →
      if NoZero u then (E.flags k w t.toInt 0).1 = true ∨ (E.flags k w t.toInt 0).2 = true
      else (E.flags k w t.toInt 0).1 = false)

/-- The value the test expects is the result of the function in `long double`, converted. -/
theorem expected_fix {L : Libm} (hL : L.Conforming) {u : UFun} {k : Kind} {w : W} {a raw : Fl} (hf : Fixes u a raw)
    (hn : ∀ q, q ≠ 0 → raw = .num q → u.fix a raw = raw) (hnan : raw = .nan → u.fix a raw = raw) {fl : Bool × Bool}
    (h1 : fl.2 = true → (raw.isinf = true ∧ Grows u = true) ∨ (raw.isfinite = true ∧ raw.toQ = 0 ∧ NoZero u = true))
    (h2 : raw.isinf = true → Grows u = true → fl.2 = true)
    (h3 : raw.isfinite = true → raw.toQ = 0 → if NoZero u then fl.1 = true ∨ fl.2 = true else fl.1 = false) :
    ∃ v : T w, fromExt L k w (u.fix a raw) = .ok v ∧ Expected L k w raw fl v.toInt := by
  refine expected_gen hL h1 h2 h3 (fun hG s e => ?_) (fun hN h h' => ?_) (fun h4 h5 => congrArg _ ?_)
  · rw [hf.inf s e, if_pos hG]
  · rw [hf.zero h h', if_pos hN]
  · cases raw with
    | nan => exact hnan rfl
    | inf s => rw [hf.inf s rfl, if_neg (fun h => h4 ⟨rfl, h⟩)]
    | zero s => rw [hf.zero rfl rfl, if_neg (fun h => h5 ⟨rfl, rfl, h⟩)]
    | num q =>
      by_cases q0 : q = 0
      · subst q0; rw [hf.zero rfl rfl, if_neg (fun h => h5 ⟨rfl, rfl, h⟩)]
      · exact hn q q0 rfl

theorem fix_num (u : UFun) (a : Fl) {q : ℚ} (hq : q ≠ 0) : u.fix a (.num q) = .num q := by
  have h := Fl.Is.num hq
  cases u <;> first | rfl | exact fixExp_is h hq | exact fixCsch_is (a := a) h hq | exact fixSech_is (a := a) h hq

theorem fix_nan' (u : UFun) (a : Fl) : u.fix a .nan = .nan := by cases u <;> rfl

/-- C92. Every case of every test of an elementary function is passed: by all eight types and all takums,
also where the function overflows, underflows or is not defined. -/
theorem elementary_case {E : Env} (hL : E.L.Conforming) (hA : E.L.Approximates) {u : UFun} (hE : Signals E u) (k : Kind) (w : W)
    (t : T w) : PassedUnary E (refU E.L u) (u.call E.L) k w t := by
  obtain ⟨a, ha⟩ := toExt_ok E.L k w t
  obtain ⟨s1, s2, s3⟩ := hE k w t _ ⟨a, ha, rfl⟩
  have hr := congrFun ((reference_copies E.L).1 u) a
  have hk : kTo E.L k w t = .ok a := by
    cases k
    · exact ha
    · obtain ⟨x, ex, -⟩ := lin_arg w t
      have hxa := lin_ext (L := E.L) ex
      rw [ha] at hxa
      obtain rfl := Except.ok.inj hxa
      exact ex
  -- the argument
  have arg : (t = nar w.n ∧ a = .nan) ∨ ∃ v x, Arg' k w a v x := by
    cases hx : value k t with
    | none =>
      rw [value_none] at hx
      subst hx
      rw [toExt_nar hL.powers k w] at ha
      exact .inl ⟨rfl, (Except.ok.inj ha).symm⟩
    | some x =>
      obtain ⟨r, v, e, h⟩ := kTo_acc hL k w hx
      rw [hk] at e
      obtain rfl := Except.ok.inj e
      exact .inr ⟨v, x, h⟩
  have hfix : Fixes u a (u.evl E.L a) := by
    rcases arg with ⟨-, rfl⟩ | ⟨v, x, h⟩
    · rw [evl_nan hL.nans]
      exact ⟨(fun s h => by cases h), (fun h => by simp [Fl.isfinite] at h)⟩
    · exact fixes_all hL hA u (w := w) (v := v) (x := x) { h.toArg with isIn := in_x80 (kF_std k w) h.isIn }
  obtain ⟨v, ev, hv⟩ := expected_fix hL (k := k) (w := w) (a := a) (raw := refU E.L u a) (by rw [hr]; exact hfix)
    (fun q hq e => by rw [e]; exact fix_num u a hq) (fun e => by rw [e]; exact fix_nan' u a) s1 s2 s3
  rw [hr] at ev
  -- the function in `long double`
  by_cases hkw : k = .log ∨ w = .w64
  · have ec : u.call E.L k w t = .ok v := by
      cases k
      · rw [call_eq (k := .log) hk]
        show logFrom E.L .ext w (u.fix a (u.ev E.L x80 a)) = _
        rw [ev_x80]; exact ev
      · obtain rfl : w = .w64 := by rcases hkw with h | h; exacts [absurd h (by simp), h]
        rw [call_eq (k := .lin) (w := .w64) hk]
        show linFrom .ext .w64 (u.fix a (u.ev E.L x80 a)) = _
        rw [ev_x80]; exact ev
    exact ⟨_, ⟨a, ha, rfl⟩, v, v.toInt, ec, hv, fun _ => ⟨fun h => h.2 rfl, fun h => h.2.1 rfl⟩, by simp⟩
  -- in `double`
  · obtain ⟨k1, w1⟩ := not_or.mp hkw
    obtain rfl : k = .lin := by cases k; exacts [absurd rfl k1, rfl]
    have hs : w.src = .f64 := by cases w <;> first | rfl | exact absurd rfl w1
    have hp : Pair E.L u w a := by
      rcases arg with ⟨-, rfl⟩ | ⟨v, x, h⟩
      · have e1 : u.ev E.L b64 .nan = .nan := by
          by_cases hc : CastFun u = true
          · rw [ev_b64, evd_cast _ hc, evl_nan hL.nans]; rfl
          · cases u <;> first
              | exact absurd rfl hc
              | (have n := hL.nans; rw [ev_b64]
                 first | exact n.exp2 _ | exact n.exp _ | exact n.expm1 _ | exact n.log _ | exact n.log1p _ | exact n.log2 _
                       | exact n.log10 _ | exact n.sin _ | exact n.cos _ | exact n.tan _ | exact n.asin _ | exact n.acos _
                       | exact n.atan _ | exact n.sinh _ | exact n.cosh _ | exact n.tanh _ | exact n.asinh _ | exact n.acosh _
                       | exact n.atanh _ | (show Fl.div b64 (.num 1) (E.L.cosh b64 .nan) = _; rw [n.cosh]; rfl))
        refine bad_pair w ?_ ?_
        · rw [e1, fix_nan']; rfl
        · rw [ev_x80, evl_nan hL.nans, fix_nan']; rfl
      · have hb : kF .lin w = b64 := by cases w <;> first | rfl | exact absurd rfl w1
        have h' := h.toArg
        rw [hb] at h'
        exact pair_all hL hA u w1 h' h.le'
    obtain ⟨p, q, e1, e2, e3⟩ := hp
    rw [ev_x80] at e2
    have : q = v := Except.ok.inj (e2.symm.trans ev)
    subst this
    refine ⟨_, ⟨a, ha, rfl⟩, p, q.toInt, ?_, hv, fun h => absurd h w1, e3⟩
    rw [call_eq (k := .lin) hk]
    show linFrom w.src w (u.fix a (u.ev E.L w.src.fmt a)) = _
    rw [hs]; exact e1

/-- C92. The tests of all elementary functions of one argument pass. -/
theorem elementary_passes {E : Env} (hL : E.L.Conforming) (hA : E.L.Approximates) {u : UFun} (hE : Signals E u) :
    runBlock E (blockU E u) = .ok 0 :=
  block_pass1 (elementary_case hL hA hE)

/-- An environment in which the flags are those of a conforming library. -/
def signalling (L : Libm) (u : UFun) : Env :=
  ⟨L, fun _ _ _ => 0, fun k w a _ => match toExt L k w (BitVec.ofInt w.n a) with
    | .ok f => (Fl.eq (refU L u f) (.zero false) && NoZero u, (refU L u f).isinf && Grows u)
    | .error _ => (false, false)⟩

theorem signalling_signals (L : Libm) (u : UFun) : Signals (signalling L u) u := by
  rintro k w t raw ⟨a, ha, rfl⟩
  have e : (signalling L u).flags k w t.toInt 0 =
      (Fl.eq (refU L u a) (.zero false) && NoZero u, (refU L u a).isinf && Grows u) := by
    have ha' : toExt L k w (BitVec.ofInt w.n t.toInt) = .ok a := by rw [BitVec.ofInt_toInt]; exact ha
    show (match toExt L k w (BitVec.ofInt w.n t.toInt) with | .ok f => _ | .error _ => _) = _
    rw [ha']
  rw [e]
  refine ⟨fun h => ?_, fun h1 h2 => ?_, fun h1 h2 => ?_⟩
  · simp only [Bool.and_eq_true] at h
    exact .inl h
  · show ((refU L u a).isinf && Grows u) = true
    change (refU L u a).isinf = true at h1
    rw [h1, h2]; rfl
  · change (refU L u a).isfinite = true at h1
    change (refU L u a).toQ = 0 at h2
    have := (Fl.eq_zero_iff _).mpr ⟨h1, h2⟩
    simp only [this, Bool.true_and]
    cases NoZero u <;> simp

/-- C92. The overflow flag is needed: without it the test fails wherever the reference is `∞`. -/
theorem elementary_needs_overflow {E : Env} (hL : E.L.Conforming) (hA : E.L.Approximates) {u : UFun} (hu : Grows u = true)
    {k : Kind} {w : W} {t : T w} (hr : RefIs E.L k w t (refU E.L u) (.inf false)) (hf : (E.flags k w t.toInt 0).2 = false) :
    ¬ PassedUnary E (refU E.L u) (u.call E.L) k w t := by
  rintro ⟨raw, ⟨a, ha, e⟩, c, r, ec, hx, -, hd⟩
  obtain ⟨a', ha', e'⟩ := hr
  rw [ha] at ha'
  obtain rfl := Except.ok.inj ha'
  rw [← e'] at e
  subst e
  obtain ⟨raw, ⟨a', ha', e⟩, c', r', ec', hx', -, hd'⟩ :=
    elementary_case (E := signalling E.L u) hL hA (signalling_signals E.L u) k w t
  have hc : c' = c := Except.ok.inj (ec'.symm.trans ec)
  subst hc
  have : a' = a := Except.ok.inj (ha'.symm.trans ha)
  subst this
  change raw = refU E.L u a' at e
  rw [← e'] at e
  subst e
  have hs := (signalling_signals E.L u k w t _ ⟨a', ha, e'⟩).2.1 rfl hu
  generalize (signalling E.L u).flags k w t.toInt 0 = fl' at hx' hs
  generalize E.flags k w t.toInt 0 = fl at hx hf
  have e1 : r' = 2 ^ (w.n - 1) - 1 := by
    generalize hb : Fl.inf false = b at hx'
    cases hx' with
    | tiny u o h h0 => subst hb; simp [Fl.isfinite] at h0
    | huge u h => rfl
    | negHuge u h => subst hb; simp [Fl.isfinite] at h
    | regular u t h ht => cases hs
  have e2 : r = -2 ^ (w.n - 1) := by
    generalize hb : Fl.inf false = b at hx
    cases hx with
    | tiny u o h h0 => subst hb; simp [Fl.isfinite] at h0
    | huge u h => cases hf
    | negHuge u h => cases hf
    | regular u t h ht =>
      subst hb
      rw [fromExt_nonfinite _ _ _ rfl] at ht
      rw [← Except.ok.inj ht]
      cases w <;> rfl
  rw [e1] at hd'; rw [e2] at hd
  have h8 : (4 : ℤ) ≤ 2 ^ (w.n - 1) := by cases w <;> decide
  rw [abs_le] at hd hd'
  omega

/-! ## Examples -/

example (u : UFun) : runBlock (signalling ideal u) (blockU (signalling ideal u) u) = .ok 0 :=
  elementary_passes (E := signalling ideal u) ideal_conforming ideal_approximates (signalling_signals _ _)

/-- Without flags `2^x` fails for the largest linear takum of 8 bits. -/
example : ¬ PassedUnary (plain ideal) (refU ideal .two_raised) (UFun.two_raised.call ideal) .lin .w8 (127#8) := by
  refine elementary_needs_overflow (E := plain ideal) ideal_conforming ideal_approximates rfl ⟨.num (2 ^ 239), ?_, ?_⟩ rfl
  · show linTo .ext .w8 (127#8) = _
    decide +kernel
  · show _ = refU ideal .two_raised _
    rw [(reference_copies ideal).1]
    show _ = rnd x80 ((2 : ℝ) ^ (((2 : ℚ) ^ 239 : ℚ) : ℝ))
    have h : (((2 : ℚ) ^ (16384 : ℤ) : ℚ) : ℝ) ≤ (2 : ℝ) ^ (((2 : ℚ) ^ 239 : ℚ) : ℝ) := by
      rw [Rat.cast_zpow, Rat.cast_ofNat, ← Real.rpow_intCast]
      exact Real.rpow_le_rpow_of_exponent_le (by norm_num) (by push_cast; norm_num)
    have h' := x80.le_rq_real (by decide) (Fmt.Rep.zpow (by decide) (by decide)) h
    unfold rnd
    rw [if_pos (show (2 : ℚ) ^ x80.emax ≤ _ from h'.trans (le_abs_self _)), decide_eq_false (not_lt.mpr (by positivity))]

end Takum.Test
