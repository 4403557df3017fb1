import Verif.Lemmas.MonoArg
import Verif.Lemmas.IdealMono
import Verif.Lemmas.IdealInv
import Verif.Props.LogAdd
import Verif.Props.LinFloat
import Verif.Props.Accuracy

/-!
# C78, C79: monotone conversions, sums and functions

`MonoSpec.lean` says what is assumed of the math library (`Increasing`, `Libm.Monotone`; the C standard does not demand it, the
ideal library has it) and lists the increasing and the decreasing functions.
-/

namespace Takum
open Spec

/-! ### C78 -/

/-- C78: the conversions from `float`, `double` and `long double` to logarithmic takums are monotone. -/
theorem log_from_monotone (L : Libm) (hL : L.Logs) (hm : Increasing L.log) (A : Src) (w : W) (f g : Fl) (hf : f.In A.fmt) (hg : g.In A.fmt)
    (h1 : f.isfinite = true) (h2 : g.isfinite = true) (h : Fl.le f g = true) :
    ∃ t t' : T w, logFrom L A w f = .ok t ∧ logFrom L A w g = .ok t' ∧ t.toInt ≤ t'.toInt := by
  obtain ⟨v, i1, n1, -⟩ := hf.finite h1
  obtain ⟨u, i2, n2, -⟩ := hg.finite h2
  exact logFrom_mono hL hm A w i1 i2 n1 n2 ((Fl.le_is i1 i2).mp h)

example : ideal.Logs ∧ Increasing ideal.log ∧ (Fl.num (-3)).In b32 ∧ (Fl.num (1 / 4)).In b32 ∧ Fl.le (.num (-3)) (.num (1 / 4)) = true := by
  refine ⟨ideal_logs, ideal_monotone.log, ⟨by norm_num, ⟨-3, 0, by norm_num, by decide, by decide⟩, by decide +kernel⟩,
    ⟨by norm_num, ⟨1, -2, by norm_num, by decide, by decide⟩, by decide +kernel⟩, by decide +kernel⟩

/-- C78: the conversions from logarithmic to linear takums are monotone, between any two widths. -/
theorem lin_from_log_monotone (L : Libm) (hL : L.Powers) (hA : L.Accurate) (a b : W) (t t' : T a) (ht : t ≠ nar a.n) (ht' : t' ≠ nar a.n)
    (h : t.toInt ≤ t'.toInt) : ∃ u u' : T b, linFromLog L a b t = .ok u ∧ linFromLog L a b t' = .ok u' ∧ u.toInt ≤ u'.toInt := by
  have key : ∀ A : Src, A ≠ .f32 → (A = .f64 → a ≠ .w64) → ∃ f g, logTo L A a t = .ok f ∧ logTo L A a t' = .ok g ∧
      ∃ u u' : T b, linFrom A b f = .ok u ∧ linFrom A b g = .ok u' ∧ u.toInt ≤ u'.toInt := by
    intro A h1 h2
    obtain ⟨f, e, i, n, -⟩ := logTo_xv hL h1 ht
    obtain ⟨g, e', i', n', -⟩ := logTo_xv hL h1 ht'
    refine ⟨f, g, e, e', linFrom_mono A b i i' n n' ?_⟩
    by_contra hc
    have := (xv_le_iff hL hA h1 h2 ht' ht).mp (not_le.mp hc)
    omega
  unfold linFromLog
  split_ifs with hw
  · obtain ⟨f, g, e, e', u, u', hu, hu', hle⟩ := key .ext (by decide) (fun h => by cases h)
    refine ⟨u, u', ?_, ?_, hle⟩
    · rw [show toExtended L a t = .ok f from e]; exact hu
    · rw [show toExtended L a t' = .ok g from e']; exact hu'
  · obtain ⟨f, g, e, e', u, u', hu, hu', hle⟩ := key .f64 (by decide) (fun _ h => hw (Or.inl h))
    refine ⟨u, u', ?_, ?_, hle⟩
    · rw [show toFloat64 L a t = .ok f from e]; exact hu
    · rw [show toFloat64 L a t' = .ok g from e']; exact hu'

example : ideal.Powers ∧ ideal.Accurate ∧ (0x8001#16 : T .w16) ≠ nar 16 ∧ (0x7fff#16 : T .w16) ≠ nar 16 ∧
    (0x8001#16 : T .w16).toInt ≤ (0x7fff#16 : T .w16).toInt := ⟨ideal_powers, ideal_accurate, by decide⟩

/-- C78: the conversions from linear to logarithmic takums are monotone, between any two widths. -/
theorem log_from_lin_monotone (L : Libm) (hL : L.Logs) (hm : Increasing L.log) (a b : W) (t t' : T a) (ht : t ≠ nar a.n) (ht' : t' ≠ nar a.n)
    (h : t.toInt ≤ t'.toInt) : ∃ u u' : T b, logFromLin L a b t = .ok u ∧ logFromLin L a b t' = .ok u' ∧ u.toInt ≤ u'.toInt := by
  have hq : qv t ≤ qv t' := (qv_le_iff ht ht').mpr h
  have e := linVal_qv ht
  have e' := linVal_qv ht'
  unfold logFromLin
  split_ifs with hw
  · obtain ⟨h1, h2⟩ := (lin_to_exact a t).1
    obtain ⟨h3, h4⟩ := (lin_to_exact a t').1
    rw [e] at h1; rw [e'] at h3
    rw [h1, h3]
    exact logFrom_mono hL hm .ext b (exactFl_is _) (exactFl_is _) (h2 _ e) (h4 _ e') hq
  · have hw' : a ≠ .w64 := fun h => hw (Or.inl h)
    obtain ⟨h1, h2⟩ := (lin_to_exact a t).2 hw'
    obtain ⟨h3, h4⟩ := (lin_to_exact a t').2 hw'
    rw [e] at h1; rw [e'] at h3
    rw [h1, h3]
    exact logFrom_mono hL hm .f64 b (exactFl_is _) (exactFl_is _) (h2 _ e) (h4 _ e') hq

example : ideal.Logs ∧ Increasing ideal.log ∧ (0x8001#16 : T .w16) ≠ nar 16 ∧ (0x7fff#16 : T .w16) ≠ nar 16 ∧
    (0x8001#16 : T .w16).toInt ≤ (0x7fff#16 : T .w16).toInt := ⟨ideal_logs, ideal_monotone.log, by decide⟩

/-- C78: logarithmic addition and subtraction are monotone in the first argument, addition in the second also, and subtraction is
antitone in the second. -/
theorem log_addition_monotone (L : Libm) (hL : L.Powers) (hA : L.Accurate) (hG : L.Logs) (hm : Increasing L.log) (w : W) (a b c : T w)
    (ha : a ≠ nar w.n) (hb : b ≠ nar w.n) (hc : c ≠ nar w.n) (h : a.toInt ≤ b.toInt) :
    (∃ x y : T w, addition L w a c = .ok x ∧ addition L w b c = .ok y ∧ x.toInt ≤ y.toInt) ∧
    (∃ x y : T w, addition L w c a = .ok x ∧ addition L w c b = .ok y ∧ x.toInt ≤ y.toInt) ∧
    (∃ x y : T w, subtraction L w a c = .ok x ∧ subtraction L w b c = .ok y ∧ x.toInt ≤ y.toInt) ∧
    (∃ x y : T w, subtraction L w c b = .ok x ∧ subtraction L w c a = .ok y ∧ x.toInt ≤ y.toInt) := by
  have hp : 1 ≤ x80.prec := by decide
  have hx : xv L .ext w a ≤ xv L .ext w b := by
    by_contra hcc
    have := (xv_le_iff hL hA (A := .ext) (by decide) (fun h => by cases h) hb ha).mp (not_le.mp hcc)
    omega
  have inr : ∀ {a b : T w}, a ≠ nar w.n → b ≠ nar w.n → x80.In (x80.rq (xv L .ext w a - xv L .ext w b)) := by
    intro a b ha hb
    obtain ⟨x, ex, ix, -, bx⟩ := logTo_xv hL (A := .ext) (by decide) ha
    obtain ⟨y, ey, iy, -, yb⟩ := logTo_xv hL (A := .ext) (by decide) hb
    have hi := sum_x80 bx (b := -xv L .ext w b) (by rwa [abs_neg])
    rwa [← sub_eq_add_neg] at hi
  have add : ∀ {a b c d : T w}, a ≠ nar w.n → b ≠ nar w.n → c ≠ nar w.n → d ≠ nar w.n →
      xv L .ext w a + xv L .ext w c ≤ xv L .ext w b + xv L .ext w d →
      ∃ x y : T w, addition L w a c = .ok x ∧ addition L w b d = .ok y ∧ x.toInt ≤ y.toInt := by
    intro a b c d ha hb hc hd hle
    obtain ⟨f, i, e, n⟩ := addition_eq hL ha hc
    obtain ⟨g, i', e', n'⟩ := addition_eq hL hb hd
    rw [e, e']
    exact logFrom_mono hG hm .ext w i i' n n' (x80.rq_mono hp hle)
  have sub : ∀ {a b c d : T w}, a ≠ nar w.n → b ≠ nar w.n → c ≠ nar w.n → d ≠ nar w.n →
      xv L .ext w a - xv L .ext w c ≤ xv L .ext w b - xv L .ext w d →
      ∃ x y : T w, subtraction L w a c = .ok x ∧ subtraction L w b d = .ok y ∧ x.toInt ≤ y.toInt := by
    intro a b c d ha hb hc hd hle
    obtain ⟨f, i, e⟩ := subtraction_eq hL ha hc
    obtain ⟨g, i', e'⟩ := subtraction_eq hL hb hd
    rw [e, e']
    exact logFrom_mono hG hm .ext w i i' (inr ha hc) (inr hb hd) (x80.rq_mono hp hle)
  exact ⟨add ha hb hc hc (by linarith), add hc hc ha hb (by linarith), sub ha hb hc hc (by linarith), sub hc hc hb ha (by linarith)⟩

example : ideal.Powers ∧ ideal.Accurate ∧ ideal.Logs ∧ Increasing ideal.log ∧ (0x8001#16 : T .w16) ≠ nar 16 ∧ (0x7fff#16 : T .w16) ≠ nar 16 ∧
    (0x1234#16 : T .w16) ≠ nar 16 ∧ (0x8001#16 : T .w16).toInt ≤ (0x7fff#16 : T .w16).toInt :=
  ⟨ideal_powers, ideal_accurate, ideal_logs, ideal_monotone.log, by decide⟩

/-! ### C79 -/

/-- C79: the increasing functions, for all takums and results other than NaR. -/
theorem elementary_increasing (L : Libm) (hL : L.Conforming) (hM : L.Monotone) (u : UFun) (hu : u.isIncreasing = true) (k : Kind) (w : W)
    (a b s t : T w) (x y p q : ℝ) (hx : value k a = some x) (hy : value k b = some y) (hxy : x ≤ y)
    (hs : u.call L k w a = .ok s) (ht : u.call L k w b = .ok t) (hp : value k s = some p) (hq : value k t = some q) : p ≤ q := by
  rw [← value_order k hp hq]
  rw [← value_order k hx hy] at hxy
  have fin : ∀ {t : T w} {x : ℝ} (r v), kTo L k w t = .ok r → Arg' k w r v x → r.FinIn (kF k w) := fun r v _ h => ⟨fl_in_of_is h.is h.isIn, h.is.isfinite⟩
  exact call_mono hL hM (ev_inc hM hu (kF_std k w)) (fun _ h => h) (fun e => by subst e; cases hu) hx hy hxy fin fin hs ht (value_ne hp) (value_ne hq)

/-- C79: the decreasing functions (`arccos`, `arccos_over_pi`). -/
theorem elementary_decreasing (L : Libm) (hL : L.Conforming) (hM : L.Monotone) (u : UFun) (hu : u.isDecreasing = true) (k : Kind) (w : W)
    (a b s t : T w) (x y p q : ℝ) (hx : value k a = some x) (hy : value k b = some y) (hxy : x ≤ y)
    (hs : u.call L k w a = .ok s) (ht : u.call L k w b = .ok t) (hp : value k s = some p) (hq : value k t = some q) : q ≤ p := by
  rw [← value_order k hq hp]
  rw [← value_order k hx hy] at hxy
  have fin : ∀ {t : T w} {x : ℝ} (r v), kTo L k w t = .ok r → Arg' k w r v x → r.FinIn (kF k w) := fun r v _ h => ⟨fl_in_of_is h.is h.isIn, h.is.isfinite⟩
  exact call_mono hL hM (ev_dec hM hu (kF_std k w)) (fun _ h => h) (fun e => by subst e; cases hu) hx hy hxy fin fin hs ht (value_ne hp) (value_ne hq)

/-- C79: functions that increase (decrease) on the positive numbers. -/
theorem elementary_positive (L : Libm) (hL : L.Conforming) (hM : L.Monotone) (u : UFun) (k : Kind) (w : W)
    (a b s t : T w) (x y p q : ℝ) (hx : value k a = some x) (hy : value k b = some y) (h0 : 0 < x) (hxy : x ≤ y)
    (hs : u.call L k w a = .ok s) (ht : u.call L k w b = .ok t) (hp : value k s = some p) (hq : value k t = some q) :
    (u.incPos = true → p ≤ q) ∧ (u.decPos = true → q ≤ p) := by
  have hle : a.toInt ≤ b.toInt := (value_order k hx hy).mpr hxy
  have hc : u = .csch → ∃ s, ∀ x, SArg false (kF k w) x → SArg s (kF k w) x := fun _ => ⟨false, fun _ h => h⟩
  obtain ⟨h1, h2⟩ := ev_branch hL hM false (u := u) (kF_std k w)
  refine ⟨fun hu => ?_, fun hu => ?_⟩
  · rw [← value_order k hp hq]
    exact call_mono hL hM (h1 hu) (fun _ h => SArg.fin h) hc hx hy hle (arg_pos h0) (arg_pos (h0.trans_le hxy)) hs ht (value_ne hp) (value_ne hq)
  · rw [← value_order k hq hp]
    exact call_mono hL hM (h2 hu) (fun _ h => SArg.fin h) hc hx hy hle (arg_pos h0) (arg_pos (h0.trans_le hxy)) hs ht (value_ne hp) (value_ne hq)

/-- C79: functions that increase (decrease) on the negative numbers. -/
theorem elementary_negative (L : Libm) (hL : L.Conforming) (hM : L.Monotone) (u : UFun) (k : Kind) (w : W)
    (a b s t : T w) (x y p q : ℝ) (hx : value k a = some x) (hy : value k b = some y) (h0 : y < 0) (hxy : x ≤ y)
    (hs : u.call L k w a = .ok s) (ht : u.call L k w b = .ok t) (hp : value k s = some p) (hq : value k t = some q) :
    (u.incNeg = true → p ≤ q) ∧ (u.decNeg = true → q ≤ p) := by
  have hle : a.toInt ≤ b.toInt := (value_order k hx hy).mpr hxy
  have hc : u = .csch → ∃ s, ∀ x, SArg true (kF k w) x → SArg s (kF k w) x := fun _ => ⟨true, fun _ h => h⟩
  obtain ⟨h1, h2⟩ := ev_branch hL hM true (u := u) (kF_std k w)
  refine ⟨fun hu => ?_, fun hu => ?_⟩
  · rw [← value_order k hp hq]
    exact call_mono hL hM (h1 hu) (fun _ h => SArg.fin h) hc hx hy hle (arg_neg (hxy.trans_lt h0)) (arg_neg h0) hs ht (value_ne hp) (value_ne hq)
  · rw [← value_order k hq hp]
    exact call_mono hL hM (h2 hu) (fun _ h => SArg.fin h) hc hx hy hle (arg_neg (hxy.trans_lt h0)) (arg_neg h0) hs ht (value_ne hp) (value_ne hq)

/-- `exp` of 3/2 and `csch` of the same, in `takum_linear16`: the hypotheses are met. -/
example : ideal.Conforming ∧ ideal.Monotone ∧ (∀ u, u = UFun.exp ∨ u = UFun.csch → ∃ (s : T .w16) (p : ℝ),
    value .lin (0x4400#16 : T .w16) = some (3 / 2) ∧ u.call ideal .lin .w16 0x4400#16 = .ok s ∧ value .lin s = some p) := by
  refine ⟨ideal_conforming, ideal_monotone, fun u hu => ?_⟩
  have hx : value .lin (0x4400#16 : T .w16) = some (3 / 2) := by
    have e : linVal (0x4400#16 : T .w16) = some (3 / 2) := by decide +kernel
    change (linVal (0x4400#16 : T .w16)).map _ = _
    rw [e]; norm_num
  have ht : argTol .lin u = 0 := by rcases hu with rfl | rfl <;> simp [argTol]
  obtain ⟨v, e, hn, -⟩ := elementary_accurate_lin ideal_conforming ideal_approximates u ht .w16 0x4400#16 _ hx
  have hd : ¬ Undefined u (3 / 2) := by
    rcases hu with rfl | rfl
    · exact fun h => h
    · exact fun h => by have : (3 / 2 : ℝ) = 0 := h; norm_num at this
  obtain ⟨p, hp⟩ := value_some (k := .lin) (fun h => hd (hn.mp h))
  exact ⟨v, p, hx, e, hp⟩

example : UFun.exp.isIncreasing = true ∧ UFun.arccos.isDecreasing = true ∧ UFun.csch.decPos = true ∧ UFun.cosh.decNeg = true := by decide

end Takum
