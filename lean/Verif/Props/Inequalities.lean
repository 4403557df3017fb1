import Verif.Lemmas.IdealIneq
import Verif.Lemmas.SymmetryCall
import Verif.Lemmas.ElemExp
import Verif.Props.Angles
import Verif.Props.LogRound

/-!
# C123: inequalities between a function and its argument

`sin`, `arctan`, `tanh` and `arsinh` do not increase the magnitude; `sinh`, `arcsin` and `artanh` do not decrease it;
`ln_1_plus(t) ≤ t ≤ exp_minus_1(t)`; `ln(t) ≤ t ≤ exp(t)` and, for linear takums, `exp(t)` is at least every takum up to `1 + t` and `ln(t)` at most
every takum from `t - 1`; `hypotenuse` is at least both magnitudes and at most every takum from their sum.
-/

namespace Takum
open Spec

section
variable {L : Libm} (hL : L.Conforming)
include hL

/-- The conversion to a takum is monotone. -/
theorem kFrom_le (k : Kind) {w : W} (hm : k = .log → Increasing L.log) {f g : Fl} {v u : ℚ} (hf : f.Is v) (hg : g.Is u) (hv : (kF k w).In v)
    (hu : (kF k w).In u) (h : v ≤ u) {t t' : T w} (et : kFrom L k w f = .ok t) (et' : kFrom L k w g = .ok t') {x y : ℝ} (hx : value k t = some x)
    (hy : value k t' = some y) : x ≤ y := by
  rw [← value_order k hx hy]
  cases k with
  | log =>
    obtain ⟨s, s', e1, e2, l⟩ := kFrom_mono hL (hm rfl) .log w hf hg hv hu (Or.inl h)
    rw [et] at e1; rw [et'] at e2; cases e1; cases e2; exact l
  | lin =>
    obtain ⟨s, s', e1, e2, l⟩ := linFrom_mono w.src w hf hg hv hu h
    have et : linFrom w.src w f = .ok t := et
    have et' : linFrom w.src w g = .ok t' := et'
    rw [et] at e1; rw [et'] at e2; cases e1; cases e2; exact l

/-- The argument converts back to the takum. -/
theorem kFrom_kTo (k : Kind) {w : W} (t : T w) {r : Fl} (e : kTo L k w t = .ok r) : kFrom L k w r = .ok t := by
  cases k with
  | log =>
    obtain ⟨f, e1, e2⟩ := log_round_trip L hL.powers hL.accurate .ext w (Or.inl rfl) t
    have e : logTo L .ext w t = .ok r := e
    rw [e1] at e; cases e; exact e2
  | lin =>
    have h := lin_roundtrip w t
    have e : linTo w.src w t = .ok r := e
    show linFrom w.src w r = .ok t
    cases w with
    | w64 =>
      have h := h.1
      change (do linFrom .ext .w64 (← linTo .ext .w64 t)) = _ at h
      rw [show linTo .ext .w64 t = .ok r from e] at h; exact h
    | w8 | w16 | w32 =>
      have h := h.2 (by decide)
      change (do linFrom .f64 _ (← linTo .f64 _ t)) = _ at h
      rw [show linTo .f64 _ t = .ok r from e] at h; exact h

/-- The argument, its opposite, and their conversions. -/
theorem arg_pair (k : Kind) {w : W} {t : T w} {x : ℝ} (hx : value k t = some x) : ∃ (r r' : Fl) (v : ℚ), kTo L k w t = .ok r ∧ Arg' k w r v x ∧
    kFrom L k w r = .ok t ∧ r'.Is (-v) ∧ kFrom L k w r' = .ok (-t) ∧ value k (-t) = some (-x) ∧ kTo L k w (-t) = .ok r' := by
  have h8 := w.n_pos
  obtain ⟨r, v, e, a⟩ := kTo_acc hL k w hx
  have hn : value k (-t) = some (-x) := by rw [value_neg (by omega), hx]; rfl
  by_cases h0 : t = 0#w.n
  · subst h0
    rw [value_zero] at hx; cases hx
    have hv := a.zero.mp rfl
    subst hv
    exact ⟨r, .zero false, 0, e, a, kFrom_kTo hL k _ e, by rw [neg_zero]; exact Fl.Is.zero false, by rw [kFrom_zero]; simp, hn, by rw [show -(0#w.n) = 0#w.n by simp]; exact kTo_zero L hL k w⟩
  · have ht : Regular t := ⟨h0, by rw [Ne, ← value_none (k := k), hx]; simp⟩
    obtain ⟨u, hu, e1, e2, -⟩ := kTo_neg hL k w ht
    rw [e] at e1; cases e1
    have := a.is.unique (Fl.Is.num hu)
    subst this
    exact ⟨_, _, v, e, a, kFrom_kTo hL k _ e, Fl.Is.num (neg_ne_zero.mpr hu), kFrom_kTo hL k _ e2, hn, e2⟩

/-- The same with the numbers ordered. -/
theorem arg_abs (k : Kind) {w : W} {t : T w} {x : ℝ} (hx : value k t = some x) : ∃ (r f g : Fl) (v : ℚ) (a b : T w), kTo L k w t = .ok r ∧ Arg' k w r v x ∧
    f.Is (-|v|) ∧ g.Is |v| ∧ kFrom L k w f = .ok a ∧ kFrom L k w g = .ok b ∧ value k a = some (-|x|) ∧ value k b = some |x| ∧ kTo L k w b = .ok g := by
  obtain ⟨r, r', v, e, a, er, i', er', hn, e'⟩ := arg_pair hL k hx
  rcases le_or_gt 0 v with h | h
  · have hx0 : 0 ≤ x := not_lt.mp fun h' => absurd (a.neg.mp h') (not_lt.mpr h)
    exact ⟨r, r', r, v, -t, t, e, a, by rwa [abs_of_nonneg h], by rw [abs_of_nonneg h]; exact a.is, er', er, by rwa [abs_of_nonneg hx0], by rwa [abs_of_nonneg hx0], e⟩
  · have hx0 := a.neg.mpr h
    exact ⟨r, r, r', v, t, -t, e, a, by rw [abs_of_neg h, neg_neg]; exact a.is, by rwa [abs_of_neg h], er, er', by rwa [abs_of_neg hx0, neg_neg], by rwa [abs_of_neg hx0], e'⟩
end

/-- The functions that do not increase the magnitude. -/
def Shrinks : UFun → Bool
  | .sin | .arctan | .tanh | .arsinh => true
  | _ => false

/-- The functions that do not decrease the magnitude. -/
def Enlarges : UFun → Bool
  | .sinh | .arcsin | .artanh => true
  | _ => false

theorem shrink_ev {L : Libm} (hI : L.Inequalities) {u : UFun} (hu : Shrinks u = true) {F : Fmt} (hF : F = b64 ∨ F = x80) {r : Fl} {v : ℚ} (hr : r.Is v) (hv : F.In v) :
    (u.fix r (u.ev L F r)).Span F (-|(v : ℝ)|) |(v : ℝ)| := by
  have key : (u.ev L F r).Span F (-|(v : ℝ)|) |(v : ℝ)| := by
    rcases hF with rfl | rfl
    · rw [ev_b64]
      cases u <;> first | (cases hu; done) | skip
      · exact hI.sin _ (Or.inl rfl) _ _ hr hv
      · exact hI.atan _ (Or.inl rfl) _ _ hr hv
      · exact hI.tanh _ (Or.inl rfl) _ _ hr hv
      · exact hI.asinh _ (Or.inl rfl) _ _ hr hv
    · rw [ev_x80]
      cases u <;> first | (cases hu; done) | skip
      · exact hI.sin _ (Or.inr rfl) _ _ hr hv
      · exact hI.atan _ (Or.inr rfl) _ _ hr hv
      · exact hI.tanh _ (Or.inr rfl) _ _ hr hv
      · exact hI.asinh _ (Or.inr rfl) _ _ hr hv
  obtain ⟨q, iq, h⟩ := key
  have fx : u.fix r (u.ev L F r) = u.ev L F r := by
    cases u <;> first | (cases hu; done) | rfl | skip
    show fixSinh r (UFun.arsinh.ev L F r) = _
    unfold fixSinh; rw [iq.isinf]; rfl
  rw [fx]; exact ⟨q, iq, h⟩

theorem fixSinh_beyond {F : Fmt} (hF : F = b64 ∨ F = x80) {r f : Fl} {v : ℚ} (hv : |v| ≤ (2 : ℚ) ^ (300 : ℤ)) (h : v ≠ 0 ∧ f = .inf (decide (v < 0)) ∨ f.Beyond F v) :
    (fixSinh r f).Beyond F v := by
  rcases h with ⟨v0, rfl⟩ | h
  · obtain ⟨q, e, hq, iq⟩ := dbl_max' hF
    have p : (2 : ℚ) ^ (300 : ℤ) ≤ (2 : ℚ) ^ (990 : ℤ) := by decide +kernel
    have p0 : (0 : ℚ) < (2 : ℚ) ^ (300 : ℤ) := by positivity
    obtain ⟨h1, h2⟩ := abs_le.mp (hv.trans (p.trans hq))
    have q0 : q ≠ 0 := (p0.trans_le (p.trans hq)).ne'
    unfold fixSinh
    rw [e]
    by_cases hs : v < 0
    · refine ⟨-q, ?_, ⟨iq.1.neg, by rw [abs_neg]; exact iq.2⟩, fun h => absurd hs (not_lt.mpr h), fun _ => by linarith⟩
      simpa [hs, Fl.isinf, Fl.le, Fl.lt, Fl.eq, Fl.neg] using Fl.Is.num (neg_ne_zero.mpr q0)
    · refine ⟨q, ?_, iq, fun _ => by linarith, fun h => ?_⟩
      · simpa [hs, Fl.isinf, Fl.le, Fl.lt, Fl.eq, Fl.neg] using Fl.Is.num q0
      · exact absurd (le_antisymm h (not_lt.mp hs)) v0
  · obtain ⟨q, iq, h⟩ := h
    unfold fixSinh; rw [iq.isinf]; exact ⟨q, iq, h⟩

theorem fixInf_ge {F : Fmt} (hF : F = b64 ∨ F = x80) {f : Fl} {c : ℚ} (hc : c ≤ (2 : ℚ) ^ (302 : ℤ)) (h : f = .inf false ∨ ∃ r, Fl.Is f r ∧ F.In r ∧ c ≤ r) :
    ∃ r, (if f.isinf then DBL_MAX else f).Is r ∧ F.In r ∧ c ≤ r := by
  rcases h with rfl | ⟨r, ir, h⟩
  · obtain ⟨q, e, hq, iq⟩ := dbl_max' hF
    have p : (2 : ℚ) ^ (302 : ℤ) ≤ (2 : ℚ) ^ (990 : ℤ) := by decide +kernel
    have p0 : (0 : ℚ) < (2 : ℚ) ^ (990 : ℤ) := by positivity
    refine ⟨q, ?_, iq, hc.trans (p.trans hq)⟩
    show DBL_MAX.Is q
    rw [e]
    exact Fl.Is.num (p0.trans_le hq).ne'
  · rw [ir.isinf]; exact ⟨r, ir, h⟩

section
variable {L : Libm} (hL : L.Conforming) (hI : L.Inequalities)
include hL hI

/-- C123: `|sin(t)|`, `|arctan(t)|`, `|tanh(t)|` and `|arsinh(t)|` are at most `|t|`. -/
theorem shrinks_le (u : UFun) (hu : Shrinks u = true) (k : Kind) (hm : k = .log → Increasing L.log) (w : W) (t : T w) (x : ℝ) (hx : value k t = some x) :
    ∃ (s : T w) (y : ℝ), u.call L k w t = .ok s ∧ value k s = some y ∧ |y| ≤ |x| := by
  obtain ⟨r, f, g, v, a, b, e, A, hf, hg, ea, eb, va, vb, -⟩ := arg_abs hL k hx
  obtain ⟨q, iq, nq, h⟩ := shrink_ev hI hu (kF_std k w) A.is A.isIn
  obtain ⟨s, y, es, hy, -⟩ := kFrom_unit hL k (w := w) iq nq
  have nv : (kF k w).In |v| := ⟨A.isIn.1.abs, by rw [abs_abs]; exact A.isIn.2⟩
  have h1 : -|v| ≤ q := (h _ (In_neg nv)).1 (by push_cast; exact le_rfl)
  have h2 : q ≤ |v| := (h _ nv).2 (by push_cast; exact le_rfl)
  exact ⟨s, y, (call_eq e).trans es, hy, abs_le.mpr ⟨kFrom_le hL k hm hf iq (In_neg nv) nq h1 ea es va hy, kFrom_le hL k hm iq hg nq nv h2 es eb hy vb⟩⟩

/-- C123: `sinh(t)`, `arcsin(t)` and `artanh(t)` are NaR or at least as far from zero as `t`, on the same side; `sinh(t)` is not NaR. -/
theorem grows_ge (u : UFun) (hu : Enlarges u = true) (k : Kind) (hm : k = .log → Increasing L.log) (w : W) (t : T w) (x : ℝ) (hx : value k t = some x) :
    ∃ s : T w, u.call L k w t = .ok s ∧ ((u ≠ .sinh ∧ s = nar w.n) ∨ ∃ y, value k s = some y ∧ (0 ≤ x → x ≤ y) ∧ (x ≤ 0 → y ≤ x)) := by
  obtain ⟨r, -, v, e, A, er, -⟩ := arg_pair hL k hx
  have hF := kF_std k w
  have key : (u ≠ .sinh ∧ (u.fix r (u.ev L (kF k w) r)).isfinite = false) ∨ (u.fix r (u.ev L (kF k w) r)).Beyond (kF k w) v := by
    cases u <;> first | (cases hu; done) | skip
    · have h : UFun.arcsin.ev L (kF k w) r = L.asin (kF k w) r := by rcases hF with h | h <;> rw [h] <;> first | rw [ev_b64]; rfl | rw [ev_x80]; rfl
      have h' : UFun.arcsin.fix r (UFun.arcsin.ev L (kF k w) r) = UFun.arcsin.ev L (kF k w) r := rfl
      rw [h', h]
      exact (hI.asin _ hF _ _ A.is A.isIn).imp_left fun h => ⟨by decide, h⟩
    · have h : UFun.sinh.ev L (kF k w) r = L.sinh (kF k w) r := by rcases hF with h | h <;> rw [h] <;> first | rw [ev_b64]; rfl | rw [ev_x80]; rfl
      refine Or.inr ?_
      rw [h]
      exact fixSinh_beyond (r := r) hF A.le (hI.sinh _ hF _ _ A.is A.isIn)
    · have h : UFun.artanh.ev L (kF k w) r = L.atanh (kF k w) r := by rcases hF with h | h <;> rw [h] <;> first | rw [ev_b64]; rfl | rw [ev_x80]; rfl
      have h' : UFun.artanh.fix r (UFun.artanh.ev L (kF k w) r) = UFun.artanh.ev L (kF k w) r := rfl
      rw [h', h]
      exact (hI.atanh _ hF _ _ A.is A.isIn).imp_left fun h => ⟨by decide, h⟩
  rcases key with ⟨h, h'⟩ | ⟨q, iq, nq, h1, h2⟩
  · exact ⟨_, (call_eq e).trans (kFrom_nonfinite L k w h'), Or.inl ⟨h, rfl⟩⟩
  · obtain ⟨s, y, es, hy, -⟩ := kFrom_unit hL k (w := w) iq nq
    refine ⟨s, (call_eq e).trans es, Or.inr ⟨y, hy, fun h => ?_, fun h => ?_⟩⟩
    · exact kFrom_le hL k hm A.is iq A.isIn nq (h1 (not_lt.mp fun h' => absurd (A.neg.mpr h') (not_lt.mpr h))) er es hx hy
    · have hv : v ≤ 0 := by
        rcases h.lt_or_eq with h | h
        · exact (A.neg.mp h).le
        · exact (A.zero.mp h).le
      exact kFrom_le hL k hm iq A.is nq A.isIn (h2 hv) es er hy hx

/-- C123: `ln_1_plus(t)` is NaR or at most `t`. -/
theorem ln_1_plus_le (k : Kind) (hm : k = .log → Increasing L.log) (w : W) (t : T w) (x : ℝ) (hx : value k t = some x) :
    ∃ s : T w, UFun.ln_1_plus.call L k w t = .ok s ∧ (s = nar w.n ∨ ∃ y, value k s = some y ∧ y ≤ x) := by
  obtain ⟨r, -, v, e, A, er, -⟩ := arg_pair hL k hx
  have hF := kF_std k w
  have h : UFun.ln_1_plus.ev L (kF k w) r = L.log1p (kF k w) r := by rcases hF with h | h <;> rw [h] <;> first | rw [ev_b64]; rfl | rw [ev_x80]; rfl
  have hc := call_eq (u := .ln_1_plus) e
  rw [h] at hc
  rcases hI.log1p _ hF _ _ A.is A.isIn with h' | h' | ⟨q, iq, nq, h'⟩
  · rw [h'] at hc; exact ⟨_, hc.trans (kFrom_nonfinite L k w rfl), Or.inl rfl⟩
  · rw [h'] at hc; exact ⟨_, hc.trans (kFrom_nonfinite L k w rfl), Or.inl rfl⟩
  · obtain ⟨s, y, es, hy, -⟩ := kFrom_unit hL k (w := w) iq nq
    have fx : UFun.ln_1_plus.fix r (L.log1p (kF k w) r) = L.log1p (kF k w) r := by
      show fixLog r (L.log1p (kF k w) r) = _
      unfold fixLog; rw [iq.isinf]; rfl
    rw [fx] at hc
    exact ⟨s, hc.trans es, Or.inr ⟨y, hy, kFrom_le hL k hm iq A.is nq A.isIn h' es er hy hx⟩⟩

/-- C123: `exp_minus_1(t)` is at least `t`. -/
theorem exp_minus_1_ge (k : Kind) (hm : k = .log → Increasing L.log) (w : W) (t : T w) (x : ℝ) (hx : value k t = some x) :
    ∃ (s : T w) (y : ℝ), UFun.exp_minus_1.call L k w t = .ok s ∧ value k s = some y ∧ x ≤ y := by
  obtain ⟨r, -, v, e, A, er, -⟩ := arg_pair hL k hx
  have hF := kF_std k w
  have h : UFun.exp_minus_1.ev L (kF k w) r = L.expm1 (kF k w) r := by rcases hF with h | h <;> rw [h] <;> first | rw [ev_b64]; rfl | rw [ev_x80]; rfl
  have hc := call_eq (u := .exp_minus_1) e
  rw [h] at hc
  have p : (2 : ℚ) ^ (300 : ℤ) ≤ (2 : ℚ) ^ (302 : ℤ) := by decide +kernel
  obtain ⟨q, iq, nq, h'⟩ := fixInf_ge hF ((le_abs_self v).trans (A.le.trans p)) (hI.expm1 _ hF _ _ A.is A.isIn)
  obtain ⟨s, y, es, hy, -⟩ := kFrom_unit hL k (w := w) iq nq
  exact ⟨s, y, hc.trans es, hy, kFrom_le hL k hm A.is iq A.isIn nq h' er es hx hy⟩

theorem exp_key (k : Kind) (hm : k = .log → Increasing L.log) {w : W} {t t' : T w} {r r' : Fl} {v c : ℚ} {x z : ℝ} (e : kTo L k w t = .ok r) (A : Arg' k w r v x)
    (hr' : r'.Is c) (hc' : (kF k w).In c) (e' : kFrom L k w r' = .ok t') (hz : value k t' = some z) (h : c ≤ 1 + v) (hcl : c ≤ (2 : ℚ) ^ (302 : ℤ)) :
    ∃ (s : T w) (y : ℝ), UFun.exp.call L k w t = .ok s ∧ value k s = some y ∧ z ≤ y := by
  have hF := kF_std k w
  have h1 : UFun.exp.ev L (kF k w) r = L.exp (kF k w) r := by rcases hF with h | h <;> rw [h] <;> first | rw [ev_b64]; rfl | rw [ev_x80]; rfl
  have hc := call_eq (u := .exp) e
  rw [h1] at hc
  have key : ∃ q, (UFun.exp.fix r (L.exp (kF k w) r)).Is q ∧ (kF k w).In q ∧ c ≤ q := by
    show ∃ q, (fixExp r (L.exp (kF k w) r)).Is q ∧ _
    rcases hI.exp _ hF _ _ A.is A.isIn with h2 | ⟨q, iq, nq, q0, h2⟩
    · obtain ⟨q, iq, nq, h3⟩ := fixInf_ge hF hcl (f := .inf false) (Or.inl rfl)
      rw [h2]; exact ⟨q, iq, nq, h3⟩
    · have h2 := h2 c hc' h
      unfold fixExp
      rw [iq.isinf]
      by_cases h3 : Fl.eq (L.exp (kF k w) r) (.zero false) = true
      · rw [if_pos h3]
        obtain ⟨m, em, pm, -, im⟩ := dbl_min' hF
        rw [em]
        refine ⟨m, Fl.Is.num pm.ne', im, ?_⟩
        rcases iq.cases with ⟨hq, e⟩ | ⟨hq, -⟩
        · rw [e] at h3
          exfalso; revert h3; simp [Fl.eq, Fl.toQ, hq]
        · linarith
      · rw [if_neg h3]; exact ⟨q, iq, nq, h2⟩
  obtain ⟨q, iq, nq, h'⟩ := key
  obtain ⟨s, y, es, hy, -⟩ := kFrom_unit hL k (w := w) iq nq
  exact ⟨s, y, hc.trans es, hy, kFrom_le hL k hm hr' iq hc' nq h' e' es hz hy⟩

/-- C123: `exp(t)` is at least `t`. -/
theorem exp_ge (k : Kind) (hm : k = .log → Increasing L.log) (w : W) (t : T w) (x : ℝ) (hx : value k t = some x) :
    ∃ (s : T w) (y : ℝ), UFun.exp.call L k w t = .ok s ∧ value k s = some y ∧ x ≤ y := by
  obtain ⟨r, -, v, e, A, er, -⟩ := arg_pair hL k hx
  have p : (2 : ℚ) ^ (300 : ℤ) ≤ (2 : ℚ) ^ (302 : ℤ) := by decide +kernel
  exact exp_key hL hI k hm e A A.is A.isIn er hx (by linarith) ((le_abs_self v).trans (A.le.trans p))

/-- C123: `exp(t)` of a linear takum is at least every takum with a value up to `1 + t`. -/
theorem lin_exp_ge (w : W) (t t' : T w) (x z : ℝ) (hx : value .lin t = some x) (hz : value .lin t' = some z) (h : z ≤ 1 + x) :
    ∃ (s : T w) (y : ℝ), UFun.exp.call L .lin w t = .ok s ∧ value .lin s = some y ∧ z ≤ y := by
  obtain ⟨r, -, v, e, A, er, -⟩ := arg_pair hL .lin hx
  obtain ⟨r', -, v', e', A', er', -⟩ := arg_pair hL .lin hz
  have p : (2 : ℚ) ^ (300 : ℤ) ≤ (2 : ℚ) ^ (302 : ℤ) := by decide +kernel
  refine exp_key hL hI .lin (by simp) e A A'.is A'.isIn er' hz ?_ ((le_abs_self v').trans (A'.le.trans p))
  have h1 := A.close
  have h2 := A'.close
  simp only [inTol, zero_mul, abs_nonpos_iff, sub_eq_zero] at h1 h2
  rw [← h1, ← h2] at h; exact_mod_cast h

theorem ln_key (k : Kind) (hm : k = .log → Increasing L.log) {w : W} {t t' : T w} {r r' : Fl} {v c : ℚ} {x z : ℝ} (e : kTo L k w t = .ok r) (A : Arg' k w r v x) (h0 : 0 < v)
    (hr' : r'.Is c) (hc' : (kF k w).In c) (e' : kFrom L k w r' = .ok t') (hz : value k t' = some z) (h : v - 1 ≤ c) :
    ∃ (s : T w) (y : ℝ), UFun.ln.call L k w t = .ok s ∧ value k s = some y ∧ y ≤ z := by
  have hF := kF_std k w
  have h1 : UFun.ln.ev L (kF k w) r = L.log (kF k w) r := by rcases hF with h | h <;> rw [h] <;> first | rw [ev_b64]; rfl | rw [ev_x80]; rfl
  have hc := call_eq (u := .ln) e
  rw [h1] at hc
  obtain ⟨q, iq, nq, h2⟩ := hI.log _ hF v h0 A.isIn
  rw [A.is.eq_num h0.ne'] at hc
  have fx : UFun.ln.fix (.num v) (L.log (kF k w) (.num v)) = L.log (kF k w) (.num v) := by
    show fixLog (.num v) (L.log (kF k w) (.num v)) = _
    unfold fixLog; rw [iq.isinf]; rfl
  rw [fx] at hc
  obtain ⟨s, y, es, hy, -⟩ := kFrom_unit hL k (w := w) iq nq
  exact ⟨s, y, hc.trans es, hy, kFrom_le hL k hm iq hr' nq hc' (h2 c hc' h) es e' hy hz⟩

omit hL hI in
theorem arg_positive {k : Kind} {w : W} {r : Fl} {v : ℚ} {x : ℝ} (A : Arg' k w r v x) (h0 : 0 < x) : 0 < v :=
  lt_of_le_of_ne (not_lt.mp fun h => absurd (A.neg.mpr h) (not_lt.mpr h0.le)) fun h => h0.ne' (A.zero.mpr h.symm)

/-- C123: `ln(t)` of a positive takum is at most `t`. -/
theorem ln_le (k : Kind) (hm : k = .log → Increasing L.log) (w : W) (t : T w) (x : ℝ) (hx : value k t = some x) (h0 : 0 < x) :
    ∃ (s : T w) (y : ℝ), UFun.ln.call L k w t = .ok s ∧ value k s = some y ∧ y ≤ x := by
  obtain ⟨r, -, v, e, A, er, -⟩ := arg_pair hL k hx
  exact ln_key hL hI k hm e A (arg_positive A h0) A.is A.isIn er hx (by linarith)

/-- C123: `ln(t)` of a positive linear takum is at most every takum with a value from `t - 1`. -/
theorem lin_ln_le (w : W) (t t' : T w) (x z : ℝ) (hx : value .lin t = some x) (h0 : 0 < x) (hz : value .lin t' = some z) (h : x - 1 ≤ z) :
    ∃ (s : T w) (y : ℝ), UFun.ln.call L .lin w t = .ok s ∧ value .lin s = some y ∧ y ≤ z := by
  obtain ⟨r, -, v, e, A, er, -⟩ := arg_pair hL .lin hx
  obtain ⟨r', -, v', e', A', er', -⟩ := arg_pair hL .lin hz
  refine ln_key hL hI .lin (by simp) e A (arg_positive A h0) A'.is A'.isIn er' hz ?_
  have h1 := A.close
  have h2 := A'.close
  simp only [inTol, zero_mul, abs_nonpos_iff, sub_eq_zero] at h1 h2
  rw [← h1, ← h2] at h; exact_mod_cast h

/-- C123: `hypotenuse(a, b)` is at least `|a|` and at least `|b|`; of linear takums it is at most every takum with a value from `|a| + |b|`. -/
theorem hypotenuse_between (k : Kind) (hm : k = .log → Increasing L.log) (w : W) (a b : T w) (x z : ℝ) (hx : value k a = some x) (hz : value k b = some z) :
    ∃ (s : T w) (y : ℝ), BFun.hypotenuse.call L k w a b = .ok s ∧ value k s = some y ∧ |x| ≤ y ∧ |z| ≤ y ∧
      ∀ (t : T w) (u : ℝ), k = .lin → value k t = some u → |x| + |z| ≤ u → y ≤ u := by
  obtain ⟨r, -, g, v, -, b1, e, A, -, hg, -, eb, -, vb, -⟩ := arg_abs hL k hx
  obtain ⟨r', -, g', v', -, b1', e', A', -, hg', -, eb', -, vb', -⟩ := arg_abs hL k hz
  have hF := kF_std k w
  have nv : (kF k w).In |v| := ⟨A.isIn.1.abs, by rw [abs_abs]; exact A.isIn.2⟩
  have nv' : (kF k w).In |v'| := ⟨A'.isIn.1.abs, by rw [abs_abs]; exact A'.isIn.2⟩
  have hc := bcall_eq (u := .hypotenuse) e e'
  have key : ∃ q, (fixHypot r r' (L.hypot (kF k w) r r')).Is q ∧ (kF k w).In q ∧ |v| ≤ q ∧ |v'| ≤ q ∧ ∀ c, (kF k w).In c → |v| + |v'| ≤ c → q ≤ c := by
    rcases hI.hypot _ hF _ _ _ _ A.is A.isIn A'.is A'.isIn with h | ⟨q, iq, nq, h⟩
    · exfalso
      have h3 : (2 : ℚ) ^ (300 : ℤ) + (2 : ℚ) ^ (300 : ℤ) < (2 : ℚ) ^ ((kF k w).emax - 1) := by rcases hF with h | h <;> rw [h] <;> decide +kernel
      exact absurd (h.trans (add_le_add A.le A'.le)) (not_le.mpr h3)
    · have fx : fixHypot r r' (L.hypot (kF k w) r r') = L.hypot (kF k w) r r' := by unfold fixHypot; rw [iq.isinf]; rfl
      rw [fx]
      exact ⟨q, iq, nq, (h _ nv).1 (by push_cast; exact le_max_left _ _), (h _ nv').1 (by push_cast; exact le_max_right _ _),
        fun c hc h' => (h c hc).2 (by exact_mod_cast h')⟩
  obtain ⟨q, iq, nq, h1, h2, h3⟩ := key
  obtain ⟨s, y, es, hy, -⟩ := kFrom_unit hL k (w := w) iq nq
  refine ⟨s, y, hc.trans es, hy, kFrom_le hL k hm hg iq nv nq h1 eb es vb hy, kFrom_le hL k hm hg' iq nv' nq h2 eb' es vb' hy, ?_⟩
  rintro t u rfl ht h
  obtain ⟨f, -, c, e2, B, ef, -⟩ := arg_pair hL .lin ht
  refine kFrom_le hL .lin hm iq B.is nq B.isIn (h3 c B.isIn ?_) es ef hy ht
  have k1 := A.close
  have k2 := A'.close
  have k3 := B.close
  simp only [inTol, zero_mul, abs_nonpos_iff, sub_eq_zero] at k1 k2 k3
  rw [← k1, ← k2, ← k3] at h; exact_mod_cast h

end

/-- The hypotheses of this file hold for a library, in both families and for takums other than 0; the last ones give the takums 2 and 3 with
`3 ≤ 1 + 2` and `2 ≤ 3 - 1`. -/
example : ideal.Conforming ∧ ideal.Inequalities ∧ Increasing ideal.log ∧ Shrinks .tanh = true ∧ Enlarges .artanh = true ∧
    (∃ x, value .log (0x3456#16 : T .w16) = some x) ∧ (∃ x, value .lin (0xC456#16 : T .w16) = some x) :=
  ⟨ideal_conforming, ideal_inequalities, ideal_monotone.log, rfl, rfl, value_some (by decide), value_some (by decide)⟩

example : value .lin (0x4800#16 : T .w16) = some (2 : ℝ) ∧ value .lin (0x4A00#16 : T .w16) = some (3 : ℝ) ∧ (3 : ℝ) ≤ 1 + 2 ∧ (3 : ℝ) - 1 ≤ 2 := by
  refine ⟨?_, ?_, by norm_num, by norm_num⟩
  · rw [value_lin (t := (0x4800#16 : T .w16)) (q := 2) (by decide +kernel)]; norm_num
  · rw [value_lin (t := (0x4A00#16 : T .w16)) (q := 3) (by decide +kernel)]; norm_num

end Takum
