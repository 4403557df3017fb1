import Verif.Model.Elementary
import Verif.Lemmas.LinArith
import Verif.Lemmas.LogConv
import Verif.Lemmas.RoundTrip

/-! # The wrappers around the elementary functions -/

namespace Takum
open Spec

theorem unaryLog_eq {L : Libm} {fn : Fl → Fl} {fix : Fl → Fl → Fl} {w : W} {t : T w} {r : Fl}
    (h : logTo L .ext w t = .ok r) : unaryLog L fn fix w t = logFrom L .ext w (fix r (fn r)) := by
  unfold unaryLog
  rw [show toExtended L w t = .ok r from h]; rfl

theorem binaryLog_eq {L : Libm} {fn : Fl → Fl → Fl} {fix : Fl → Fl → Fl → Fl} {w : W} {a b : T w} {x y : Fl}
    (h : logTo L .ext w a = .ok x) (h' : logTo L .ext w b = .ok y) :
    binaryLog L fn fix w a b = logFrom L .ext w (fix x y (fn x y)) := by
  unfold binaryLog
  rw [show toExtended L w a = .ok x from h, show toExtended L w b = .ok y from h']; rfl

theorem toL_ok (w : W) (t : T w) : ∃ l, toL w t = .ok l := by
  by_cases h1 : t = nar w.n
  · subst h1; exact ⟨_, toL_nar w⟩
  by_cases h0 : t = 0#w.n
  · subst h0; exact ⟨_, toL_zero w⟩
  obtain ⟨l, e, -⟩ := toL_regular w t ⟨h0, h1⟩
  exact ⟨l, e⟩

theorem logTo_ok (L : Libm) (A : Src) (w : W) (t : T w) : ∃ f, logTo L A w t = .ok f := by
  obtain ⟨l, e⟩ := toL_ok w t
  rcases logTo_eq L A w e with h | ⟨-, h⟩ <;> exact ⟨_, h⟩

/-- The `long double` made from a logarithmic takum. -/
theorem logTo_ext {L : Libm} (hL : L.Powers) (w : W) {t : T w} (h : t ≠ nar w.n) :
    ∃ (f : Fl) (v : ℚ), logTo L .ext w t = .ok f ∧ f.Is v ∧ x80.In v ∧ (v = 0 ↔ t = 0#w.n) ∧ (v < 0 ↔ t.toInt < 0) ∧
      (t = 0#w.n → f = .zero false) ∧ (t ≠ 0#w.n → (2 : ℚ) ^ (-300 : ℤ) ≤ |v|) := by
  have h8 := w.n_pos
  by_cases h0 : t = 0#w.n
  · subst h0
    exact ⟨_, 0, logTo_zero hL .ext w, Fl.Is.zero _, ⟨Fmt.Rep.zero _, by rw [abs_zero]; positivity⟩, by simp, by simp,
      fun _ => rfl, fun h => absurd rfl h⟩
  have rt : Regular t := ⟨h0, h⟩
  obtain ⟨l, f, z, -, -, -, -, -, -, e, i, n, hz⟩ := logTo_finite hL .ext (by decide) w rt
  have hz0 : 0 < Src.ext.fmt.rq z := lt_of_lt_of_le (by positivity) hz
  refine ⟨f, _, e, i, n, ?_, ?_, fun h' => absurd h' h0, fun _ => ?_⟩
  · simp only [h0, iff_false]
    exact mul_ne_zero (by cases t.msb <;> simp [sg]) hz0.ne'
  · rw [toInt_neg_iff (by omega) rt]
    cases t.msb
    · simp [sg]; exact hz0.le
    · simp [sg]; exact hz0
  · rw [sg_abs, abs_of_pos hz0]; exact hz

theorem fix_nan (u : UFun) : u.fix .nan .nan = .nan := by cases u <;> rfl

theorem evl_nan {L : Libm} (hL : L.NaNs) (u : UFun) : u.evl L .nan = .nan := by
  have f1 : ∀ y, Fl.fmod .nan y = .nan := fun y => rfl
  have hs : cscl L .nan = .nan := by unfold cscl; rw [hL.sin]; rfl
  have hc : secl L .nan = .nan := by unfold secl; rw [hL.cos]; rfl
  have ht : cotl L .nan = .nan := by unfold cotl; rw [hL.tan]; rfl
  have d1 : Fl.div x80 (.num 1) .nan = .nan := rfl
  have m1 : Fl.mul x80 PI .nan = .nan := rfl
  have c1 : Fl.cast b64 .nan = .nan := rfl
  have p1 : L.pow x80 (.num 10) .nan = .nan := hL.pow_right _ _ (by decide)
  cases u <;> simp only [UFun.evl, hL.log, hL.log1p, hL.log2, hL.log10, hL.exp, hL.exp2, hL.expm1, hL.sin, hL.cos, hL.tan,
    hL.asin, hL.acos, hL.atan, hL.sinh, hL.cosh, hL.tanh, hL.asinh, hL.acosh, hL.atanh, hs, hc, ht, d1, c1, p1]
  all_goals first
    | rfl
    | exact hL.sin _
    | exact hL.cos _
    | exact hL.tan _
    | exact hs
    | exact hc
    | exact ht
    | (show Fl.add _ (L.atan x80 .nan) _ = _; rw [hL.atan]; rfl)
    | (show Fl.add _ (Fl.div _ (L.atan x80 .nan) _) _ = _; rw [hL.atan]; rfl)

theorem ev_nan {L : Libm} (hL : L.NaNs) (u : UFun) (F : Fmt) : u.ev L F .nan = .nan := by
  unfold UFun.ev
  split_ifs
  · have := evl_nan hL u
    cases u <;> simp only [UFun.evd, hL.log, hL.log1p, hL.log2, hL.log10, hL.exp, hL.exp2, hL.expm1, hL.sin, hL.cos, hL.tan,
      hL.asin, hL.acos, hL.atan, hL.sinh, hL.cosh, hL.tanh, hL.asinh, hL.acosh, hL.atanh, this] <;> rfl
  · exact evl_nan hL u

end Takum
