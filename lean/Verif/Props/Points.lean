import Verif.Lemmas.Points
import Verif.Lemmas.IdealInv
import Verif.Props.LogRound

/-!
# C80: exact values

The values of `PointSpec.lean` (C99 Annex F) make the functions of takums exact at the points listed there.
-/

namespace Takum
open Spec

/-- C80: at the points of `UFun.exactAt` the result is the takum whose number is the exact value of the function. -/
theorem exact_points (L : Libm) (hL : L.Conforming) (hP : L.Points) (u : UFun) (k : Kind) (w : W) (a : T w) (x : ℚ)
    (hu : u.exactAt = some x) (ha : value k a = some (x : ℝ)) :
    ∃ r : T w, u.call L k w a = .ok r ∧ value k r = some (realFn u x) := by
  have main : ∀ f : Fl, kTo L k w a = .ok f → (u.ev L (kF k w) f).Is u.pointVal →
      ∃ r : T w, u.call L k w a = .ok r ∧ value k r = some (realFn u x) := by
    intro f e i
    rw [call_eq e, fix_point hu i, point_real hu]
    rcases i.cases with ⟨h0, e'⟩ | ⟨h0, s, e'⟩
    · have h1 : u.pointVal = 1 := by revert h0; cases u <;> simp [UFun.pointVal]
      rw [e', h1]
      exact ⟨_, kFrom_one hL k w, by rw [value_one]; simp⟩
    · rw [e', h0]
      exact ⟨_, kFrom_zero L k w s, by rw [value_zero]; simp⟩
  have hx : x = 0 ∨ x = 1 := by
    revert hu; cases u <;> simp [UFun.exactAt] <;> intro h <;> simp [h.symm]
  obtain ⟨p0, p1⟩ := ev_point hL.specials hP (kF_std k w) (u := u)
  rcases hx with rfl | rfl
  · have e : a = 0#w.n := value_inj (k := k) ha (by rw [value_zero]; simp)
    exact main _ (by rw [e]; exact kTo_zero L hL k w) (p0 hu)
  · have e : a = ONE w := value_inj (k := k) ha (by rw [value_one]; simp)
    exact main _ (by rw [e]; exact kTo_one hL k w) (p1 hu)

/-- 36 functions have such a point; ln(1) = 0 and cosh(0) = 1 for instance. -/
example : ideal.Conforming ∧ ideal.Points ∧ UFun.ln.exactAt = some 1 ∧ UFun.cosh.exactAt = some 0 ∧
    (∀ k w, value k (ONE w) = some ((1 : ℚ) : ℝ)) ∧ realFn .ln 1 = 0 ∧ realFn .cosh 0 = 1 :=
  ⟨ideal_conforming, ideal_points, rfl, rfl, fun k w => by rw [value_one]; simp, Real.log_one, Real.cosh_zero⟩

/-- The argument comes back from its float. -/
theorem kTo_kFrom {L : Libm} (hL : L.Conforming) (k : Kind) (w : W) {t : T w} {f : Fl} (e : kTo L k w t = .ok f) : kFrom L k w f = .ok t := by
  cases k
  · obtain ⟨g, e1, e2⟩ := log_round_trip L hL.powers hL.accurate .ext w (Or.inl rfl) t
    have : f = g := by rw [show logTo L .ext w t = .ok f from e] at e1; injection e1
    rw [this]; exact e2
  · by_cases h : t = nar w.n
    · subst h
      rw [kTo_nar L hL .lin w] at e
      injection e with e
      rw [← e]; exact kFrom_nonfinite L .lin w rfl
    · obtain ⟨o, ho, io⟩ := linTo_src w h
      have : f = o := by rw [show linTo w.src w t = .ok f from e] at ho; injection ho
      rw [this]
      show linFrom w.src w o = _
      rw [linFrom_enc io qv_src, linEnc_qv h]

/-- C80: the hypotenuse with one side zero is the absolute value of the other. -/
theorem hypotenuse_zero (L : Libm) (hL : L.Conforming) (hP : L.Points) (k : Kind) (w : W) (a : T w) (x : ℝ) (ha : value k a = some x) :
    ∃ r : T w, BFun.hypotenuse.call L k w a 0#w.n = .ok r ∧ BFun.hypotenuse.call L k w 0#w.n a = .ok r ∧ value k r = some |x| := by
  have h5 : 5 ≤ w.n := by have := w.n_pos; omega
  have z := kTo_zero L hL k w
  have hF := kF_std k w
  have fx : ∀ (x y : Fl) (q : ℚ), BFun.hypotenuse.fix x y (.num q) = .num q := fun x y q => rfl
  have main : ∀ (v : ℚ) (r : T w), v ≠ 0 → kTo L k w a = .ok (.num v) → (Fl.num v).In (kF k w) → kTo L k w r = .ok (.num |v|) → value k r = some |x| →
      ∃ r : T w, BFun.hypotenuse.call L k w a 0#w.n = .ok r ∧ BFun.hypotenuse.call L k w 0#w.n a = .ok r ∧ value k r = some |x| := by
    intro v r h0 e hi er hv
    refine ⟨r, ?_, ?_, hv⟩
    · rw [bcall_eq e z]
      have e1 : BFun.hypotenuse.ev L (kF k w) (.num v) (.zero false) = .num |v| := hP.hypot _ hF _ hi false
      rw [e1, fx]; exact kTo_kFrom hL k w er
    · rw [bcall_eq z e]
      have e1 : BFun.hypotenuse.ev L (kF k w) (.zero false) (.num v) = .num |v| :=
        (hP.hypot_comm _ hF _ _).trans (hP.hypot _ hF _ hi false)
      rw [e1, fx]; exact kTo_kFrom hL k w er
  obtain ⟨r', v', e', arg⟩ := kTo_acc hL k w ha
  rcases value_cases ha with ⟨rfl, rfl⟩ | ⟨hr, -, -, hp, -⟩ | ⟨hr, -, -, hn, -⟩
  · refine ⟨0#w.n, ?_, ?_, by rw [value_zero]; simp⟩ <;>
    · rw [bcall_eq z z]
      have e1 : BFun.hypotenuse.ev L (kF k w) (.zero false) (.zero false) = .zero false := hP.hypot _ hF (.zero false) trivial false
      rw [e1]; exact kFrom_zero L k w false
  · obtain ⟨v, h0, e1, e2, hi, -⟩ := kTo_neg hL k w hr
    have hx : 0 < x := lt_of_lt_of_le (by positivity) hp
    have hv : 0 < v := by
      rw [e1] at e'; injection e' with e'
      have hvv : v = v' := by
        have h := arg.is; rw [← e'] at h
        exact (Fl.Is.num h0).unique h
      rw [hvv] at h0 ⊢
      rcases lt_trichotomy v' 0 with h | h | h
      · exact absurd (arg.neg.mpr h) (not_lt.mpr hx.le)
      · exact absurd h h0
      · exact h
    exact main v a h0 e1 hi (by rw [abs_of_pos hv]; exact e1) (by rw [abs_of_pos hx]; exact ha)
  · obtain ⟨v, h0, e1, e2, hi, -⟩ := kTo_neg hL k w hr
    have hx : x < 0 := lt_of_le_of_lt hn (neg_neg_of_pos (by positivity))
    have hv : v < 0 := by
      rw [e1] at e'; injection e' with e'
      have hvv : v = v' := by
        have h := arg.is; rw [← e'] at h
        exact (Fl.Is.num h0).unique h
      rw [hvv]; exact arg.neg.mp hx
    exact main v (-a) h0 e1 hi (by rw [abs_of_neg hv]; exact e2) (by rw [value_neg h5, ha, abs_of_neg hx]; rfl)

/-- C80: the hypotenuse does not depend on the order of the sides. -/
theorem hypotenuse_comm (L : Libm) (hL : L.Conforming) (hP : L.Points) (k : Kind) (w : W) (a b : T w) :
    BFun.hypotenuse.call L k w a b = BFun.hypotenuse.call L k w b a := by
  have tot : ∀ t : T w, ∃ f, kTo L k w t = .ok f := by
    intro t
    by_cases h : t = nar w.n
    · exact ⟨_, by rw [h]; exact kTo_nar L hL k w⟩
    · obtain ⟨x, hx⟩ := value_some (k := k) h
      obtain ⟨r, v, e, -⟩ := kTo_acc hL k w hx
      exact ⟨r, e⟩
  obtain ⟨f, e⟩ := tot a
  obtain ⟨g, e'⟩ := tot b
  rw [bcall_eq e e', bcall_eq e' e]
  have : BFun.hypotenuse.ev L (kF k w) f g = BFun.hypotenuse.ev L (kF k w) g f := hP.hypot_comm _ (kF_std k w) f g
  rw [this]; rfl

/-- C80: the angle of a point on the positive real axis is 0. -/
theorem arctan2_axis (L : Libm) (hL : L.Conforming) (hP : L.Points) (k : Kind) (w : W) (a : T w) (x : ℝ) (ha : value k a = some x) (hx : 0 < x) :
    BFun.arctan2.call L k w 0#w.n a = .ok 0#w.n ∧ BFun.arctan2_over_pi.call L k w 0#w.n a = .ok 0#w.n := by
  have z := kTo_zero L hL k w
  obtain ⟨r, v, e, arg⟩ := kTo_acc hL k w ha
  have h0 : v ≠ 0 := fun h => hx.ne' (arg.zero.mpr h)
  have hv : 0 < v := lt_of_le_of_ne (not_lt.mp fun h => absurd (arg.neg.mpr h) (not_lt.mpr hx.le)) h0.symm
  rw [arg.is.eq_num h0] at e
  constructor
  · rw [bcall_eq z e]
    have e1 : BFun.arctan2.ev L (kF k w) (.zero false) (.num v) = .zero false := hP.atan2 _ (kF_std k w) v false hv
    rw [e1]; exact kFrom_zero L k w false
  · rw [bcall_eq z e]
    have e1 : BFun.arctan2_over_pi.ev L (kF k w) (.zero false) (.num v) = .zero false := by
      show Fl.cast (kF k w) (Fl.div x80 (L.atan2 x80 (.zero false) (.num v)) PI) = _
      rw [hP.atan2 _ (Or.inr rfl) v false hv]
      have : Fl.div x80 (.zero false) PI = .zero false := by decide +kernel
      rw [this]; rfl
    rw [e1]; exact kFrom_zero L k w false

example : ideal.Conforming ∧ ideal.Points ∧ (∀ k w, value k (ONE w) = some 1) ∧ (0 : ℝ) < 1 :=
  ⟨ideal_conforming, ideal_points, value_one, one_pos⟩

end Takum
