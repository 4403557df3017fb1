import Verif.Lemmas.ElemAll
import Verif.Lemmas.IdealAcc

/-!
# Accuracy of the elementary functions (C66)
-/

namespace Takum
open Spec

/-- C66: the result of every unary elementary function is one of the two takums enclosing a number within a
relative error of `resTol` of the exact value of the function at a point within a relative error of `argTol`
of the argument; it is NaR if the function is not defined at that point. -/
theorem elementary_accurate {L : Libm} (hL : L.Conforming) (hA : L.Approximates) (u : UFun) (k : Kind) (w : W) (t : T w) (x : ℝ)
    (hx : value k t = some x) :
    ∃ (x' : ℝ) (v : T w), u.call L k w t = .ok v ∧ |x' - x| ≤ argTol k u * |x| ∧
      ((Undefined u x' ∧ v = nar w.n) ∨
       (¬Undefined u x' ∧ ∃ y : ℝ, |y - realFn u x'| ≤ resTol k w u * errScale u (realFn u x') ∧ Faithful k y v)) := by
  obtain ⟨r, v, e, ha⟩ := kTo_acc hL k w hx
  obtain ⟨x', h1, h2⟩ := good_all hL hA u ha
  have h3 := argTol_ge k u h1 ha.close
  rw [call_eq e]
  rcases h2 with ⟨h4, h5⟩ | ⟨h4, h5⟩
  · exact ⟨x', nar w.n, kFrom_bad h5, h3, Or.inl ⟨h4, rfl⟩⟩
  · obtain ⟨p0, p1⟩ := resPert_range (kF_std k w) u
    obtain ⟨t', y, h6, h7, h8⟩ := h5.out hL p0 p1 (abs_le_errScale u _)
    refine ⟨x', t', h6, h3, Or.inr ⟨h4, y, h7.trans ?_, h8⟩⟩
    exact mul_le_mul_of_nonneg_right (resTol_ge k w u) ((abs_nonneg _).trans (abs_le_errScale u _))

/-- Without an error of the argument: linear takums and the functions that neither multiply with `π` nor
divide first. -/
theorem elementary_accurate_lin {L : Libm} (hL : L.Conforming) (hA : L.Approximates) (u : UFun) (hu : argTol .lin u = 0) (w : W) (t : T w) (x : ℝ)
    (hx : value .lin t = some x) :
    ∃ v : T w, u.call L .lin w t = .ok v ∧ (v = nar w.n ↔ Undefined u x) ∧
      (¬Undefined u x → ∃ y : ℝ, |y - realFn u x| ≤ resTol .lin w u * errScale u (realFn u x) ∧ Faithful .lin y v) := by
  obtain ⟨x', v, h1, h2, h3⟩ := elementary_accurate hL hA u .lin w t x hx
  rw [hu, zero_mul] at h2
  have : x' = x := by have := abs_nonpos_iff.mp h2; linarith
  subst this
  refine ⟨v, h1, ?_, ?_⟩
  · rcases h3 with h3 | ⟨h3, y, -, h4⟩
    · exact iff_of_true h3.2 h3.1
    · exact iff_of_false h4.1 h3
  · intro h
    rcases h3 with h3 | h3
    · exact absurd h3.1 h
    · exact h3.2

/-- The tangent and the secant are never NaR for a takum, the cosecant and the cotangent only for 0. -/
theorem trig_nar {L : Libm} (hL : L.Conforming) (hA : L.Approximates) (k : Kind) (w : W) (t : T w) (ht : t ≠ nar w.n) :
    (∀ u, u = .tan ∨ u = .sec → ∃ v, UFun.call L u k w t = .ok v ∧ v ≠ nar w.n) ∧
    (∀ u, u = .csc ∨ u = .cot → ∃ v, UFun.call L u k w t = .ok v ∧ (v = nar w.n ↔ t = 0#w.n)) := by
  obtain ⟨x, hx⟩ : ∃ x, value k t = some x := by
    have := (value_none (k := k)).not.mpr ht
    exact Option.ne_none_iff_exists'.mp this
  obtain ⟨r, v, e, ha⟩ := kTo_acc hL k w hx
  have hF := kF_std k w
  have tz : v = 0 ↔ t = 0#w.n := by
    rw [← ha.zero]
    constructor
    · intro h0
      rcases value_cases hx with h | ⟨-, -, -, h, -⟩ | ⟨-, -, -, h, -⟩
      · exact h.1
      · rw [h0] at h; exact absurd h (not_le.mpr (by positivity))
      · have : (0 : ℝ) < 2 ^ (-256 : ℤ) := by positivity
        linarith
    · rintro rfl
      rw [value_zero] at hx; exact (Option.some.inj hx).symm
  have key : ∀ (u : UFun), Good L u (kF k w) r v → argPert u = 0 → ∃ z, u.call L k w t = .ok z ∧ (z = nar w.n ↔ Undefined u (v : ℝ)) := by
    intro u ⟨x', h1, h2⟩ hp
    rw [hp, zero_mul] at h1
    have : x' = v := by have := abs_nonpos_iff.mp h1; linarith
    subst this
    rw [call_eq e]
    rcases h2 with ⟨h4, h5⟩ | ⟨h4, h5⟩
    · exact ⟨nar w.n, kFrom_bad h5, iff_of_true rfl h4⟩
    · obtain ⟨p0, p1⟩ := resPert_range (kF_std k w) u
      obtain ⟨t', y, h6, h7, h8⟩ := h5.out hL p0 p1 (abs_le_errScale u _)
      exact ⟨t', h6, iff_of_false h8.1 h4⟩
  have tf := ha.toArg.tfl hF
  have sn : Real.sin v = 0 ↔ v = 0 := ⟨fun h => by_contra fun h0 => sin_ne tf h0 h, fun h => by rw [h]; simp⟩
  constructor
  · rintro u hu
    obtain ⟨z, h1, h2⟩ := key u (good_all hL hA u ha) (by rcases hu with rfl | rfl <;> rfl)
    refine ⟨z, h1, fun h => cos_ne tf ?_⟩
    have := h2.mp h
    rcases hu with rfl | rfl <;> exact this
  · rintro u hu
    obtain ⟨z, h1, h2⟩ := key u (good_all hL hA u ha) (by rcases hu with rfl | rfl <;> rfl)
    refine ⟨z, h1, h2.trans (Iff.trans ?_ (sn.trans tz))⟩
    rcases hu with rfl | rfl <;> exact Iff.rfl

/-! ## Examples -/

/-- A takum is the only faithful rounding of its own value. -/
theorem faithful_exact {w : W} {k : Kind} {s t : T w} {y : ℝ} (h : value k s = some y) (hf : Faithful k y t) : t = s := by
  obtain ⟨a, b⟩ := hf.2.2 s y h
  exact BitVec.toInt_inj.mp (le_antisymm (b le_rfl) (a le_rfl))

example : ideal.Conforming ∧ ideal.Approximates := ⟨ideal_conforming, ideal_approximates⟩

/-- The value of the 16-bit linear takum 0x4400, one and a half. -/
theorem value_three_halves16 : value .lin (0x4400#16) = some (3 / 2) := by
  have := value_lin (show linVal (0x4400#16) = some (3 / 2) by decide +kernel)
  rw [this]; norm_num

/-- The logarithm of one and a half is enclosed to within `2^-50`. -/
example : ∃ v : T .w16, UFun.ln.call ideal .lin .w16 (0x4400#16) = .ok v ∧ v ≠ nar 16 ∧
    ∃ y : ℝ, |y - Real.log (3 / 2)| ≤ 1 / 2 ^ 50 * |Real.log (3 / 2)| ∧ Faithful .lin y v := by
  obtain ⟨v, h1, h2, h3⟩ := elementary_accurate_lin ideal_conforming ideal_approximates .ln (by simp [argTol]) .w16 (0x4400#16) _ value_three_halves16
  have hU : ¬Undefined .ln (3 / 2 : ℝ) := by show ¬(3 / 2 : ℝ) ≤ 0; norm_num
  exact ⟨v, h1, fun h => hU (h2.mp h), h3 hU⟩

/-- The logarithm of minus one and a half is NaR. -/
example : UFun.ln.call ideal .lin .w16 (-0x4400#16) = .ok (nar 16) := by
  have hv : value .lin (-0x4400#16) = some (-3 / 2) := by
    have := value_lin (show linVal (-0x4400#16) = some (-3 / 2) by decide +kernel)
    rw [this]; norm_num
  obtain ⟨v, h1, h2, -⟩ := elementary_accurate_lin ideal_conforming ideal_approximates .ln (by simp [argTol]) .w16 (-0x4400#16) _ hv
  have : v = nar W.w16.n := h2.mpr (by show (-3 / 2 : ℝ) ≤ 0; norm_num)
  rw [h1, this]

/-- The general theorem at a logarithmic takum: the sine of `π √e^(1/2)`. -/
example : ∃ (x' : ℝ) (v : T .w64), UFun.sin_pi_times.call ideal .log .w64 (0x4400000000000000#64) = .ok v ∧
    |x' - Real.sqrt (Real.exp 1) ^ (1 / 2 : ℝ)| ≤ (1 / 2 ^ 56 + 1 / 2 ^ 62) * |Real.sqrt (Real.exp 1) ^ (1 / 2 : ℝ)| ∧
    ∃ y, |y - Real.sin (Real.pi * x')| ≤ 1 / 2 ^ 54 * |Real.sin (Real.pi * x')| ∧ Faithful .log y v := by
  have hv : value .log (0x4400000000000000#64) = some (Real.sqrt (Real.exp 1) ^ (1 / 2 : ℝ)) := by
    show logVal _ = _
    unfold logVal
    rw [if_neg (by decide), if_neg (by decide), show ell (0x4400000000000000#64) = 1 / 2 by decide +kernel,
      show S (0x4400000000000000#64) = 0 by decide +kernel]
    norm_num
  obtain ⟨x', v, h1, h2, h3⟩ := elementary_accurate ideal_conforming ideal_approximates .sin_pi_times .log .w64 _ _ hv
  rcases h3 with h3 | h3
  · exact absurd h3.1 id
  · exact ⟨x', v, h1, h2, h3.2⟩

/-- The tangent of one and a half is a number, the cosecant of zero is not. -/
example : (∃ v, UFun.tan.call ideal .lin .w16 (0x4400#16) = .ok v ∧ v ≠ nar 16) ∧ UFun.csc.call ideal .log .w16 (0#16) = .ok (nar 16) := by
  constructor
  · exact (trig_nar ideal_conforming ideal_approximates .lin .w16 (0x4400#16) (by decide)).1 .tan (Or.inl rfl)
  · obtain ⟨v, h1, h2⟩ := (trig_nar ideal_conforming ideal_approximates .log .w16 (0#16) (by decide)).2 .csc (Or.inl rfl)
    have : v = nar W.w16.n := h2.mpr rfl
    rw [h1, this]

end Takum
