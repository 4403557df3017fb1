import Verif.Lemmas.ConvAcc
import Verif.Props.LinFloat

/-!
# Accuracy of the conversions to and from logarithmic takums (C69)
-/

namespace Takum
open Spec

/-- C69: a logarithmic takum made from a finite float is one of the two takums enclosing a number within a
relative error of `fromTol` of the float; in particular it is 0 for 0 only and saturates. -/
theorem float_to_log_accurate {L : Libm} (hL : L.Conforming) (A : Src) (w : W) (f : Fl) (z : ℚ) (hf : f.Is z) (h : A.fmt.In z) :
    ∃ (t : T w) (y : ℝ), logFrom L A w f = .ok t ∧ |y - z| ≤ fromTol A w * |(z : ℝ)| ∧ Faithful .log y t :=
  logFrom_acc hL A w hf h

/-- C69: the float made from a logarithmic takum is finite and within a relative error of `toTol` of the
number, for `double` and `long double`. -/
theorem log_to_float_accurate {L : Libm} (hL : L.Conforming) (A : Src) (hA : A ≠ .f32) (w : W) (t : T w) (x : ℝ)
    (hx : value .log t = some x) :
    ∃ (f : Fl) (v : ℚ), logTo L A w t = .ok f ∧ f.Is v ∧ A.fmt.In v ∧ |(v : ℝ) - x| ≤ toTol A w * |x| :=
  logTo_acc hL A w hx (fun h => absurd h hA)

/-- C69: the same for `float`, for numbers between `2^-100` and `2^100` (the type ends at `2^128`). -/
theorem log_to_float32_accurate {L : Libm} (hL : L.Conforming) (hF : L.AccurateF) (w : W) (t : T w) (x : ℝ)
    (hx : value .log t = some x) (hr : x = 0 ∨ ((2 : ℝ) ^ (-100 : ℤ) ≤ |x| ∧ |x| ≤ (2 : ℝ) ^ (100 : ℤ))) :
    ∃ (f : Fl) (v : ℚ), logTo L .f32 w t = .ok f ∧ f.Is v ∧ b32.In v ∧ |(v : ℝ) - x| ≤ 1 / 2 ^ 15 * |x| :=
  logTo_acc hL .f32 w hx (fun _ => ⟨hF, hr⟩)

theorem linFrom_acc (A : Src) (w : W) {f : Fl} {z : ℚ} (hf : f.Is z) (h : A.fmt.In z) :
    ∃ t : T w, linFrom A w f = .ok t ∧ Faithful .lin (z : ℝ) t := by
  by_cases hz : z = 0
  · subst hz
    rcases hf.cases with ⟨h0, _⟩ | ⟨_, s, rfl⟩
    · exact absurd rfl h0
    · exact ⟨_, linFrom_zero A w s, by push_cast; exact Faithful.zero _⟩
  · rw [hf.eq_num hz]
    obtain ⟨t, e, ht⟩ := lin_from_faithful A w z hz h
    exact ⟨t, e, ht.faithful (by exact_mod_cast hz)⟩

/-- C69: conversion between the two families. -/
theorem lin_from_log_accurate {L : Libm} (hL : L.Conforming) (a b : W) (t : T a) (x : ℝ) (hx : value .log t = some x) :
    ∃ (v : T b) (y : ℝ), linFromLog L a b t = .ok v ∧ |y - x| ≤ crossTol a b * |x| ∧ Faithful .lin y v := by
  unfold linFromLog crossTol
  by_cases h : a = .w64 ∨ b = .w64
  · rw [if_pos h, if_pos h]
    obtain ⟨f, v, e, i, n, c⟩ := log_to_float_accurate hL .ext (by simp) a t x hx
    obtain ⟨u, eu, fu⟩ := linFrom_acc .ext b i n
    refine ⟨u, v, ?_, c, fu⟩
    rw [show toExtended L a t = .ok f from e, ok_bind]; exact eu
  · rw [if_neg h, if_neg h]
    obtain ⟨f, v, e, i, n, c⟩ := log_to_float_accurate hL .f64 (by simp) a t x hx
    obtain ⟨u, eu, fu⟩ := linFrom_acc .f64 b i n
    refine ⟨u, v, ?_, c, fu⟩
    rw [show toFloat64 L a t = .ok f from e, ok_bind]; exact eu

/-- C69: conversion between the two families. -/
theorem log_from_lin_accurate {L : Libm} (hL : L.Conforming) (a b : W) (t : T a) (x : ℝ) (hx : value .lin t = some x) :
    ∃ (v : T b) (y : ℝ), logFromLin L a b t = .ok v ∧ |y - x| ≤ 1 / 2 ^ 54 * |x| ∧ Faithful .log y v := by
  obtain ⟨q, hq, rfl⟩ : ∃ q : ℚ, linVal t = some q ∧ (q : ℝ) = x := by
    change (linVal t).map _ = _ at hx; simpa using hx
  obtain ⟨⟨e1, i1⟩, h2⟩ := lin_to_exact a t
  have is : (exactFl (linVal t)).Is q := by
    rw [hq]; unfold exactFl; simp only
    split_ifs with h
    · rw [h]; exact Fl.Is.zero _
    · exact Fl.Is.num h
  unfold logFromLin
  by_cases h : a = .w64 ∨ b = .w64
  · rw [if_pos h, e1, ok_bind]
    obtain ⟨u, y, h3, h4, h5⟩ := float_to_log_accurate hL .ext b _ q is (i1 q hq)
    exact ⟨u, y, h3, h4, h5⟩
  · obtain ⟨e2, i2⟩ := h2 (fun h' => h (Or.inl h'))
    rw [if_neg h, e2, ok_bind]
    obtain ⟨u, y, h3, h4, h5⟩ := float_to_log_accurate hL .f64 b _ q is (i2 q hq)
    exact ⟨u, y, h3, h4, h5⟩

/-! ## The hypotheses can be met -/

theorem ideal_accurateF : ideal.AccurateF where
  pow x l q h1 h2 hx hl hq hb c1 c2 := by
    show ∃ z, idealPow b32 (.num x) l = .num z ∧ _
    rcases idealPow_is (F := b32) h1 hl with ⟨-, rfl, e⟩ | e
    · exact ⟨1, e, one_in (Or.inl rfl), by simp; norm_num⟩
    · set r : ℝ := (x : ℝ) ^ (q : ℝ) with hr
      have r0 : 0 < r := lt_of_lt_of_le (by positivity) c1
      obtain ⟨a, b⟩ := rq_real_between (F := b32) (by decide) (by decide) (by norm_num) c1 c2
      have h0 : 0 < b32.rq r := lt_of_lt_of_le (by positivity) a
      have hb' : |b32.rq r| < (2 : ℚ) ^ b32.emax := by
        rw [abs_of_pos h0]; exact lt_of_le_of_lt b (zpow_lt_zpow_right₀ (by norm_num) (by decide))
      refine ⟨_, e.trans ((rnd_is hb').eq_num h0.ne'), ⟨b32.rq_real_rep (by decide) r, hb'⟩, ?_⟩
      have := rq_real_err (F := b32) (x := r) (by
        rw [abs_of_pos r0]; exact le_trans (zpow_le_zpow_right₀ (by norm_num) (by decide)) c1)
      rw [abs_of_pos r0, show b32.prec = 24 from rfl] at this
      refine this.trans ?_
      rw [div_eq_mul_inv, mul_comm]
      exact mul_le_mul_of_nonneg_right (by norm_num) r0.le

example : ideal.Conforming ∧ ideal.AccurateF := ⟨ideal_conforming, ideal_accurateF⟩

/-- The number 3/2 as a 16-bit logarithmic takum. -/
example : ∃ (t : T .w16) (y : ℝ), logFrom ideal .f32 .w16 (.num (3 / 2)) = .ok t ∧ |y - 3 / 2| ≤ 1 / 2 ^ 43 * (3 / 2) ∧
    Faithful .log y t := by
  obtain ⟨t, y, h1, h2, h3⟩ := float_to_log_accurate ideal_conforming .f32 .w16 _ (3 / 2) (Fl.Is.num (by norm_num))
    ⟨⟨3, -1, by norm_num, by decide, by decide⟩, by decide +kernel⟩
  refine ⟨t, y, h1, ?_, h3⟩
  simp only [fromTol] at h2
  push_cast at h2
  rwa [abs_of_pos (by norm_num : (0 : ℝ) < 3 / 2)] at h2

/-- The number √e, the 16-bit takum 0x4800. -/
theorem value_sqrte : value .log (0x4800#16 : T .w16) = some (Real.sqrt (Real.exp 1)) := by
  show logVal _ = _
  unfold logVal
  rw [if_neg (by decide), if_neg (by decide), show ell (0x4800#16) = 1 by decide +kernel,
    show S (0x4800#16) = 0 by decide +kernel]
  norm_num

example : ∃ (f : Fl) (v : ℚ), logTo ideal .f32 .w16 (0x4800#16) = .ok f ∧ f.Is v ∧
    |(v : ℝ) - Real.sqrt (Real.exp 1)| ≤ 1 / 2 ^ 15 * |Real.sqrt (Real.exp 1)| := by
  have h1 : (1 : ℝ) ≤ Real.sqrt (Real.exp 1) := Real.one_le_sqrt.mpr (Real.one_le_exp (by norm_num))
  have h2 : Real.sqrt (Real.exp 1) ≤ 2 := by
    rw [Real.sqrt_le_left (by norm_num)]; have := Real.exp_one_lt_d9; linarith
  obtain ⟨f, v, a, b, -, c⟩ := log_to_float32_accurate ideal_conforming ideal_accurateF .w16 _ _ value_sqrte
    (Or.inr ⟨by rw [abs_of_nonneg (by linarith)]; refine le_trans ?_ h1; norm_num,
      by rw [abs_of_nonneg (by linarith)]; refine h2.trans ?_; norm_num⟩)
  exact ⟨f, v, a, b, c⟩

example : ∃ (v : T .w64) (y : ℝ), linFromLog ideal .w16 .w64 (0x4800#16) = .ok v ∧
    |y - Real.sqrt (Real.exp 1)| ≤ 1 / 2 ^ 56 * |Real.sqrt (Real.exp 1)| ∧ Faithful .lin y v := by
  obtain ⟨v, y, a, b, c⟩ := lin_from_log_accurate ideal_conforming .w16 .w64 _ _ value_sqrte
  rw [crossTol, if_pos (Or.inr rfl)] at b
  exact ⟨v, y, a, b, c⟩

end Takum
