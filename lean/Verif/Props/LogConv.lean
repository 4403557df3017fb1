import Verif.Lemmas.LogConv
import Verif.Lemmas.Ideal

/-!
# Conversions between floats and logarithmic takums (C46, C48, C49)

`logTo L A w`, `logFrom L A w` are the twelve functions `takumN_to_X` and the twelve functions
`takumN_from_X` with the math library `L`.
-/

namespace Takum
open Spec

/-- C46: for every library whose logarithm of a positive number is finite, conversion from a float
returns 0 exactly for zero, NaR exactly for NaN and infinities, and a takum of the same sign
otherwise. -/
theorem log_from_total (L : Libm) (hL : L.Logs) (A : Src) (w : W) (f : Fl) (hf : f.In A.fmt) :
    ∃ t : T w, logFrom L A w f = .ok t ∧ (t = 0#w.n ↔ ∃ s, f = .zero s) ∧ (t = nar w.n ↔ f.isfinite = false) ∧
      (f.isfinite = true → (∀ s, f ≠ .zero s) → (t.toInt < 0 ↔ f.sgn = true)) := by
  have h8 := w.n_pos
  cases f with
  | nan =>
    exact ⟨_, logFrom_nonfinite L A w rfl, by simp [nar_ne_zero (by omega : 1 ≤ w.n)], by simp [Fl.isfinite], by simp [Fl.isfinite]⟩
  | inf s =>
    exact ⟨_, logFrom_nonfinite L A w rfl, by simp [nar_ne_zero (by omega : 1 ≤ w.n)], by simp [Fl.isfinite], by simp [Fl.isfinite]⟩
  | zero s =>
    refine ⟨_, logFrom_zero L A w s, by simp, ?_, by simp⟩
    simp only [Fl.isfinite, Bool.true_eq_false, iff_false]
    exact (nar_ne_zero (by omega)).symm
  | num q =>
    obtain ⟨t, e, rt, st⟩ := logFrom_regular hL A w (Fl.Is.num hf.1) hf.1 hf.2
    refine ⟨t, e, by simp [rt.1], by simp [rt.2, Fl.isfinite], fun _ _ => ?_⟩
    rw [toInt_neg_iff (by omega) rt, st]; rfl

/-- A library meeting the hypothesis, and an argument (the smallest positive `long double`, far
below the smallest 8-bit takum). -/
example : ideal.Logs ∧ (Fl.num ((1 : ℚ) / 2 ^ 16445)).In x80 := by
  refine ⟨ideal_logs, by positivity, ⟨⟨1, -16445, ?_, by decide, by decide⟩, ?_⟩⟩ <;> decide +kernel

/-- C48: 0 becomes `+0`, NaR becomes NaN, every other takum a float of the same sign that is not NaN,
and, in `double` and `long double`, a finite non-zero number. -/
theorem log_to_total (L : Libm) (hL : L.Powers) (A : Src) (w : W) (t : T w) :
    ∃ f : Fl, logTo L A w t = .ok f ∧ (t = 0#w.n → f = .zero false) ∧ (t = nar w.n ↔ f = .nan) ∧
      (t ≠ 0#w.n → t ≠ nar w.n → (f.sgn = true ↔ t.toInt < 0) ∧
        (A ≠ .f32 → ∃ v, f = .num v ∧ v ≠ 0 ∧ A.fmt.In v)) := by
  have h8 := w.n_pos
  have hne : nar w.n ≠ 0#w.n := nar_ne_zero (by omega)
  by_cases h1 : t = nar w.n
  · subst h1
    exact ⟨.nan, logTo_nar hL.nan A w, fun h => absurd h hne, by simp, fun _ h => absurd rfl h⟩
  by_cases h0 : t = 0#w.n
  · subst h0
    exact ⟨_, logTo_zero hL A w, fun _ => rfl, by simp [hne.symm], fun h => absurd rfl h⟩
  have rt : Regular t := ⟨h0, h1⟩
  obtain ⟨f, e, hn, hs⟩ := logTo_sign hL A w rt
  refine ⟨f, e, fun h => absurd h h0, ⟨fun h => absurd h h1, fun h => by simp [h, Fl.isnan] at hn⟩, fun _ _ => ⟨?_, fun hA => ?_⟩⟩
  · rw [toInt_neg_iff (by omega) rt, hs]
  · obtain ⟨l, f', z, -, -, -, -, -, -, e', i', n', hz⟩ := logTo_finite hL A hA w rt
    rw [e] at e'; obtain rfl := Except.ok.inj e'
    have hv : sg t.msb * A.fmt.rq z ≠ 0 := by
      have : 0 < A.fmt.rq z := lt_of_lt_of_le (by positivity) hz
      have hsg : sg t.msb ≠ 0 := by cases t.msb <;> simp [sg]
      exact mul_ne_zero hsg this.ne'
    exact ⟨_, i'.eq_num hv, hv, n'⟩

example : ideal.Powers ∧ (0x8000000000000001#64 : T .w64) ≠ 0#64 ∧ (0x8000000000000001#64 : T .w64) ≠ nar 64 ∧
    (0x8000000000000001#64 : T .w64).toInt < 0 := ⟨ideal_powers, by decide⟩

/-- C49: crossing from the logarithmic to the linear format of any width keeps NaR, 0 and the sign. -/
theorem lin_from_log (L : Libm) (hL : L.Powers) (a b : W) (t : T a) :
    ∃ v : T b, linFromLog L a b t = .ok v ∧ (v = 0#b.n ↔ t = 0#a.n) ∧ (v = nar b.n ↔ t = nar a.n) ∧
      (v.toInt < 0 ↔ t.toInt < 0) := by
  have ha := a.n_pos
  have hb := b.n_pos
  obtain ⟨A, hA, hA'⟩ : ∃ A : Src, A ≠ .f32 ∧ linFromLog L a b t = (do linFrom A b (← logTo L A a t)) := by
    by_cases h : a = .w64 ∨ b = .w64
    · exact ⟨.ext, by decide, by unfold linFromLog; rw [if_pos h]; rfl⟩
    · exact ⟨.f64, by decide, by unfold linFromLog; rw [if_neg h]; rfl⟩
  have hna : nar a.n ≠ 0#a.n := nar_ne_zero (by omega)
  have hnb : nar b.n ≠ 0#b.n := nar_ne_zero (by omega)
  have hneg : ∀ n : ℕ, 1 ≤ n → (nar n).toInt < 0 := fun n hn => by
    rw [isNeg_iff]; exact nar_msb hn
  rw [hA']
  by_cases h1 : t = nar a.n
  · subst h1
    refine ⟨nar b.n, by rw [logTo_nar hL.nan, ok_bind, linFrom_nan], by simp [hna, hnb], by simp, ?_⟩
    simp [hneg a.n (by omega), hneg b.n (by omega)]
  by_cases h0 : t = 0#a.n
  · subst h0
    exact ⟨0#b.n, by rw [logTo_zero hL, ok_bind, linFrom_zero], by simp, by simp [hna.symm, hnb.symm], by simp⟩
  have rt : Regular t := ⟨h0, h1⟩
  obtain ⟨l, f, z, -, -, -, -, -, -, e, i, n, hz⟩ := logTo_finite hL A hA a rt
  have hz0 : 0 < A.fmt.rq z := lt_of_lt_of_le (by positivity) hz
  obtain ⟨v, e', n1, -, n2, n3⟩ := linFrom_finite A b i n
  have z0 : (0#b.n).toInt = 0 := by simp
  rw [e, ok_bind]
  refine ⟨v, e', ?_, by simp [n1, h1], ?_⟩
  · simp only [h0, iff_false]
    rintro rfl
    cases hs : t.msb
    · have := n3 (by rw [hs]; simpa [sg] using hz0); omega
    · have := n2 (by rw [hs]; simp [sg]; exact hz0); omega
  · rw [toInt_neg_iff (by omega) rt]
    cases hs : t.msb
    · have := n3 (by rw [hs]; simpa [sg] using hz0); simp; omega
    · have := n2 (by rw [hs]; simp [sg]; exact hz0); simpa using this

example : ideal.Powers ∧ (1#64 : T .w64) ≠ 0#64 ∧ (1#64 : T .w64) ≠ nar 64 := ⟨ideal_powers, by decide⟩

/-- C49, the other direction. -/
theorem log_from_lin (L : Libm) (hL : L.Logs) (a b : W) (t : T a) :
    ∃ v : T b, logFromLin L a b t = .ok v ∧ (v = 0#b.n ↔ t = 0#a.n) ∧ (v = nar b.n ↔ t = nar a.n) ∧
      (v.toInt < 0 ↔ t.toInt < 0) := by
  have ha := a.n_pos
  have hb := b.n_pos
  have hna : nar a.n ≠ 0#a.n := nar_ne_zero (by omega)
  have hnb : nar b.n ≠ 0#b.n := nar_ne_zero (by omega)
  have hneg : ∀ n : ℕ, 1 ≤ n → (nar n).toInt < 0 := fun n hn => by
    rw [isNeg_iff]; exact nar_msb hn
  have h64 : ¬ (a = .w64 ∨ b = .w64) → a ≠ .w64 := fun h h' => h (Or.inl h')
  by_cases h1 : t = nar a.n
  · subst h1
    refine ⟨nar b.n, ?_, by simp [hna, hnb], by simp, by simp [hneg a.n (by omega), hneg b.n (by omega)]⟩
    unfold logFromLin
    split_ifs
    · rw [linToExtended_nar, ok_bind]; exact logFrom_nonfinite L .ext b rfl
    · rw [linToFloat64_nar, ok_bind]; exact logFrom_nonfinite L .f64 b rfl
  by_cases h0 : t = 0#a.n
  · subst h0
    refine ⟨0#b.n, ?_, by simp, by simp [hna.symm, hnb.symm], by simp⟩
    unfold logFromLin
    split_ifs
    · rw [linToExtended_zero, ok_bind]; exact logFrom_zero L .ext b false
    · rw [linToFloat64_zero, ok_bind]; exact logFrom_zero L .f64 b false
  have rt : Regular t := ⟨h0, h1⟩
  have h0' : lv t ≠ 0 := lv_ne t
  have key : ∃ v : T b, logFromLin L a b t = .ok v ∧ Regular v ∧ v.msb = decide (lv t < 0) := by
    unfold logFromLin
    split_ifs with h
    · obtain ⟨r, e, i⟩ := linToExtended_regular rt
      rw [e, ok_bind]; exact logFrom_regular hL .ext b i h0' (lv_in t (by cases a <;> decide) (by decide) (by decide))
    · obtain ⟨r, e, i⟩ := linToFloat64_regular rt
      rw [b64.rq_of_rep (lv_b64 (h64 h) t).1] at i
      rw [e, ok_bind]; exact logFrom_regular hL .f64 b i h0' (lv_b64 (h64 h) t)
  obtain ⟨v, e, rv, sv⟩ := key
  refine ⟨v, e, by simp [rv.1, h0], by simp [rv.2, h1], ?_⟩
  rw [toInt_neg_iff (by omega) rv, toInt_neg_iff (by omega) rt, sv, decide_eq_true_iff, lv_neg_iff t]

example : ideal.Logs ∧ (0xffffffff#32 : T .w32) ≠ 0#32 ∧ (0xffffffff#32 : T .w32) ≠ nar 32 := ⟨ideal_logs, by decide⟩

end Takum
