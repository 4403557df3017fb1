import Verif.AngleSpec
import Verif.Lemmas.IdealInv
import Verif.Lemmas.IdealMono

/-! # The angles of the ideal library -/

namespace Takum

theorem rnd_span {F : Fmt} (hF : F = b64 ∨ F = x80) {r a b : ℝ} (h1 : a ≤ r) (h2 : r ≤ b) (h3 : -4 ≤ r) (h4 : r ≤ 4) : (rnd F r).Span F a b := by
  have hp : 1 ≤ F.prec := by rcases hF with rfl | rfl <;> decide
  obtain ⟨x, y, -⟩ := rnd_bounded hF (r := r) (abs_le.mpr ⟨by linarith [show (4 : ℝ) ≤ 2 ^ 100 by norm_num], by linarith [show (4 : ℝ) ≤ 2 ^ 100 by norm_num]⟩)
  exact ⟨_, x, y, fun c hc => ⟨fun h => F.le_rq_real hp hc.1 (h.trans h1), fun h => F.rq_real_le hp hc.1 (h2.trans h)⟩⟩

theorem zero_span {F : Fmt} {a b : ℝ} (h1 : a ≤ 0) (h2 : 0 ≤ b) (s : Bool) : (Fl.zero s).Span F a b :=
  ⟨0, Fl.Is.zero s, ⟨Fmt.Rep.zero F, by rw [abs_zero]; positivity⟩, fun c _ => ⟨fun h => by exact_mod_cast h.trans h1, fun h => by exact_mod_cast h2.trans h⟩⟩

theorem ideal_angles : ideal.Angles where
  asin F hF x hx := by
    have p := Real.pi_pos
    have p4 := Real.pi_le_four
    cases x with
    | nan => exact Or.inl rfl
    | inf s => exact Or.inl rfl
    | zero s => exact Or.inr (zero_span (by linarith) (by linarith) s)
    | num q =>
      show (if |q| ≤ 1 then rnd F (Real.arcsin q) else .nan).isfinite = false ∨ Fl.Span F _ _ (if |q| ≤ 1 then rnd F (Real.arcsin q) else .nan)
      split_ifs
      · have a := Real.neg_pi_div_two_le_arcsin (q : ℝ)
        have b := Real.arcsin_le_pi_div_two (q : ℝ)
        exact Or.inr (rnd_span hF a b (by linarith) (by linarith))
      · exact Or.inl rfl
  acos F hF x hx := by
    have p := Real.pi_pos
    have p4 := Real.pi_le_four
    cases x with
    | nan => exact Or.inl rfl
    | inf s => exact Or.inl rfl
    | zero s => exact Or.inr (rnd_span hF (by linarith) (by linarith) (by linarith) (by linarith))
    | num q =>
      show (if |q| ≤ 1 then rnd F (Real.arccos q) else .nan).isfinite = false ∨ Fl.Span F _ _ (if |q| ≤ 1 then rnd F (Real.arccos q) else .nan)
      split_ifs
      · have a := Real.arccos_nonneg (q : ℝ)
        have b := Real.arccos_le_pi (q : ℝ)
        exact Or.inr (rnd_span hF a b (by linarith) (by linarith))
      · exact Or.inl rfl
  atan_pos F hF x hx hn hs := by
    have p := Real.pi_pos
    have p4 := Real.pi_le_four
    cases x with
    | nan => exact absurd rfl hn
    | inf s =>
      cases s
      · exact rnd_span hF (by linarith) le_rfl (by linarith) (by linarith)
      · cases hs
    | zero s => exact zero_span le_rfl (by linarith) s
    | num q =>
      have q0 : (0 : ℝ) ≤ q := by
        have : ¬ q < 0 := by simpa [Fl.sgn] using hs
        exact_mod_cast not_lt.mp this
      have a := Real.arctan_nonneg.mpr q0
      have b := (Real.arctan_lt_pi_div_two (q : ℝ)).le
      exact rnd_span hF (r := Real.arctan q) a b (by linarith) (by linarith)
  atan_neg F hF x hx hn hs := by
    have p := Real.pi_pos
    have p4 := Real.pi_le_four
    cases x with
    | nan => exact absurd rfl hn
    | inf s =>
      cases s
      · cases hs
      · exact rnd_span hF le_rfl (by linarith) (by linarith) (by linarith)
    | zero s => exact zero_span (by linarith) le_rfl s
    | num q =>
      have q0 : (q : ℝ) ≤ 0 := by
        have : q < 0 := by simpa [Fl.sgn] using hs
        exact_mod_cast this.le
      have a : Real.arctan q ≤ 0 := by rw [← Real.arctan_zero]; exact Real.arctan_strictMono.monotone q0
      have b := (Real.neg_pi_div_two_lt_arctan (q : ℝ)).le
      exact rnd_span hF (r := Real.arctan q) b a (by linarith) (by linarith)
  atan2 F hF y x hy hx fy fx := by
    have p := Real.pi_pos
    have p4 := Real.pi_le_four
    cases y with
    | nan => cases fy
    | inf s => cases fy
    | zero s =>
      cases x with
      | nan => cases fx
      | inf s => cases fx
      | zero t =>
        show Fl.Span F _ _ (if t = true then rnd F ((if s then -1 else 1) * Real.pi) else .zero s)
        cases s <;> cases t <;> simp only [Fl.sgn, Bool.false_eq_true, if_false, if_true] <;>
          first
            | exact zero_span (by linarith) (by linarith) _
            | exact rnd_span hF (by linarith) (by linarith) (by linarith) (by linarith)
      | num q =>
        show Fl.Span F _ _ (if decide (q < 0) = true then rnd F ((if s then -1 else 1) * Real.pi) else .zero s)
        simp only [Fl.sgn]
        generalize decide (q < 0) = t
        cases s <;> cases t <;> simp only [Bool.false_eq_true, if_false, if_true] <;>
          first
            | exact zero_span (by linarith) (by linarith) _
            | exact rnd_span hF (by linarith) (by linarith) (by linarith) (by linarith)
    | num a =>
      cases x with
      | nan => cases fx
      | inf s => cases fx
      | zero t =>
        show Fl.Span F _ _ (rnd F ((if a < 0 then -1 else 1) * (Real.pi / 2)))
        by_cases ha : a < 0 <;> cases t <;> simp only [Fl.sgn, ha, decide_true, decide_false, if_true, if_false] <;>
          exact rnd_span hF (by linarith) (by linarith) (by linarith) (by linarith)
      | num b =>
        show Fl.Span F _ _ (rnd F (Complex.arg ⟨b, a⟩))
        have g1 := Complex.neg_pi_lt_arg ⟨(b : ℝ), (a : ℝ)⟩
        have g2 := Complex.arg_le_pi ⟨(b : ℝ), (a : ℝ)⟩
        have e1 : (0 : ℝ) ≤ Complex.arg ⟨b, a⟩ ↔ (0 : ℝ) ≤ a := Complex.arg_nonneg_iff
        have e2 : Complex.arg ⟨b, a⟩ ≤ Real.pi / 2 ↔ (0 : ℝ) ≤ b ∨ (a : ℝ) < 0 := Complex.arg_le_pi_div_two_iff
        have e3 : -(Real.pi / 2) ≤ Complex.arg ⟨b, a⟩ ↔ (0 : ℝ) ≤ b ∨ (0 : ℝ) ≤ a := Complex.neg_pi_div_two_le_arg_iff
        have ca : (a : ℝ) < 0 ↔ a < 0 := Rat.cast_lt_zero
        have cb : (b : ℝ) < 0 ↔ b < 0 := Rat.cast_lt_zero
        by_cases ha : a < 0 <;> by_cases hb : b < 0 <;> simp only [Fl.sgn, ha, hb, decide_true, decide_false]
        · have h3 : ¬(-(Real.pi / 2) ≤ Complex.arg ⟨b, a⟩) := by
            rw [e3]; rintro (h | h)
            · exact absurd (cb.mpr hb) (not_lt.mpr h)
            · exact absurd (ca.mpr ha) (not_lt.mpr h)
          exact rnd_span hF (by linarith) (by linarith) (by linarith) (by linarith)
        · have h3 := e3.mpr (Or.inl (not_lt.mp fun h => hb (cb.mp h)))
          have h1 : ¬((0 : ℝ) ≤ Complex.arg ⟨b, a⟩) := by rw [e1]; exact not_le.mpr (ca.mpr ha)
          exact rnd_span hF (by linarith) (by linarith) (by linarith) (by linarith)
        · have a0 : (0 : ℝ) ≤ a := not_lt.mp fun h => ha (ca.mp h)
          have h2 : ¬(Complex.arg ⟨b, a⟩ ≤ Real.pi / 2) := by
            rw [e2]; rintro (h | h)
            · exact absurd (cb.mpr hb) (not_lt.mpr h)
            · exact absurd h (not_lt.mpr a0)
          exact rnd_span hF (by linarith) (by linarith) (by linarith) (by linarith)
        · have a0 : (0 : ℝ) ≤ a := not_lt.mp fun h => ha (ca.mp h)
          have h2 := e2.mpr (Or.inl (not_lt.mp fun h => hb (cb.mp h)))
          have h1 := e1.mpr a0
          exact rnd_span hF (by linarith) (by linarith) (by linarith) (by linarith)

end Takum
