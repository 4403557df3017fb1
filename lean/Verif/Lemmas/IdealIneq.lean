import Verif.IneqSpec
import Verif.Lemmas.IdealAngles
import Mathlib.Analysis.SpecialFunctions.Artanh
import Mathlib.Analysis.SpecialFunctions.Log.Deriv
import Mathlib.Analysis.SpecialFunctions.Trigonometric.DerivHyp

/-! # The ideal library satisfies the inequalities -/

namespace Takum

theorem le_artanh {x : ℝ} (h0 : 0 ≤ x) (h1 : x < 1) : x ≤ Real.artanh x := by
  have h := Real.hasSum_log_sub_log_of_abs_lt_one (x := x) (by rw [abs_of_nonneg h0]; exact h1)
  have h2 : 2 * x ≤ Real.log (1 + x) - Real.log (1 - x) := by
    have := le_hasSum h 0 (fun j _ => by positivity)
    simpa using this
  rw [Real.artanh_eq_half_log ⟨by linarith, h1.le⟩, Real.log_div (by linarith) (by linarith)]
  linarith

theorem tanh_le {x : ℝ} (h0 : 0 ≤ x) : Real.tanh x ≤ x := by
  have := le_artanh (by rw [Real.tanh_eq_sinh_div_cosh]; exact div_nonneg (Real.sinh_nonneg_iff.mpr h0) (Real.cosh_pos x).le) (Real.tanh_lt_one x)
  rwa [Real.artanh_tanh] at this

theorem arctan_le {x : ℝ} (h0 : 0 ≤ x) : Real.arctan x ≤ x := by
  have := Real.le_tan (Real.arctan_nonneg.mpr h0) (Real.arctan_lt_pi_div_two x)
  rwa [Real.tan_arctan] at this

theorem arsinh_le {x : ℝ} (h0 : 0 ≤ x) : Real.arsinh x ≤ x := by
  have := Real.self_le_sinh_iff.mpr (Real.arsinh_nonneg_iff.mpr h0)
  rwa [Real.sinh_arsinh] at this

theorem le_arcsin {x : ℝ} (h0 : 0 ≤ x) (h1 : x ≤ 1) : x ≤ Real.arcsin x := by
  have := Real.sin_le (Real.arcsin_nonneg.mpr h0)
  rwa [Real.sin_arcsin (by linarith) h1] at this

theorem abs_le_of_odd {f : ℝ → ℝ} (ho : ∀ x, f (-x) = -f x) (h0 : ∀ x, 0 ≤ x → 0 ≤ f x) (h : ∀ x, 0 ≤ x → f x ≤ x) (x : ℝ) : |f x| ≤ |x| := by
  rcases le_total 0 x with h' | h'
  · rw [abs_of_nonneg h', abs_of_nonneg (h0 x h')]; exact h x h'
  · have := h (-x) (by linarith)
    have h2 := h0 (-x) (by linarith)
    rw [ho] at this h2
    rw [abs_of_nonpos h', abs_of_nonpos (by linarith)]; exact this

theorem prec_one {F : Fmt} (hF : F = b64 ∨ F = x80) : 1 ≤ F.prec := by rcases hF with rfl | rfl <;> decide

/-- A real number that is at most as large as a number of the type. -/
theorem rnd_span_le {F : Fmt} (hF : F = b64 ∨ F = x80) {r a b : ℝ} {c : ℚ} (hc : F.In c) (h : |r| ≤ |(c : ℝ)|) (h1 : a ≤ r) (h2 : r ≤ b) : (rnd F r).Span F a b := by
  have hp := prec_one hF
  have ha : F.Rep |c| := hc.1.abs
  have hb : |F.rq r| < (2 : ℚ) ^ F.emax := by
    rw [abs_rq_real F hp]
    exact lt_of_le_of_lt (F.rq_real_le hp ha (by push_cast; exact h)) hc.2
  exact ⟨_, rnd_is hb, ⟨F.rq_real_rep hp r, hb⟩, fun c hc => ⟨fun h => F.le_rq_real hp hc.1 (h.trans h1), fun h => F.rq_real_le hp hc.1 (h2.trans h)⟩⟩

theorem shrink_span {F : Fmt} (hF : F = b64 ∨ F = x80) {f : ℝ → ℝ} {hi lo : Fmt → Fl} (h : ∀ x, |f x| ≤ |x|) {x : Fl} {q : ℚ} (hx : x.Is q) (hi' : F.In q) :
    (idealOdd f hi lo F x).Span F (-|(q : ℝ)|) |(q : ℝ)| := by
  rcases hx.cases with ⟨-, rfl⟩ | ⟨rfl, s, rfl⟩
  · have := abs_le.mp (h q)
    exact rnd_span_le hF hi' (h q) this.1 this.2
  · exact zero_span (by simp) (by simp) s

theorem rnd_beyond {F : Fmt} (hF : F = b64 ∨ F = x80) {q : ℚ} {r : ℝ} (hi : F.In q) (h1 : 0 ≤ q → (q : ℝ) ≤ r) (h2 : q ≤ 0 → r ≤ (q : ℝ)) :
    rnd F r = .inf (decide (q < 0)) ∨ (rnd F r).Beyond F q := by
  have hp := prec_one hF
  have k1 : 0 ≤ q → q ≤ F.rq r := fun h => F.le_rq_real hp hi.1 (h1 h)
  have k2 : q ≤ 0 → F.rq r ≤ q := fun h => F.rq_real_le hp hi.1 (h2 h)
  have P : (0 : ℚ) < (2 : ℚ) ^ F.emax := by positivity
  rcases rnd_cases hF r with ⟨h, e⟩ | ⟨h, e⟩ | ⟨h, e⟩
  · left
    have : q < 0 := by
      by_contra hn
      have := k1 (not_lt.mp hn)
      linarith [not_lt.mp hn]
    rw [e]; simp [this]
  · left
    have : ¬ q < 0 := by
      intro hn
      have := k2 hn.le
      linarith
    rw [e]; simp [this]
  · exact Or.inr ⟨_, e, ⟨F.rq_real_rep hp r, h⟩, k1, k2⟩

theorem zero_beyond {F : Fmt} (s : Bool) : (Fl.zero s).Beyond F 0 :=
  ⟨0, Fl.Is.zero s, ⟨Fmt.Rep.zero F, by rw [abs_zero]; positivity⟩, fun _ => le_rfl, fun _ => le_rfl⟩

/-- A lower bound. -/
theorem rnd_ge {F : Fmt} (hF : F = b64 ∨ F = x80) {r : ℝ} (h0 : -1 ≤ r) :
    rnd F r = .inf false ∨ ∃ z, Fl.Is (rnd F r) z ∧ F.In z ∧ ∀ c : ℚ, F.In c → (c : ℝ) ≤ r → c ≤ z := by
  have hp := prec_one hF
  rcases rnd_cases hF r with ⟨h, e⟩ | ⟨h, e⟩ | ⟨h, e⟩
  · exfalso
    have hm := F.le_rq_real hp (b := -1) ((one_in (big_std hF)).1.neg) (by push_cast; exact h0)
    have : (1 : ℚ) < (2 : ℚ) ^ F.emax := by rcases hF with rfl | rfl <;> decide +kernel
    linarith
  · exact Or.inl e
  · exact Or.inr ⟨_, e, ⟨F.rq_real_rep hp r, h⟩, fun c hc h => F.le_rq_real hp hc.1 h⟩

theorem hypot_between (p q : ℝ) : max |p| |q| ≤ Real.sqrt (p ^ 2 + q ^ 2) ∧ Real.sqrt (p ^ 2 + q ^ 2) ≤ |p| + |q| := by
  constructor
  · refine max_le ?_ ?_
    · apply Real.le_sqrt_of_sq_le; rw [sq_abs]; nlinarith [sq_nonneg q]
    · apply Real.le_sqrt_of_sq_le; rw [sq_abs]; nlinarith [sq_nonneg p]
  · rw [Real.sqrt_le_left (by positivity)]
    nlinarith [sq_abs p, sq_abs q, mul_nonneg (abs_nonneg p) (abs_nonneg q)]

theorem ideal_inequalities : ideal.Inequalities where
  sin F hF x q hx hi := shrink_span (f := Real.sin) (hi := fun _ => .nan) (lo := fun _ => .nan) hF (fun x => Real.abs_sin_le_abs (x := x)) hx hi
  atan F hF x q hx hi := shrink_span (f := Real.arctan) (hi := fun F => rnd F (Real.pi / 2)) (lo := fun F => rnd F (-(Real.pi / 2))) hF (abs_le_of_odd Real.arctan_neg (fun x h => Real.arctan_nonneg.mpr h) fun x h => arctan_le h) hx hi
  tanh F hF x q hx hi := shrink_span (f := Real.tanh) (hi := fun _ => .num 1) (lo := fun _ => .num (-1)) hF (abs_le_of_odd Real.tanh_neg
    (fun x h => by rw [Real.tanh_eq_sinh_div_cosh]; exact div_nonneg (Real.sinh_nonneg_iff.mpr h) (Real.cosh_pos x).le) fun x h => tanh_le h) hx hi
  asinh F hF x q hx hi := shrink_span (f := Real.arsinh) (hi := fun _ => .inf false) (lo := fun _ => .inf true) hF (abs_le_of_odd Real.arsinh_neg (fun x h => Real.arsinh_nonneg_iff.mpr h) fun x h => arsinh_le h) hx hi
  sinh F hF x q hx hi := by
    rcases hx.cases with ⟨h0, rfl⟩ | ⟨rfl, s, rfl⟩
    · exact (rnd_beyond hF hi (fun h => Real.self_le_sinh_iff.mpr (by exact_mod_cast h)) (fun h => Real.sinh_le_self_iff.mpr (by exact_mod_cast h))).imp_left fun h => ⟨h0, h⟩
    · exact Or.inr (zero_beyond s)
  asin F hF x q hx hi := by
    rcases hx.cases with ⟨h0, rfl⟩ | ⟨rfl, s, rfl⟩
    · show (if |q| ≤ 1 then rnd F (Real.arcsin q) else .nan).isfinite = false ∨ Fl.Beyond F q (if |q| ≤ 1 then rnd F (Real.arcsin q) else .nan)
      split_ifs with h
      · have hr : |(q : ℝ)| ≤ 1 := by exact_mod_cast h
        obtain ⟨a, b⟩ := abs_le.mp hr
        rcases rnd_beyond hF (r := Real.arcsin q) hi (fun h => le_arcsin (by exact_mod_cast h) b) (fun h => by
          have := le_arcsin (x := -q) (by have : (q : ℝ) ≤ 0 := by exact_mod_cast h
                                          linarith) (by linarith)
          rw [Real.arcsin_neg] at this; linarith) with e | e
        · left; rw [e]; rfl
        · exact Or.inr e
      · exact Or.inl rfl
    · exact Or.inr (zero_beyond s)
  atanh F hF x q hx hi := by
    rcases hx.cases with ⟨h0, rfl⟩ | ⟨rfl, s, rfl⟩
    · show (if 1 < |q| then Fl.nan else if |q| = 1 then .inf (decide (q < 0)) else rnd F (1 / 2 * Real.log ((1 + q) / (1 - q)))).isfinite = false ∨
        Fl.Beyond F q (if 1 < |q| then Fl.nan else if |q| = 1 then .inf (decide (q < 0)) else rnd F (1 / 2 * Real.log ((1 + q) / (1 - q))))
      split_ifs with h h'
      · exact Or.inl rfl
      · exact Or.inl rfl
      · have hq : |q| < 1 := lt_of_le_of_ne (not_lt.mp h) h'
        have hr : |(q : ℝ)| < 1 := by exact_mod_cast hq
        obtain ⟨a, b⟩ := abs_lt.mp hr
        rw [← Real.artanh_eq_half_log ⟨a.le, b.le⟩]
        rcases rnd_beyond hF (r := Real.artanh q) hi (fun h => le_artanh (by exact_mod_cast h) b) (fun h => by
          have q0 : (q : ℝ) ≤ 0 := by exact_mod_cast h
          have := le_artanh (x := -q) (by linarith) (by linarith)
          have e : Real.artanh (-(q : ℝ)) = -Real.artanh q := by
            rw [Real.artanh_eq_half_log ⟨by linarith, by linarith⟩, Real.artanh_eq_half_log ⟨a.le, b.le⟩, Real.log_div (by linarith) (by linarith),
              Real.log_div (by linarith) (by linarith), sub_neg_eq_add, ← sub_eq_add_neg]; ring
          rw [e] at this; linarith) with e | e
        · left; rw [e]; rfl
        · exact Or.inr e
    · exact Or.inr (zero_beyond s)
  log1p F hF x q hx hi := by
    have hp := prec_one hF
    rcases hx.cases with ⟨h0, rfl⟩ | ⟨rfl, s, rfl⟩
    · show (if q < -1 then Fl.nan else if q = -1 then .inf true else rnd F (Real.log (1 + q))) = .nan ∨
        (if q < -1 then Fl.nan else if q = -1 then .inf true else rnd F (Real.log (1 + q))) = .inf true ∨
        ∃ r, Fl.Is (if q < -1 then Fl.nan else if q = -1 then .inf true else rnd F (Real.log (1 + q))) r ∧ F.In r ∧ r ≤ q
      split_ifs with h h'
      · exact Or.inl rfl
      · exact Or.inr (Or.inl rfl)
      · have hq : -1 < q := lt_of_le_of_ne (not_lt.mp h) (Ne.symm h')
        have hr : (-1 : ℝ) < q := by exact_mod_cast hq
        have hl := Real.log_le_sub_one_of_pos (x := 1 + q) (by linarith)
        have k := F.rq_real_le hp hi.1 (x := Real.log (1 + q)) (by linarith)
        rcases rnd_cases hF (Real.log (1 + q)) with ⟨h, e⟩ | ⟨h, e⟩ | ⟨h, e⟩
        · exact Or.inr (Or.inl e)
        · exfalso
          have := (abs_lt.mp hi.2).2
          linarith
        · exact Or.inr (Or.inr ⟨_, e, ⟨F.rq_real_rep hp _, h⟩, k⟩)
    · exact Or.inr (Or.inr ⟨0, Fl.Is.zero s, hi, le_rfl⟩)
  expm1 F hF x q hx hi := by
    rcases hx.cases with ⟨h0, rfl⟩ | ⟨rfl, s, rfl⟩
    · rcases rnd_ge hF (r := Real.exp q - 1) (by linarith [Real.exp_pos (q : ℝ)]) with h | ⟨z, h1, h2, h3⟩
      · exact Or.inl h
      · exact Or.inr ⟨z, h1, h2, h3 q hi (by linarith [Real.add_one_le_exp (q : ℝ)])⟩
    · exact Or.inr ⟨0, Fl.Is.zero s, hi, le_rfl⟩
  exp F hF x q hx hi := by
    have e : ideal.exp F x = rnd F (Real.exp q) := by
      rcases hx.cases with ⟨h0, rfl⟩ | ⟨rfl, s, rfl⟩
      · rfl
      · show rnd F (Real.exp 0) = _; simp
    rw [e]
    have p := Real.exp_pos (q : ℝ)
    rcases rnd_ge hF (r := Real.exp q) (by linarith) with h | ⟨z, h1, h2, h3⟩
    · exact Or.inl h
    · refine Or.inr ⟨z, h1, h2, h3 0 ⟨Fmt.Rep.zero F, by rw [abs_zero]; positivity⟩ (by push_cast; exact p.le), fun c hc h => h3 c hc ?_⟩
      have : (c : ℝ) ≤ 1 + q := by exact_mod_cast h
      linarith [Real.add_one_le_exp (q : ℝ)]
  log F hF q hq hi := by
    have hp := prec_one hF
    obtain ⟨r, h1, h2, h3⟩ := ideal_conforming.logs.finite F hF q hq hi
    refine ⟨r, h1, h2, fun c hc h => ?_⟩
    have e : ideal.log F (.num q) = rnd F (Real.log q) := by
      show (if q < 0 then Fl.nan else _) = _; rw [if_neg (not_lt.mpr hq.le)]
    have qr : (0 : ℝ) < q := by exact_mod_cast hq
    rw [e] at h1
    have er : r = F.rq (Real.log q) := by
      rcases rnd_cases hF (Real.log q) with ⟨-, e⟩ | ⟨-, e⟩ | ⟨-, e⟩
      · rw [e] at h1; exact absurd h1.isfinite (by simp [Fl.isfinite])
      · rw [e] at h1; exact absurd h1.isfinite (by simp [Fl.isfinite])
      · exact h1.unique e
    rw [er]
    apply F.rq_real_le hp hc.1
    have : (q : ℝ) - 1 ≤ c := by exact_mod_cast h
    linarith [Real.log_le_sub_one_of_pos qr]
  hypot F hF x y p q hx hp hy hq := by
    rcases le_or_gt ((2 : ℚ) ^ (F.emax - 1)) (|p| + |q|) with hb | hb
    · exact Or.inl hb
    refine Or.inr ?_
    have key : (rnd F (Real.sqrt ((p : ℝ) ^ 2 + (q : ℝ) ^ 2))).Span F (max |(p : ℝ)| |(q : ℝ)|) (|(p : ℝ)| + |(q : ℝ)|) := by
      obtain ⟨h1, h2⟩ := hypot_between (p : ℝ) q
      have h0 := Real.sqrt_nonneg ((p : ℝ) ^ 2 + (q : ℝ) ^ 2)
      have hc : F.In ((2 : ℚ) ^ (F.emax - 1)) := by
        rcases hF with rfl | rfl
        · exact ⟨⟨1, 1023, by decide +kernel, by decide, by decide⟩, by decide +kernel⟩
        · exact ⟨⟨1, 16383, by decide +kernel, by decide, by decide⟩, by decide +kernel⟩
      have hb' : |(p : ℝ)| + |(q : ℝ)| < ((2 : ℚ) ^ (F.emax - 1) : ℚ) := by exact_mod_cast hb
      exact rnd_span_le hF hc (by rw [abs_of_nonneg h0]; exact (h2.trans hb'.le).trans (le_abs_self _)) h1 h2
    rcases hx.cases with ⟨h0, rfl⟩ | ⟨rfl, s, rfl⟩ <;> rcases hy.cases with ⟨h0', rfl⟩ | ⟨rfl, s', rfl⟩
    · exact key
    · exact key
    · exact key
    · exact zero_span (by simp) (by simp) false

end Takum
