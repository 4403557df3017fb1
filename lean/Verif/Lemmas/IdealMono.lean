import Verif.Lemmas.MonoFl
import Verif.Lemmas.IdealSym
import Verif.Lemmas.IdealAcc

/-! # The ideal math library is monotone -/

namespace Takum

theorem rnd_zero (F : Fmt) : rnd F 0 = .zero false := by
  unfold rnd
  rw [rq_real_zero, abs_zero, if_neg (not_le.mpr (by positivity))]
  simp [Fl.mk]

theorem rnd_one {F : Fmt} (hF : F = b64 ∨ F = x80) : rnd F 1 = .num 1 := by
  have e : F.rq (1 : ℝ) = 1 := by
    have := F.rq_cast 1; push_cast at this
    rw [this, F.rq_of_rep (one_in (big_std hF)).1]
  have := rnd_is (F := F) (r := 1) (by rw [e]; exact (one_in (big_std hF)).2)
  rw [e] at this; exact this.eq_num (by norm_num)

theorem rnd_cases {F : Fmt} (hF : F = b64 ∨ F = x80) (r : ℝ) :
    (F.rq r ≤ -(2 : ℚ) ^ F.emax ∧ rnd F r = .inf true) ∨ ((2 : ℚ) ^ F.emax ≤ F.rq r ∧ rnd F r = .inf false) ∨
      (|F.rq r| < (2 : ℚ) ^ F.emax ∧ (rnd F r).Is (F.rq r)) := by
  have hp := std_prec (std3 hF)
  rcases lt_or_ge |F.rq r| ((2 : ℚ) ^ F.emax) with h | h
  · exact Or.inr (Or.inr ⟨h, rnd_is h⟩)
  · have hr : rnd F r = .inf (decide (r < 0)) := by unfold rnd; rw [if_pos h]
    rcases lt_or_ge r 0 with h0 | h0
    · left
      rw [abs_of_nonpos (rq_real_nonpos F hp h0.le)] at h
      exact ⟨by linarith, by rw [hr]; simp [h0]⟩
    · right; left
      rw [abs_of_nonneg (rq_real_nonneg F hp h0)] at h
      exact ⟨h, by rw [hr]; simp [h0]⟩

theorem rnd_le {F : Fmt} (hF : F = b64 ∨ F = x80) {r r' : ℝ} (h : r ≤ r') : Fl.le (rnd F r) (rnd F r') = true := by
  have hm := F.rq_mono (std_prec (std3 hF)) h
  have p : (0 : ℚ) < (2 : ℚ) ^ F.emax := by positivity
  rw [Fl.le_iff (rnd_in (std3 hF) _).ne (rnd_in (std3 hF) _).ne]
  refine ⟨rnd_ne_nan _ _, rnd_ne_nan _ _, ?_⟩
  rcases rnd_cases hF r with ⟨-, e⟩ | ⟨h1, e⟩ | ⟨h1, i⟩
  · exact Or.inl e
  · rcases rnd_cases hF r' with ⟨h2, e'⟩ | ⟨-, e'⟩ | ⟨h2, i'⟩
    · linarith
    · exact Or.inr (Or.inl e')
    · have := (abs_lt.mp h2).2; linarith
  · rcases rnd_cases hF r' with ⟨h2, e'⟩ | ⟨-, e'⟩ | ⟨h2, i'⟩
    · have := (abs_lt.mp h1).1; linarith
    · exact Or.inr (Or.inl e')
    · exact Or.inr (Or.inr ⟨_, _, i, i', hm⟩)

/-- `y` is the rounded `r`, a zero in place of it, or an infinity of sign `c`. -/
def IVal (F : Fmt) (y : Fl) (c : ℤ) (r : ℝ) : Prop :=
  (c = 0 ∧ (y = rnd F r ∨ r = 0 ∧ ∃ s, y = .zero s)) ∨ (c = -1 ∧ y = .inf true) ∨ (c = 1 ∧ y = .inf false)

theorem IVal.le {F : Fmt} (hF : F = b64 ∨ F = x80) {y y' : Fl} {c c' : ℤ} {r r' : ℝ} (h : IVal F y c r) (h' : IVal F y' c' r')
    (hc : c < c' ∨ c = c' ∧ (c = 0 → r ≤ r')) : Fl.le y y' = true := by
  have z : ∀ s (y : Fl), Fl.le (.zero s) y = Fl.le (.zero false) y ∧ Fl.le y (.zero s) = Fl.le y (.zero false) := by
    intro s y
    cases y with
    | inf i => cases i <;> exact ⟨rfl, rfl⟩
    | _ => exact ⟨rfl, rfl⟩
  have top : ∀ {y : Fl}, y ≠ .nan → Fl.le y (.inf false) = true ∧ Fl.le (.inf true) y = true := by
    intro y hy
    cases y with
    | nan => exact absurd rfl hy
    | inf s => cases s <;> exact ⟨rfl, rfl⟩
    | _ => exact ⟨rfl, rfl⟩
  have nn : ∀ {y : Fl} {c r}, IVal F y c r → y ≠ .nan := by
    rintro y c r (⟨-, rfl | ⟨-, s, rfl⟩⟩ | ⟨-, rfl⟩ | ⟨-, rfl⟩)
    · exact rnd_ne_nan _ _
    all_goals simp
  have n1 := nn h
  have n2 := nn h'
  rcases h with ⟨rfl, h⟩ | ⟨rfl, rfl⟩ | ⟨rfl, rfl⟩
  · rcases h' with ⟨rfl, h'⟩ | ⟨rfl, rfl⟩ | ⟨rfl, rfl⟩
    · have hr : r ≤ r' := by
        rcases hc with hc | hc
        · exact absurd hc (lt_irrefl _)
        · exact hc.2 rfl
      have hle := rnd_le hF hr
      rcases h with rfl | ⟨rfl, s, rfl⟩ <;> rcases h' with rfl | ⟨rfl, s', rfl⟩
      · exact hle
      · rw [(z s' _).2, ← rnd_zero F]; exact hle
      · rw [(z s _).1, ← rnd_zero F]; exact hle
      · rfl
    · omega
    · exact (top n1).1
  · exact (top n2).2
  · rcases h' with ⟨rfl, h'⟩ | ⟨rfl, rfl⟩ | ⟨rfl, rfl⟩
    · omega
    · omega
    · rfl

theorem IVal.type {F : Fmt} (hF : F = b64 ∨ F = x80) {y : Fl} {c : ℤ} {r : ℝ} (h : IVal F y c r) : y.In F := by
  rcases h with ⟨-, rfl | ⟨-, s, rfl⟩⟩ | ⟨-, rfl⟩ | ⟨-, rfl⟩
  · exact rnd_in (std3 hF) _
  all_goals trivial

theorem fin_is {F : Fmt} {x : Fl} (h : x.FinIn F) : ∃ q, x.Is q := by
  obtain ⟨h1, h2⟩ := h
  cases x with
  | nan => cases h2
  | inf s => cases h2
  | zero s => exact ⟨0, Fl.Is.zero s⟩
  | num q => exact ⟨q, Fl.Is.num h1.1⟩

theorem inc_of {f : Fmt → Fl → Fl} (D : ℚ → Prop) (c : ℚ → ℤ) (g : ℚ → ℝ)
    (hv : ∀ F, F = b64 ∨ F = x80 → ∀ x q, Fl.Is x q → (¬ D q ∧ f F x = .nan) ∨ (D q ∧ IVal F (f F x) (c q) (g q)))
    (hm : ∀ p q, D p → D q → p ≤ q → c p < c q ∨ c p = c q ∧ (c p = 0 → g p ≤ g q)) : Increasing f := by
  refine ⟨fun F hF x y hx hy h n1 n2 => ?_, fun F hF x hx => ?_⟩
  · obtain ⟨p, hp⟩ := fin_is hx
    obtain ⟨q, hq⟩ := fin_is hy
    rcases hv F hF x p hp with ⟨-, e⟩ | ⟨d, v⟩
    · exact absurd e n1
    rcases hv F hF y q hq with ⟨-, e⟩ | ⟨d', v'⟩
    · exact absurd e n2
    exact v.le hF v' (hm p q d d' ((Fl.le_is hp hq).mp h))
  · obtain ⟨p, hp⟩ := fin_is hx
    rcases hv F hF x p hp with ⟨-, e⟩ | ⟨d, v⟩
    · rw [e]; trivial
    · exact v.type hF

theorem dec_of {f : Fmt → Fl → Fl} (D : ℚ → Prop) (c : ℚ → ℤ) (g : ℚ → ℝ)
    (hv : ∀ F, F = b64 ∨ F = x80 → ∀ x q, Fl.Is x q → (¬ D q ∧ f F x = .nan) ∨ (D q ∧ IVal F (f F x) (c q) (g q)))
    (hm : ∀ p q, D p → D q → p ≤ q → c q < c p ∨ c q = c p ∧ (c q = 0 → g q ≤ g p)) : Decreasing f := by
  refine ⟨fun F hF x y hx hy h n1 n2 => ?_, fun F hF x hx => ?_⟩
  · obtain ⟨p, hp⟩ := fin_is hx
    obtain ⟨q, hq⟩ := fin_is hy
    rcases hv F hF x p hp with ⟨-, e⟩ | ⟨d, v⟩
    · exact absurd e n1
    rcases hv F hF y q hq with ⟨-, e⟩ | ⟨d', v'⟩
    · exact absurd e n2
    exact v'.le hF v (hm p q d d' ((Fl.le_is hp hq).mp h))
  · obtain ⟨p, hp⟩ := fin_is hx
    rcases hv F hF x p hp with ⟨-, e⟩ | ⟨d, v⟩
    · rw [e]; trivial
    · exact v.type hF

theorem IVal.rnd (F : Fmt) (r : ℝ) : IVal F (rnd F r) 0 r := Or.inl ⟨rfl, Or.inl rfl⟩
theorem IVal.zero (F : Fmt) (s : Bool) : IVal F (.zero s) 0 0 := Or.inl ⟨rfl, Or.inr ⟨rfl, s, rfl⟩⟩

theorem idealFn_inc {f : ℝ → ℝ} (hi lo : Fmt → Fl) (hf : Monotone f) : Increasing (idealFn f hi lo) := by
  refine inc_of (fun _ => True) (fun _ => 0) (fun q => f q) (fun F hF x q hq => Or.inr ⟨trivial, ?_⟩)
    (fun p q _ _ h => Or.inr ⟨rfl, fun _ => hf (Rat.cast_le.mpr h)⟩)
  rcases hq.cases with ⟨-, rfl⟩ | ⟨rfl, s, rfl⟩
  · exact IVal.rnd _ _
  · rw [Rat.cast_zero]; exact IVal.rnd _ _

theorem idealOdd_inc {f : ℝ → ℝ} (hi lo : Fmt → Fl) (hf : Monotone f) (h0 : f 0 = 0) : Increasing (idealOdd f hi lo) := by
  refine inc_of (fun _ => True) (fun _ => 0) (fun q => f q) (fun F hF x q hq => Or.inr ⟨trivial, ?_⟩)
    (fun p q _ _ h => Or.inr ⟨rfl, fun _ => hf (Rat.cast_le.mpr h)⟩)
  rcases hq.cases with ⟨-, rfl⟩ | ⟨rfl, s, rfl⟩
  · exact IVal.rnd _ _
  · simp only [Rat.cast_zero, h0]; exact IVal.zero _ _

theorem idealLog_inc {f : ℝ → ℝ} (hf : ∀ x y, 0 < x → x ≤ y → f x ≤ f y) : Increasing (idealLog f) := by
  refine inc_of (fun q => 0 ≤ q) (fun q => if q = 0 then -1 else 0) (fun q => f q) (fun F hF x q hq => ?_) (fun p q hp hq h => ?_)
  · rcases hq.cases with ⟨h0, rfl⟩ | ⟨rfl, s, rfl⟩
    · unfold idealLog
      simp only
      split_ifs with h
      · exact Or.inl ⟨not_le.mpr h, rfl⟩
      · exact Or.inr ⟨not_lt.mp h, IVal.rnd _ _⟩
    · exact Or.inr ⟨le_refl _, Or.inr (Or.inl ⟨by simp, rfl⟩)⟩
  · by_cases h0 : p = 0
    · by_cases h1 : q = 0
      · exact Or.inr ⟨by rw [if_pos h0, if_pos h1], fun h => by rw [if_pos h0] at h; omega⟩
      · exact Or.inl (by rw [if_pos h0, if_neg h1]; norm_num)
    · have hp' : 0 < p := lt_of_le_of_ne hp (Ne.symm h0)
      have h1 : q ≠ 0 := by linarith
      exact Or.inr ⟨by rw [if_neg h0, if_neg h1], fun _ => hf _ _ (by exact_mod_cast hp') (by exact_mod_cast h)⟩

theorem acosh_mono {x y : ℝ} (hx : 1 ≤ x) (h : x ≤ y) : Real.log (x + Real.sqrt (x ^ 2 - 1)) ≤ Real.log (y + Real.sqrt (y ^ 2 - 1)) := by
  have := Real.sqrt_nonneg (x ^ 2 - 1)
  refine Real.log_le_log (by linarith) (add_le_add h (Real.sqrt_le_sqrt ?_))
  nlinarith

theorem atanh_mono {x y : ℝ} (hx : -1 < x) (hy : y < 1) (h : x ≤ y) :
    1 / 2 * Real.log ((1 + x) / (1 - x)) ≤ 1 / 2 * Real.log ((1 + y) / (1 - y)) := by
  have h1 : 0 < 1 + x := by linarith
  have h2 : 0 < 1 - y := by linarith
  have h3 : 0 < 1 - x := by linarith
  refine mul_le_mul_of_nonneg_left (Real.log_le_log (by positivity) ?_) (by norm_num)
  rw [div_le_div_iff₀ h3 h2]; nlinarith

theorem im_log : Increasing ideal.log := idealLog_inc fun x y h h' => Real.log_le_log h h'

theorem im_log2 : Increasing ideal.log2 := idealLog_inc fun x y h h' => Real.logb_le_logb_of_le (by norm_num) h h'

theorem im_log10 : Increasing ideal.log10 := idealLog_inc fun x y h h' => Real.logb_le_logb_of_le (by norm_num) h h'

theorem im_log1p : Increasing ideal.log1p := by
  refine inc_of (fun q => -1 ≤ q) (fun q => if q = -1 then -1 else 0) (fun q => Real.log (1 + q)) (fun F hF x q hq => ?_) (fun p q hp hq h => ?_)
  · rcases hq.cases with ⟨h0, rfl⟩ | ⟨rfl, s, rfl⟩
    · show (_ ∧ (if q < -1 then Fl.nan else if q = -1 then .inf true else rnd F (Real.log (1 + q))) = .nan) ∨
        (_ ∧ IVal F (if q < -1 then Fl.nan else if q = -1 then .inf true else rnd F (Real.log (1 + q))) (if q = -1 then -1 else 0) _)
      by_cases h : q < -1
      · exact Or.inl ⟨not_le.mpr h, by rw [if_pos h]⟩
      · refine Or.inr ⟨not_lt.mp h, ?_⟩
        rw [if_neg h]
        by_cases h1 : q = -1
        · rw [if_pos h1, if_pos h1]; exact Or.inr (Or.inl ⟨rfl, rfl⟩)
        · rw [if_neg h1, if_neg h1]; exact IVal.rnd _ _
    · refine Or.inr ⟨by norm_num, ?_⟩
      simp only [Rat.cast_zero, add_zero, Real.log_one]
      rw [if_neg (by norm_num)]
      exact IVal.zero _ _
  · by_cases h0 : p = -1
    · by_cases h1 : q = -1
      · exact Or.inr ⟨by rw [if_pos h0, if_pos h1], fun h => by rw [if_pos h0] at h; omega⟩
      · exact Or.inl (by rw [if_pos h0, if_neg h1]; norm_num)
    · have hp' : -1 < p := lt_of_le_of_ne hp (Ne.symm h0)
      have h1 : q ≠ -1 := by linarith
      have hr : (-1 : ℝ) < p := by exact_mod_cast hp'
      have hr' : (p : ℝ) ≤ q := by exact_mod_cast h
      exact Or.inr ⟨by rw [if_neg h0, if_neg h1], fun _ => Real.log_le_log (by linarith) (by linarith)⟩

theorem im_exp : Increasing ideal.exp := idealFn_inc _ _ Real.exp_monotone

theorem im_exp2 : Increasing ideal.exp2 := idealFn_inc _ _ fun x y h => Real.rpow_le_rpow_of_exponent_le (by norm_num) h

theorem ideal_expm1 : ideal.expm1 = idealOdd (fun x => Real.exp x - 1) (fun _ => .inf false) (fun _ => .num (-1)) := rfl

theorem im_expm1 : Increasing ideal.expm1 := by
  rw [ideal_expm1]
  apply idealOdd_inc
  · intro x y h
    exact sub_le_sub_right (Real.exp_le_exp.mpr h) 1
  · exact sub_eq_zero.mpr Real.exp_zero

theorem im_pow10 : Increasing fun F => ideal.pow F (.num 10) := by
  refine inc_of (fun _ => True) (fun _ => 0) (fun q => (10 : ℝ) ^ (q : ℝ)) (fun F hF x q hq => Or.inr ⟨trivial, ?_⟩)
    (fun p q _ _ h => Or.inr ⟨rfl, fun _ => Real.rpow_le_rpow_of_exponent_le (by norm_num) (by exact_mod_cast h)⟩)
  show IVal F (idealPow F (.num 10) x) _ _
  rcases idealPow_is (F := F) (x := 10) (by norm_num) hq with ⟨-, rfl, e⟩ | e
  · rw [e, ← rnd_one hF, Rat.cast_zero, Real.rpow_zero]; exact IVal.rnd _ _
  · rw [e]; push_cast; exact IVal.rnd _ _

theorem im_asin : Increasing ideal.asin := by
  refine inc_of (fun q => |q| ≤ 1) (fun _ => 0) (fun q => Real.arcsin q) (fun F hF x q hq => ?_)
    (fun p q _ _ h => Or.inr ⟨rfl, fun _ => Real.monotone_arcsin (by exact_mod_cast h)⟩)
  rcases hq.cases with ⟨h0, rfl⟩ | ⟨rfl, s, rfl⟩
  · show (_ ∧ (if |q| ≤ 1 then rnd F (Real.arcsin q) else .nan) = .nan) ∨ (_ ∧ IVal F (if |q| ≤ 1 then rnd F (Real.arcsin q) else .nan) _ _)
    split_ifs with h
    · exact Or.inr ⟨h, IVal.rnd _ _⟩
    · exact Or.inl ⟨h, rfl⟩
  · refine Or.inr ⟨by norm_num, ?_⟩
    simp only [Rat.cast_zero, Real.arcsin_zero]; exact IVal.zero _ _

theorem im_acos : Decreasing ideal.acos := by
  refine dec_of (fun q => |q| ≤ 1) (fun _ => 0) (fun q => Real.arccos q) (fun F hF x q hq => ?_)
    (fun p q _ _ h => Or.inr ⟨rfl, fun _ => Real.antitone_arccos (by exact_mod_cast h)⟩)
  rcases hq.cases with ⟨h0, rfl⟩ | ⟨rfl, s, rfl⟩
  · show (_ ∧ (if |q| ≤ 1 then rnd F (Real.arccos q) else .nan) = .nan) ∨ (_ ∧ IVal F (if |q| ≤ 1 then rnd F (Real.arccos q) else .nan) _ _)
    split_ifs with h
    · exact Or.inr ⟨h, IVal.rnd _ _⟩
    · exact Or.inl ⟨h, rfl⟩
  · refine Or.inr ⟨by norm_num, ?_⟩
    simp only [Rat.cast_zero, Real.arccos_zero]; exact IVal.rnd _ _

theorem im_atan : Increasing ideal.atan := idealOdd_inc _ _ Real.arctan_mono Real.arctan_zero

theorem im_sinh : Increasing ideal.sinh := idealOdd_inc _ _ Real.sinh_strictMono.monotone Real.sinh_zero

theorem im_tanh : Increasing ideal.tanh := idealOdd_inc _ _ (fun x y h => by
  rw [Real.tanh_eq_sinh_div_cosh, Real.tanh_eq_sinh_div_cosh, div_le_div_iff₀ (Real.cosh_pos _) (Real.cosh_pos _)]
  have h1 : 0 ≤ Real.sinh (y - x) := Real.sinh_nonneg_iff.mpr (by linarith)
  rw [Real.sinh_sub] at h1
  linarith) Real.tanh_zero

theorem im_asinh : Increasing ideal.asinh := idealOdd_inc _ _ Real.arsinh_strictMono.monotone Real.arsinh_zero

theorem im_acosh : Increasing ideal.acosh := by
  refine inc_of (fun q => 1 ≤ q) (fun _ => 0) (fun q => Real.log (q + Real.sqrt ((q : ℝ) ^ 2 - 1))) (fun F hF x q hq => ?_)
    (fun p q hp _ h => Or.inr ⟨rfl, fun _ => acosh_mono (by exact_mod_cast hp) (by exact_mod_cast h)⟩)
  rcases hq.cases with ⟨h0, rfl⟩ | ⟨rfl, s, rfl⟩
  · show (_ ∧ (if q < 1 then .nan else rnd F (Real.log (q + Real.sqrt ((q : ℝ) ^ 2 - 1)))) = .nan) ∨
      (_ ∧ IVal F (if q < 1 then .nan else rnd F (Real.log (q + Real.sqrt ((q : ℝ) ^ 2 - 1)))) _ _)
    split_ifs with h
    · exact Or.inl ⟨not_le.mpr h, rfl⟩
    · exact Or.inr ⟨not_lt.mp h, IVal.rnd _ _⟩
  · exact Or.inl ⟨by norm_num, rfl⟩

theorem im_atanh : Increasing ideal.atanh := by
  refine inc_of (fun q => |q| ≤ 1) (fun q => if q = -1 then -1 else if q = 1 then 1 else 0) (fun q => 1 / 2 * Real.log ((1 + q) / (1 - q)))
    (fun F hF x q hq => ?_) (fun p q hp hq h => ?_)
  · rcases hq.cases with ⟨h0, rfl⟩ | ⟨rfl, s, rfl⟩
    · show (_ ∧ (if 1 < |q| then Fl.nan else if |q| = 1 then .inf (decide (q < 0)) else rnd F (1 / 2 * Real.log ((1 + q) / (1 - q)))) = .nan) ∨
        (_ ∧ IVal F (if 1 < |q| then Fl.nan else if |q| = 1 then .inf (decide (q < 0)) else rnd F (1 / 2 * Real.log ((1 + q) / (1 - q)))) _ _)
      by_cases h : 1 < |q|
      · exact Or.inl ⟨not_le.mpr h, by rw [if_pos h]⟩
      · refine Or.inr ⟨not_lt.mp h, ?_⟩
        rw [if_neg h]
        by_cases h2 : q = -1
        · subst h2; rw [if_pos (by norm_num), if_pos rfl]; exact Or.inr (Or.inl ⟨rfl, by simp⟩)
        by_cases h3 : q = 1
        · subst h3; rw [if_pos (by norm_num), if_neg (by norm_num), if_pos rfl]; exact Or.inr (Or.inr ⟨rfl, by norm_num⟩)
        have h1 : |q| ≠ 1 := fun h1 => by
          rcases abs_eq (by norm_num : (0 : ℚ) ≤ 1) |>.mp h1 with e | e
          · exact h3 e
          · exact h2 e
        rw [if_neg h1, if_neg h2, if_neg h3]; exact IVal.rnd _ _
    · refine Or.inr ⟨by norm_num, ?_⟩
      simp only [Rat.cast_zero, add_zero, sub_zero, div_one, Real.log_one, mul_zero]
      rw [if_neg (by norm_num), if_neg (by norm_num)]; exact IVal.zero _ _
  · obtain ⟨p1, p2⟩ := abs_le.mp hp
    obtain ⟨q1, q2⟩ := abs_le.mp hq
    by_cases h0 : p = -1
    · subst h0
      by_cases h1 : q = -1
      · subst h1; exact Or.inr ⟨rfl, fun h => by simp at h⟩
      · left; rw [if_pos rfl, if_neg h1]; split_ifs <;> norm_num
    · have p3 : -1 < p := lt_of_le_of_ne p1 (Ne.symm h0)
      have q3 : q ≠ -1 := by linarith
      rw [if_neg h0, if_neg q3]
      by_cases h1 : q = 1
      · subst h1
        by_cases h2 : p = 1
        · subst h2; exact Or.inr ⟨rfl, fun h => by simp at h⟩
        · left; rw [if_neg h2, if_pos rfl]; norm_num
      · have q4 : q < 1 := lt_of_le_of_ne q2 h1
        have h2 : p ≠ 1 := by linarith
        rw [if_neg h2, if_neg h1]
        exact Or.inr ⟨rfl, fun _ => atanh_mono (by exact_mod_cast p3) (by exact_mod_cast q4) (by exact_mod_cast h)⟩

theorem im_cosh_type (F : Fmt) (hF : F = b64 ∨ F = x80) (x : Fl) (hx : x.FinIn F) : (ideal.cosh F x).In F := by
  obtain ⟨q, hq⟩ := fin_is hx
  rcases hq.cases with ⟨h0, rfl⟩ | ⟨rfl, s, rfl⟩
  · exact rnd_in (std3 hF) _
  · exact rnd_in (std3 hF) _

theorem im_cosh_pos (F : Fmt) (hF : F = b64 ∨ F = x80) (x y : Fl) (hx : x.FinIn F) (hy : y.FinIn F) (h0 : Fl.le (.zero false) x = true)
    (h : Fl.le x y = true) : Fl.le (ideal.cosh F x) (ideal.cosh F y) = true := by
  obtain ⟨p, hp⟩ := fin_is hx
  obtain ⟨q, hq⟩ := fin_is hy
  have e : ∀ {x : Fl} {q : ℚ}, x.Is q → ideal.cosh F x = rnd F (Real.cosh q) := by
    intro x q hq
    rcases hq.cases with ⟨-, rfl⟩ | ⟨rfl, s, rfl⟩
    · rfl
    · rw [Rat.cast_zero]; rfl
  rw [e hp, e hq]
  have h1 : (0 : ℝ) ≤ p := by exact_mod_cast (Fl.le_is (Fl.Is.zero false) hp).mp h0
  have h2 : (p : ℝ) ≤ q := by exact_mod_cast (Fl.le_is hp hq).mp h
  exact rnd_le hF (Real.cosh_le_cosh.mpr (by rw [abs_of_nonneg h1, abs_of_nonneg (h1.trans h2)]; exact h2))

theorem im_cosh_neg (F : Fmt) (hF : F = b64 ∨ F = x80) (x y : Fl) (hx : x.FinIn F) (hy : y.FinIn F) (h : Fl.le x y = true)
    (h0 : Fl.le y (.zero false) = true) : Fl.le (ideal.cosh F y) (ideal.cosh F x) = true := by
  obtain ⟨p, hp⟩ := fin_is hx
  obtain ⟨q, hq⟩ := fin_is hy
  have e : ∀ {x : Fl} {q : ℚ}, x.Is q → ideal.cosh F x = rnd F (Real.cosh q) := by
    intro x q hq
    rcases hq.cases with ⟨-, rfl⟩ | ⟨rfl, s, rfl⟩
    · rfl
    · rw [Rat.cast_zero]; rfl
  rw [e hp, e hq]
  have h1 : (q : ℝ) ≤ 0 := by exact_mod_cast (Fl.le_is hq (Fl.Is.zero false)).mp h0
  have h2 : (p : ℝ) ≤ q := by exact_mod_cast (Fl.le_is hp hq).mp h
  exact rnd_le hF (Real.cosh_le_cosh.mpr (by rw [abs_of_nonpos h1, abs_of_nonpos (h2.trans h1)]; linarith))

theorem im_expm1_low (F : Fmt) (hF : F = b64 ∨ F = x80) (x : Fl) (hx : x.FinIn F) : Fl.le (.num (-1)) (ideal.expm1 F x) = true := by
  obtain ⟨q, hq⟩ := fin_is hx
  have e : rnd F (-1) = .num (-1) := by rw [rnd_neg one_ne_zero, rnd_one hF]; rfl
  rcases hq.cases with ⟨-, rfl⟩ | ⟨rfl, s, rfl⟩
  · rw [← e]
    exact rnd_le hF (r' := Real.exp q - 1) (by linarith [Real.exp_pos (q : ℝ)])
  · rfl

theorem ideal_monotone : ideal.Monotone where
  log := im_log
  log2 := im_log2
  log10 := im_log10
  log1p := im_log1p
  exp := im_exp
  exp2 := im_exp2
  expm1 := im_expm1
  pow10 := im_pow10
  asin := im_asin
  acos := im_acos
  atan := im_atan
  sinh := im_sinh
  tanh := im_tanh
  asinh := im_asinh
  acosh := im_acosh
  atanh := im_atanh
  cosh_type := im_cosh_type
  cosh_pos := im_cosh_pos
  cosh_neg := im_cosh_neg
  expm1_low := im_expm1_low

end Takum
