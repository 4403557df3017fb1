import Verif.LibmAcc
import Verif.Lemmas.IdealInv

/-! # The ideal library is accurate -/

namespace Takum

theorem rnd_approx {F : Fmt} (hF : F = b64 ∨ F = x80) (r : ℝ) : Approx F r (rnd F r) := by
  have hp : 1 ≤ F.prec ∧ F.emin + F.prec ≤ -1000 ∧ F.emin ≤ -1000 ∧ 1000 < F.emax := by
    rcases hF with rfl | rfl <;> decide
  have sign : 0 ≤ (F.rq r : ℝ) * r := by
    rcases le_total 0 r with h | h
    · have : (0 : ℝ) ≤ F.rq r := by exact_mod_cast rq_real_nonneg F hp.1 h
      positivity
    · have : (F.rq r : ℝ) ≤ 0 := by exact_mod_cast rq_real_nonpos F hp.1 h
      exact mul_nonneg_of_nonpos_of_nonpos this h
  have small : ∀ k : ℤ, -1000 ≤ k → k ≤ 1000 → |r| ≤ (2 : ℝ) ^ k → |F.rq r| ≤ (2 : ℚ) ^ k ∧ |F.rq r| < (2 : ℚ) ^ F.emax := by
    intro k hk hk' h
    have h1 : |F.rq r| ≤ (2 : ℚ) ^ k := by
      rw [abs_rq_real F hp.1]
      apply F.rq_real_le hp.1 (Fmt.Rep.zpow hp.1 (by omega))
      push_cast; exact h
    exact ⟨h1, h1.trans_lt (zpow_lt_zpow_right₀ (by norm_num) (by omega))⟩
  refine ⟨rnd_in (big_std hF) r, ?_, ?_, ?_, ?_⟩
  · rintro rfl
    have := rnd_is (F := F) (r := 0) (by rw [rq_real_zero, abs_zero]; positivity)
    rwa [rq_real_zero] at this
  · intro h1 h2
    refine ⟨_, rnd_is (small 1000 (by norm_num) le_rfl h2).2, ?_⟩
    have := rq_real_err (F := F) (x := r) (le_trans (zpow_le_zpow_right₀ (by norm_num) hp.2.1) h1)
    refine this.trans ?_
    rw [div_eq_mul_inv, mul_comm, ← one_div]
    gcongr; norm_num
  · intro _ h
    obtain ⟨a, b⟩ := small (-1000) le_rfl (by norm_num) h.le
    exact ⟨_, rnd_is b, a.trans (zpow_le_zpow_right₀ (by norm_num) (by norm_num)), sign⟩
  · intro h
    have h1 : (2 : ℚ) ^ (1000 : ℤ) ≤ |F.rq r| := by
      rw [abs_rq_real F hp.1]
      apply F.le_rq_real hp.1 (Fmt.Rep.zpow hp.1 (by omega))
      rw [Rat.cast_zpow, Rat.cast_ofNat]; exact h.le
    unfold rnd
    split_ifs
    · exact Or.inl rfl
    · right
      refine ⟨F.rq r, (Fl.Is.mk _ _).eq_num ?_, le_trans (zpow_le_zpow_right₀ (by norm_num) (by norm_num)) h1, sign⟩
      intro h0
      rw [h0, abs_zero] at h1
      exact absurd h1 (not_le.mpr (by positivity))

theorem zero_approx {F : Fmt} (s : Bool) : Approx F 0 (.zero s) := by
  refine ⟨trivial, fun _ => Fl.Is.zero s, fun h => ?_, fun h => absurd rfl h, fun h => ?_⟩
  · rw [abs_zero] at h; exact absurd h (not_le.mpr (by positivity))
  · rw [abs_zero] at h; exact absurd h (not_lt.mpr (by positivity))

theorem idealOdd_approx {f : ℝ → ℝ} (h0 : f 0 = 0) (hi lo : Fmt → Fl) {F : Fmt} (hF : F = b64 ∨ F = x80) {x : Fl} {v : ℚ} (h : x.Is v) :
    Approx F (f v) (idealOdd f hi lo F x) := by
  rcases h.cases with ⟨_, rfl⟩ | ⟨rfl, s, rfl⟩
  · exact rnd_approx hF _
  · rw [Rat.cast_zero, h0]; exact zero_approx s

theorem idealFn_approx (f : ℝ → ℝ) (hi lo : Fmt → Fl) {F : Fmt} (hF : F = b64 ∨ F = x80) {x : Fl} {v : ℚ} (h : x.Is v) :
    Approx F (f v) (idealFn f hi lo F x) := by
  rcases h.cases with ⟨_, rfl⟩ | ⟨rfl, s, rfl⟩
  · exact rnd_approx hF _
  · rw [Rat.cast_zero]; exact rnd_approx hF _

theorem idealLog_approx (f : ℝ → ℝ) {F : Fmt} (hF : F = b64 ∨ F = x80) {x : Fl} {v : ℚ} (h : x.Is v) (hv : 0 < v) :
    Approx F (f v) (idealLog f F x) := by
  rw [h.eq_num hv.ne']; unfold idealLog; simp only; rw [if_neg (not_lt.mpr hv.le)]; exact rnd_approx hF _

theorem num_one_approx {F : Fmt} (hF : F = b64 ∨ F = x80) : Approx F 1 (.num 1) := by
  have h : rnd F 1 = .num 1 := by
    have e : F.rq (1 : ℝ) = 1 := by
      have := F.rq_cast 1; push_cast at this
      rw [this, F.rq_of_rep (one_in (big_std hF)).1]
    have := rnd_is (F := F) (r := 1) (by rw [e]; exact (one_in (big_std hF)).2)
    rw [e] at this; exact this.eq_num (by norm_num)
  rw [← h]; exact rnd_approx hF 1

theorem idealPow_approx {F : Fmt} (hF : F = b64 ∨ F = x80) {x y : Fl} {p q : ℚ} (hx : x.Is p) (hy : y.Is q) (hp : p ≠ 0)
    (h : 0 < p ∨ ∃ k : ℤ, q = k) : Approx F ((p : ℝ) ^ (q : ℝ)) (idealPow F x y) := by
  have e := hx.eq_num hp
  subst e
  by_cases h1 : p = 1
  · subst h1
    have : idealPow F (.num 1) y = .num 1 := by unfold idealPow; simp
    rw [this, Rat.cast_one, Real.one_rpow]; exact num_one_approx hF
  rcases hy.cases with ⟨hq, rfl⟩ | ⟨rfl, s, rfl⟩
  · rw [idealPow_num h1]
    rw [if_neg]
    · exact rnd_approx hF _
    · rintro ⟨a, b⟩
      rcases h with h | ⟨k, rfl⟩
      · linarith
      · exact b (by simp)
  · have : idealPow F (.num p) (.zero s) = .num 1 := by unfold idealPow; rw [if_pos (by cases s <;> simp)]
    rw [this, Rat.cast_zero, Real.rpow_zero]; exact num_one_approx hF

theorem ideal_approximates : ideal.Approximates where
  log F hF x v h _ h0 := idealLog_approx _ hF h h0
  log2 F hF x v h _ h0 := idealLog_approx (Real.logb 2) hF h h0
  log10 F hF x v h _ h0 := idealLog_approx (Real.logb 10) hF h h0
  log1p F hF x v h _ h0 := by
    rcases h.cases with ⟨_, rfl⟩ | ⟨rfl, s, rfl⟩
    · show Approx F _ (if v < -1 then _ else if v = -1 then _ else _)
      rw [if_neg (not_lt.mpr h0.le), if_neg h0.ne']; exact rnd_approx hF _
    · have : Real.log (1 + ((0 : ℚ) : ℝ)) = 0 := by simp
      rw [this]; exact zero_approx s
  exp F hF x v h _ := idealFn_approx Real.exp (fun _ => .inf false) (fun _ => .zero false) hF h
  exp2 F hF x v h _ := idealFn_approx (fun x => (2 : ℝ) ^ x) (fun _ => .inf false) (fun _ => .zero false) hF h
  expm1 F hF x v h _ := idealOdd_approx (f := fun x => Real.exp x - 1) (by simp) (fun _ => .inf false) (fun _ => .num (-1)) hF h
  sin F hF x v h _ := idealOdd_approx Real.sin_zero (fun _ => .nan) (fun _ => .nan) hF h
  cos F hF x v h _ := idealFn_approx Real.cos (fun _ => .nan) (fun _ => .nan) hF h
  tan F hF x v h _ := idealOdd_approx Real.tan_zero (fun _ => .nan) (fun _ => .nan) hF h
  asin F hF x v h _ h1 := by
    rcases h.cases with ⟨_, rfl⟩ | ⟨rfl, s, rfl⟩
    · show Approx F _ (if |v| ≤ 1 then _ else _)
      rw [if_pos h1]; exact rnd_approx hF _
    · rw [Rat.cast_zero, Real.arcsin_zero]; exact zero_approx s
  acos F hF x v h _ h1 := by
    rcases h.cases with ⟨_, rfl⟩ | ⟨rfl, s, rfl⟩
    · show Approx F _ (if |v| ≤ 1 then _ else _)
      rw [if_pos h1]; exact rnd_approx hF _
    · rw [Rat.cast_zero, Real.arccos_zero]; exact rnd_approx hF _
  atan F hF x v h _ := idealOdd_approx Real.arctan_zero (fun F => rnd F (Real.pi / 2)) (fun F => rnd F (-(Real.pi / 2))) hF h
  atan_inf F hF s := by
    cases s
    · show Approx F _ (rnd F (Real.pi / 2)); simp only [Bool.false_eq_true, if_false, one_mul]; exact rnd_approx hF _
    · show Approx F _ (rnd F (-(Real.pi / 2))); simp only [if_true, neg_mul, one_mul]; exact rnd_approx hF _
  sinh F hF x v h _ := idealOdd_approx Real.sinh_zero (fun _ => .inf false) (fun _ => .inf true) hF h
  cosh F hF x v h _ := idealFn_approx Real.cosh (fun _ => .inf false) (fun _ => .inf false) hF h
  tanh F hF x v h _ := idealOdd_approx Real.tanh_zero (fun _ => .num 1) (fun _ => .num (-1)) hF h
  asinh F hF x v h _ := idealOdd_approx Real.arsinh_zero (fun _ => .inf false) (fun _ => .inf true) hF h
  acosh F hF x v h _ h1 := by
    rw [h.eq_num (by linarith : 0 < v).ne']
    show Approx F _ (if v < 1 then _ else _)
    rw [if_neg (not_lt.mpr h1)]; exact rnd_approx hF _
  atanh F hF x v h _ h1 := by
    rcases h.cases with ⟨_, rfl⟩ | ⟨rfl, s, rfl⟩
    · show Approx F _ (if 1 < |v| then _ else if |v| = 1 then _ else _)
      rw [if_neg (not_lt.mpr h1.le), if_neg h1.ne, ← one_div_mul_eq_div]; exact rnd_approx hF _
    · have : Real.log ((1 + ((0 : ℚ) : ℝ)) / (1 - ((0 : ℚ) : ℝ))) / 2 = 0 := by simp
      rw [this]; exact zero_approx s
  pow F hF x y p q hx _ h0 hy _ := idealPow_approx hF hx hy h0.ne' (Or.inl h0)
  pow_int F hF x y p k hx _ h0 hy _ := by
    have := idealPow_approx hF hx hy h0 (Or.inr ⟨k, rfl⟩)
    rw [Rat.cast_intCast, Real.rpow_intCast] at this; exact this
  hypot F hF x y p q hx _ hy _ := by
    rcases hx.cases with ⟨_, rfl⟩ | ⟨rfl, s, rfl⟩ <;> rcases hy.cases with ⟨_, rfl⟩ | ⟨rfl, s', rfl⟩
    · exact rnd_approx hF _
    · exact rnd_approx hF _
    · exact rnd_approx hF _
    · have : Real.sqrt (((0 : ℚ) : ℝ) ^ 2 + ((0 : ℚ) : ℝ) ^ 2) = 0 := by simp
      rw [this]; exact zero_approx false
  atan2 F hF x y p q hx _ hy _ h := by
    rcases hx.cases with ⟨hp, rfl⟩ | ⟨rfl, s, rfl⟩ <;> rcases hy.cases with ⟨hq, rfl⟩ | ⟨rfl, s', rfl⟩
    · exact rnd_approx hF _
    · have e : Complex.arg ⟨((0 : ℚ) : ℝ), (p : ℝ)⟩ = (if p < 0 then -1 else 1) * (Real.pi / 2) := by
        rw [Rat.cast_zero]
        split_ifs with h'
        · have h' : (p : ℝ) < 0 := by exact_mod_cast h'
          rw [Complex.arg_eq_neg_pi_div_two_iff.mpr ⟨rfl, h'⟩]; ring
        · have h' : (0 : ℝ) < p := by exact_mod_cast lt_of_le_of_ne (not_lt.mp h') (Ne.symm hp)
          rw [Complex.arg_eq_pi_div_two_iff.mpr ⟨rfl, h'⟩]; ring
      rw [e]; exact rnd_approx hF _
    · rcases lt_or_ge 0 q with hq0 | hq0
      · have e : Complex.arg ⟨(q : ℝ), ((0 : ℚ) : ℝ)⟩ = 0 := by
          rw [Rat.cast_zero]
          have : (⟨(q : ℝ), 0⟩ : ℂ) = ((q : ℝ) : ℂ) := rfl
          rw [this, Complex.arg_ofReal_of_nonneg (by exact_mod_cast hq0.le)]
        have e2 : ideal.atan2 F (.zero s) (.num q) = .zero s := by
          show (if (Fl.num q).sgn then _ else _) = _
          rw [if_neg]; simp [Fl.sgn, hq0.le]
        rw [e, e2]; exact zero_approx s
      · have hs : s = false := by
          rcases h with h | h | h
          · exact absurd rfl h
          · exact absurd h (not_lt.mpr hq0)
          · simpa using h.1
        subst hs
        have hq1 : q < 0 := lt_of_le_of_ne hq0 hq
        have e : Complex.arg ⟨(q : ℝ), ((0 : ℚ) : ℝ)⟩ = Real.pi := by
          rw [Rat.cast_zero]
          have : (⟨(q : ℝ), 0⟩ : ℂ) = ((q : ℝ) : ℂ) := rfl
          rw [this, Complex.arg_ofReal_of_neg (by exact_mod_cast hq1)]
        have e2 : ideal.atan2 F (.zero false) (.num q) = rnd F Real.pi := by
          show (if (Fl.num q).sgn then rnd F ((if false = true then -1 else 1) * Real.pi) else _) = _
          rw [if_pos (by simp [Fl.sgn, hq1]), if_neg (by simp), one_mul]
        rw [e, e2]; exact rnd_approx hF _
    · have h : s = false ∧ s' = false := by simpa using h
      obtain ⟨rfl, rfl⟩ := h
      have e : Complex.arg ⟨((0 : ℚ) : ℝ), ((0 : ℚ) : ℝ)⟩ = 0 := by
        rw [Rat.cast_zero]; exact Complex.arg_zero
      rw [e]; exact zero_approx false

end Takum
