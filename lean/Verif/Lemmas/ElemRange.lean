import Verif.Lemmas.ElemNear
import Verif.Lemmas.IdealInv
import Verif.Lemmas.PiRat
import Mathlib.Analysis.SpecialFunctions.Trigonometric.Bounds

/-! # Magnitudes of the elementary functions at floats -/

namespace Takum

/-- A float of moderate magnitude. -/
structure Mfl (v : ℚ) : Prop where
  rep : x80.In v
  ge : v ≠ 0 → (2 : ℝ) ^ (-302 : ℤ) ≤ |(v : ℝ)|
  le : |(v : ℝ)| ≤ (2 : ℝ) ^ (302 : ℤ)

theorem mod_of {y : ℝ} (h1 : y ≠ 0 → (2 : ℝ) ^ (-900 : ℤ) ≤ |y|) (h2 : |y| ≤ (2 : ℝ) ^ (900 : ℤ)) : Mod y := by
  by_cases h : y = 0
  · exact Or.inl h
  · exact Or.inr ⟨(zpow_le_zpow_right₀ (by norm_num) (by norm_num)).trans (h1 h), h2.trans (zpow_le_zpow_right₀ (by norm_num) (by norm_num))⟩

theorem z_le {a b : ℤ} (h : a ≤ b) : (2 : ℝ) ^ a ≤ (2 : ℝ) ^ b := zpow_le_zpow_right₀ (by norm_num) h

theorem half_min {v : ℝ} (h : (2 : ℝ) ^ (-302 : ℤ) ≤ |v|) : (2 : ℝ) ^ (-303 : ℤ) ≤ min |v| 1 / 2 := by
  have e : (2 : ℝ) ^ (-303 : ℤ) = (2 : ℝ) ^ (-302 : ℤ) / 2 := by
    rw [show (-303 : ℤ) = -302 - 1 by norm_num, zpow_sub₀ (by norm_num)]; norm_num
  rw [e]
  apply div_le_div_of_nonneg_right _ (by norm_num)
  refine le_min h ?_
  have := z_le (show (-302 : ℤ) ≤ 0 by norm_num); simpa using this

theorem log_mod {v : ℚ} (hv : Mfl v) (h0 : 0 < v) (h1 : v ≠ 1) :
    (2 : ℝ) ^ (-65 : ℤ) ≤ |Real.log v| ∧ |Real.log v| ≤ 16445 :=
  ⟨log_gap h0 (rep_gap (Or.inr rfl) hv.rep.1 h1), log_in_bound (Or.inr rfl) h0 hv.rep⟩

theorem mod_log {v : ℚ} (hv : Mfl v) (h0 : 0 < v) : Mod (Real.log v) := by
  by_cases h1 : v = 1
  · left; rw [h1]; simp
  obtain ⟨a, b⟩ := log_mod hv h0 h1
  exact mod_of (fun _ => (z_le (by norm_num)).trans a) (b.trans ((by norm_num : (16445 : ℝ) ≤ 2 ^ (15 : ℤ)).trans (z_le (by norm_num))))

theorem mod_scale {y c : ℝ} (hc : 1 / 4 ≤ c) (hc2 : c ≤ 4) (h1 : y ≠ 0 → (2 : ℝ) ^ (-800 : ℤ) ≤ |y|) (h2 : |y| ≤ (2 : ℝ) ^ (800 : ℤ)) :
    Mod (c * y) ∧ Mod (y / c) := by
  have c0 : 0 < c := by linarith
  have e1 : (2 : ℝ) ^ (-800 : ℤ) = 4 * (2 : ℝ) ^ (-802 : ℤ) := by
    rw [show (-800 : ℤ) = 2 + -802 by norm_num, zpow_add₀ (by norm_num)]; norm_num
  have e2 : (2 : ℝ) ^ (802 : ℤ) = 4 * (2 : ℝ) ^ (800 : ℤ) := by
    rw [show (802 : ℤ) = 2 + 800 by norm_num, zpow_add₀ (by norm_num)]; norm_num
  have a1 := z_le (show (-900 : ℤ) ≤ -802 by norm_num)
  have a2 := z_le (show (802 : ℤ) ≤ 900 by norm_num)
  have p1 : (0 : ℝ) < 2 ^ (800 : ℤ) := by positivity
  have p2 : (0 : ℝ) < 2 ^ (-802 : ℤ) := by positivity
  constructor
  · refine mod_of (fun h => a1.trans ?_) (le_trans ?_ a2)
    · have := h1 (right_ne_zero_of_mul h)
      rw [abs_mul, abs_of_pos c0]; rw [e1] at this; nlinarith [abs_nonneg y]
    · rw [abs_mul, abs_of_pos c0, e2]
      exact mul_le_mul hc2 h2 (abs_nonneg _) (by norm_num)
  · refine mod_of (fun h => a1.trans ?_) (le_trans ?_ a2)
    · have := h1 (fun h' => h (by rw [h', zero_div]))
      rw [abs_div, abs_of_pos c0, le_div_iff₀ c0]; rw [e1] at this; nlinarith
    · rw [abs_div, abs_of_pos c0, e2, div_le_iff₀ c0]
      have := mul_le_mul_of_nonneg_left hc p1.le
      generalize (2 : ℝ) ^ (800 : ℤ) = A at *
      linarith

theorem log2_quarter : (1 : ℝ) / 4 ≤ Real.log 2 ∧ Real.log 2 ≤ 4 := by
  constructor
  · linarith [Real.log_two_gt_d9]
  · linarith [Real.log_two_lt_d9]

theorem log10_quarter : (1 : ℝ) / 4 ≤ Real.log 10 ∧ Real.log 10 ≤ 4 := by
  have e : (16 : ℝ) = 2 ^ 4 := by norm_num
  have h1 : Real.log 2 ≤ Real.log 10 := Real.log_le_log (by norm_num) (by norm_num)
  have h2 : Real.log 10 ≤ Real.log 16 := Real.log_le_log (by norm_num) (by norm_num)
  rw [e, Real.log_pow] at h2
  push_cast at h2
  constructor <;> linarith [Real.log_two_gt_d9, Real.log_two_lt_d9]

theorem mod_logb {v : ℚ} (hv : Mfl v) (h0 : 0 < v) : Mod (Real.logb 2 v) ∧ Mod (Real.logb 10 v) := by
  by_cases h1 : v = 1
  · subst h1; constructor <;> left <;> simp
  obtain ⟨a, b⟩ := log_mod hv h0 h1
  have u : |Real.log v| ≤ (2 : ℝ) ^ (800 : ℤ) := b.trans ((by norm_num : (16445 : ℝ) ≤ 2 ^ (15 : ℤ)).trans (z_le (by norm_num)))
  have l : Real.log v ≠ 0 → (2 : ℝ) ^ (-800 : ℤ) ≤ |Real.log v| := fun _ => (z_le (by norm_num)).trans a
  exact ⟨(mod_scale log2_quarter.1 log2_quarter.2 l u).2, (mod_scale log10_quarter.1 log10_quarter.2 l u).2⟩

theorem log1p_ge {x : ℝ} (hx : -1 < x) : min |x| 1 / 2 ≤ |Real.log (1 + x)| := by
  rcases le_total 0 x with h | h
  · have h1 : x / (1 + x) ≤ Real.log (1 + x) := by
      have := Real.one_sub_inv_le_log_of_pos (show 0 < 1 + x by linarith)
      refine le_trans (le_of_eq ?_) this
      field_simp; ring
    refine le_trans ?_ (h1.trans (le_abs_self _))
    rw [abs_of_nonneg h, le_div_iff₀ (by linarith)]
    rcases le_total x 1 with h2 | h2
    · rw [min_eq_left h2]; nlinarith
    · rw [min_eq_right h2]; linarith
  · have h1 : Real.log (1 + x) ≤ x := by
      have := Real.log_le_sub_one_of_pos (show 0 < 1 + x by linarith); linarith
    rw [abs_of_nonpos h, abs_of_nonpos (h1.trans h)]
    have := min_le_left (-x) 1
    linarith

theorem log1p_bounds {v : ℚ} (hv : Mfl v) (h : -1 < v) :
    (v ≠ 0 → (2 : ℝ) ^ (-303 : ℤ) ≤ |Real.log (1 + v)|) ∧ |Real.log (1 + v)| ≤ (2 : ℝ) ^ (302 : ℤ) := by
  have h' : (-1 : ℝ) < v := by exact_mod_cast h
  refine ⟨fun h0 => (half_min (hv.ge h0)).trans (log1p_ge h'), ?_⟩
  rcases le_total 0 (v : ℝ) with h0 | h0
  · have h1 := Real.log_nonneg (show (1 : ℝ) ≤ 1 + v by linarith)
    have h2 := Real.log_le_sub_one_of_pos (show (0 : ℝ) < 1 + v by linarith)
    rw [abs_of_nonneg h1]
    have := hv.le
    rw [abs_of_nonneg h0] at this
    generalize (2 : ℝ) ^ (302 : ℤ) = A at *
    linarith
  · have h1 : Real.log (1 + v) ≤ 0 := Real.log_nonpos (by linarith) (by linarith)
    have h2 := Real.one_sub_inv_le_log_of_pos (show (0 : ℝ) < 1 + v by linarith)
    have g := rep_gap (F := x80) (Or.inr rfl) (q := -v) hv.rep.1.neg (by intro h; linarith)
    have g' : (2 : ℝ) ^ (-64 : ℤ) ≤ |-(v : ℝ) - 1| := by
      have := (Rat.cast_le (K := ℝ)).mpr g
      rw [Rat.cast_zpow, Rat.cast_abs] at this; simpa using this
    rw [abs_of_neg (by linarith)] at g'
    have g2 : (1 + (v : ℝ))⁻¹ ≤ 2 ^ (64 : ℤ) := by
      rw [inv_le_comm₀ (by linarith) (by positivity), ← zpow_neg]; linarith
    rw [abs_of_nonpos h1]
    have := z_le (show (64 : ℤ) ≤ 302 by norm_num)
    generalize (2 : ℝ) ^ (302 : ℤ) = A at *
    linarith

theorem mod_log1p {v : ℚ} (hv : Mfl v) (h : -1 < v) :
    Mod (Real.log (1 + v)) ∧ (∀ c : ℝ, 1 / 4 ≤ c → c ≤ 4 → Mod (c * Real.log (1 + v))) := by
  obtain ⟨a, b⟩ := log1p_bounds hv h
  have h1 : ∀ {c : ℝ}, 1 / 4 ≤ c → c ≤ 4 → Mod (c * Real.log (1 + v)) := fun {c} hc hc2 =>
    (mod_scale hc hc2 (fun h => (z_le (by norm_num)).trans (a (by rintro rfl; simp at h))) (b.trans (z_le (by norm_num)))).1
  exact ⟨by have := h1 (c := 1) (by norm_num) (by norm_num); rwa [one_mul] at this, fun c => h1⟩

theorem expm1_ge (x : ℝ) : min |x| 1 / 2 ≤ |Real.exp x - 1| := by
  rcases le_total 0 x with h | h
  · have := Real.add_one_le_exp x
    have h2 := min_le_left |x| 1
    rw [abs_of_nonneg h] at *
    rw [abs_of_nonneg (by linarith)]; linarith
  · have h1 := Real.add_one_le_exp (-x)
    have h2 : Real.exp x = (Real.exp (-x))⁻¹ := by rw [Real.exp_neg, inv_inv]
    have h3 : Real.exp x ≤ 1 := Real.exp_le_one_iff.mpr h
    rw [abs_of_nonpos h, abs_of_nonpos (by linarith), h2]
    have h4 : (Real.exp (-x))⁻¹ ≤ (1 - x)⁻¹ := inv_anti₀ (by linarith) (by linarith)
    have h5 : min (-x) 1 / 2 ≤ 1 - (1 - x)⁻¹ := by
      have e : 1 - (1 - x)⁻¹ = -x / (1 - x) := by
        have : (1 : ℝ) - x ≠ 0 := by linarith
        field_simp; ring
      rw [e, le_div_iff₀ (by linarith)]
      rcases le_total (-x) 1 with h6 | h6
      · rw [min_eq_left h6]; nlinarith
      · rw [min_eq_right h6]; linarith
    linarith

theorem le440 : (2 : ℝ) ^ (-900 : ℤ) ≤ 1 / 2 ^ 440 ∧ (2 : ℝ) ^ 440 ≤ (2 : ℝ) ^ (900 : ℤ) ∧ (1 : ℝ) ≤ (2 : ℝ) ^ (900 : ℤ) := by
  refine ⟨?_, ?_, ?_⟩
  · rw [one_div, ← zpow_natCast, ← zpow_neg]; exact z_le (by norm_num)
  · rw [← zpow_natCast]; exact z_le (by norm_num)
  · have := z_le (show (0 : ℤ) ≤ 900 by norm_num); simpa using this

/-- A float for which the distance to multiples of `π` is bounded. -/
structure Tfl (v : ℚ) : Prop where
  rep : x80.In v
  ge : v ≠ 0 → (2 : ℚ) ^ (-300 : ℤ) ≤ |v|
  le : |v| ≤ (2 : ℚ) ^ (300 : ℤ)

theorem sin_ge {v : ℚ} (hv : Tfl v) (h0 : v ≠ 0) : (1 : ℝ) / 2 ^ 440 ≤ |Real.sin v| := sin_far hv.rep.1 (hv.ge h0) hv.le
theorem cos_ge {v : ℚ} (hv : Tfl v) : (1 : ℝ) / 2 ^ 440 ≤ |Real.cos v| := cos_far hv.rep.1 hv.le
theorem sin_ne {v : ℚ} (hv : Tfl v) (h0 : v ≠ 0) : Real.sin v ≠ 0 := by
  intro h; have := sin_ge hv h0; rw [h, abs_zero] at this; exact absurd this (not_le.mpr (by positivity))
theorem cos_ne {v : ℚ} (hv : Tfl v) : Real.cos v ≠ 0 := by
  intro h; have := cos_ge hv; rw [h, abs_zero] at this; exact absurd this (not_le.mpr (by positivity))

theorem mod_sin {v : ℚ} (hv : Tfl v) : Mod (Real.sin v) :=
  mod_of (fun h => le440.1.trans (sin_ge hv (by rintro rfl; simp at h))) ((Real.abs_sin_le_one _).trans le440.2.2)
theorem mod_cos {v : ℚ} (hv : Tfl v) : Mod (Real.cos v) :=
  mod_of (fun _ => le440.1.trans (cos_ge hv)) ((Real.abs_cos_le_one _).trans le440.2.2)
theorem mod_tan {v : ℚ} (hv : Tfl v) : Mod (Real.tan v) := by
  have c0 := abs_pos.mpr (cos_ne hv)
  have p : (0 : ℝ) < 2 ^ 440 := by positivity
  rw [Real.tan_eq_sin_div_cos]
  refine mod_of (fun h => le440.1.trans ?_) (le_trans ?_ le440.2.1)
  · have h1 := sin_ge hv (by rintro rfl; simp at h)
    rw [abs_div, le_div_iff₀ c0]
    have := Real.abs_cos_le_one v
    have := mul_le_mul_of_nonneg_left this (by positivity : (0 : ℝ) ≤ 1 / 2 ^ 440)
    generalize (2 : ℝ) ^ 440 = A at *
    linarith
  · have h1 := cos_ge hv
    rw [abs_div, div_le_iff₀ c0]
    have := Real.abs_sin_le_one v
    have := mul_le_mul_of_nonneg_left h1 p.le
    generalize (2 : ℝ) ^ 440 = A at *
    rw [mul_one_div_cancel p.ne'] at this
    linarith

theorem abs_le_abs_arcsin {x : ℝ} (h : |x| ≤ 1) : |x| ≤ |Real.arcsin x| := by
  obtain ⟨h1, h2⟩ := abs_le.mp h
  have := Real.abs_sin_le_abs (x := Real.arcsin x)
  rwa [Real.sin_arcsin h1 h2] at this

theorem arcsin_bounds {v : ℚ} (hv : Mfl v) (h : |v| ≤ 1) :
    (Real.arcsin v ≠ 0 → (2 : ℝ) ^ (-800 : ℤ) ≤ |Real.arcsin v|) ∧ |Real.arcsin v| ≤ (2 : ℝ) ^ (800 : ℤ) := by
  have h' : |(v : ℝ)| ≤ 1 := by exact_mod_cast h
  constructor
  · intro h0
    exact (z_le (by norm_num)).trans ((hv.ge (by rintro rfl; simp at h0)).trans (abs_le_abs_arcsin h'))
  · have h1 := Real.arcsin_le_pi_div_two v
    have h2 := Real.neg_pi_div_two_le_arcsin v
    have h3 : |Real.arcsin v| ≤ 4 := abs_le.mpr ⟨by linarith [Real.pi_le_four], by linarith [Real.pi_le_four]⟩
    exact h3.trans ((by norm_num : (4 : ℝ) ≤ 2 ^ (2 : ℤ)).trans (z_le (by norm_num)))

theorem arccos_bounds {v : ℚ} (hv : Mfl v) (h : |v| ≤ 1) :
    (Real.arccos v ≠ 0 → (2 : ℝ) ^ (-800 : ℤ) ≤ |Real.arccos v|) ∧ |Real.arccos v| ≤ (2 : ℝ) ^ (800 : ℤ) := by
  have h' : |(v : ℝ)| ≤ 1 := by exact_mod_cast h
  obtain ⟨a1, a2⟩ := abs_le.mp h'
  have n := Real.arccos_nonneg (v : ℝ)
  rw [abs_of_nonneg n]
  constructor
  · intro h0
    have v1 : v ≠ 1 := by rintro rfl; simp at h0
    have g := rep_gap (F := x80) (Or.inr rfl) hv.rep.1 v1
    have g' : (2 : ℝ) ^ (-64 : ℤ) ≤ |(v : ℝ) - 1| := by
      have := (Rat.cast_le (K := ℝ)).mpr g
      rw [Rat.cast_zpow, Rat.cast_abs] at this; simpa using this
    rw [abs_of_nonpos (by linarith)] at g'
    have c := Real.one_sub_sq_div_two_le_cos (x := Real.arccos v)
    rw [Real.cos_arccos a1 a2] at c
    refine (z_le (show (-800 : ℤ) ≤ -64 by norm_num)).trans ?_
    by_contra hc
    rw [not_le] at hc
    have l1 : (2 : ℝ) ^ (-64 : ℤ) ≤ 1 := by have := z_le (show (-64 : ℤ) ≤ 0 by norm_num); simpa using this
    generalize (2 : ℝ) ^ (-64 : ℤ) = A at *
    nlinarith
  · exact (Real.arccos_le_pi _).trans (Real.pi_le_four.trans ((by norm_num : (4 : ℝ) ≤ 2 ^ (2 : ℤ)).trans (z_le (by norm_num))))

theorem arctan_ge (x : ℝ) : min |x| 1 / 2 ≤ |Real.arctan x| := by
  have h := Real.abs_sin_le_abs (x := Real.arctan x)
  rw [Real.sin_arctan] at h
  refine le_trans ?_ h
  have s0 : 0 < √(1 + x ^ 2) := Real.sqrt_pos.mpr (by positivity)
  rw [abs_div, abs_of_pos s0, le_div_iff₀ s0]
  rcases le_total |x| 1 with h1 | h1
  · have s2 : √(1 + x ^ 2) ≤ 2 := by
      rw [Real.sqrt_le_left (by norm_num), ← sq_abs]; nlinarith [abs_nonneg x]
    rw [min_eq_left h1]; nlinarith [abs_nonneg x]
  · have s2 : √(1 + x ^ 2) ≤ 2 * |x| := by
      rw [Real.sqrt_le_left (by positivity), ← sq_abs x]; nlinarith [abs_nonneg x]
    rw [min_eq_right h1]; linarith

theorem arctan_bounds {v : ℚ} (hv : Mfl v) :
    (Real.arctan v ≠ 0 → (2 : ℝ) ^ (-800 : ℤ) ≤ |Real.arctan v|) ∧ |Real.arctan v| ≤ (2 : ℝ) ^ (800 : ℤ) := by
  constructor
  · intro h0
    exact (z_le (by norm_num)).trans ((half_min (hv.ge (by rintro rfl; simp at h0))).trans (arctan_ge _))
  · have h1 := (Real.arctan_lt_pi_div_two v).le
    have h2 := (Real.neg_pi_div_two_lt_arctan v).le
    have h3 : |Real.arctan v| ≤ 4 := abs_le.mpr ⟨by linarith [Real.pi_le_four], by linarith [Real.pi_le_four]⟩
    exact h3.trans ((by norm_num : (4 : ℝ) ≤ 2 ^ (2 : ℤ)).trans (z_le (by norm_num)))

theorem mod_of' {y : ℝ} (h : (y ≠ 0 → (2 : ℝ) ^ (-800 : ℤ) ≤ |y|) ∧ |y| ≤ (2 : ℝ) ^ (800 : ℤ)) : Mod y :=
  mod_of (fun h0 => (z_le (by norm_num)).trans (h.1 h0)) (h.2.trans (z_le (by norm_num)))

theorem tanh_bounds {v : ℚ} (hv : Mfl v) : Mod (Real.tanh v) := by
  refine mod_of (fun h0 => ?_) ?_
  · exact (z_le (by norm_num)).trans ((half_min (hv.ge (by rintro rfl; simp at h0))).trans (abs_tanh_ge _))
  · exact (abs_le.mpr ⟨(Real.neg_one_lt_tanh _).le, (Real.tanh_lt_one _).le⟩).trans le440.2.2

theorem arsinh_ge (x : ℝ) : min |x| 1 / 2 ≤ |Real.arsinh x| := by
  wlog h : 0 ≤ x generalizing x with H
  · have := H (-x) (by linarith)
    rwa [abs_neg, Real.arsinh_neg, abs_neg] at this
  have h1 := log1p_ge (x := x) (by linarith)
  refine h1.trans ?_
  rw [abs_of_nonneg (Real.log_nonneg (by linarith))]
  refine le_trans ?_ (le_abs_self _)
  apply Real.log_le_log (by linarith)
  have : 1 ≤ √(1 + x ^ 2) := Real.one_le_sqrt.mpr (by nlinarith)
  linarith

theorem mod_arsinh {v : ℚ} (hv : Mfl v) : Mod (Real.arsinh v) := by
  refine mod_of (fun h0 => ?_) ?_
  · exact (z_le (by norm_num)).trans ((half_min (hv.ge (by rintro rfl; simp at h0))).trans (arsinh_ge _))
  · have := arsinh_bound (in_real (Or.inr rfl) hv.rep)
    exact this.trans (by rw [← zpow_natCast]; exact z_le (by norm_num))

theorem mod_arcosh {v : ℚ} (hv : Mfl v) (h : 1 ≤ v) : Mod (Real.log (v + √((v : ℝ) ^ 2 - 1))) := by
  by_cases h1 : v = 1
  · subst h1; left; simp
  have h' : (1 : ℝ) ≤ v := by exact_mod_cast h
  obtain ⟨a, -⟩ := log_mod hv (by linarith) h1
  rw [abs_of_nonneg (Real.log_nonneg h')] at a
  have s0 := Real.sqrt_nonneg ((v : ℝ) ^ 2 - 1)
  have s1 : √((v : ℝ) ^ 2 - 1) ≤ v := by rw [Real.sqrt_le_left (by linarith)]; linarith
  have l := Real.log_le_log (by linarith) (show (v : ℝ) ≤ v + √((v : ℝ) ^ 2 - 1) by linarith)
  have u := Real.log_le_sub_one_of_pos (show 0 < (v : ℝ) + √((v : ℝ) ^ 2 - 1) by linarith)
  have n := (Real.log_nonneg h').trans l
  have lv := hv.le
  rw [abs_of_nonneg (by linarith)] at lv
  refine mod_of (fun _ => ?_) ?_ <;> rw [abs_of_nonneg n]
  · exact (z_le (by norm_num)).trans (a.trans l)
  · refine le_trans ?_ (z_le (show (303 : ℤ) ≤ 900 by norm_num))
    have e : (2 : ℝ) ^ (303 : ℤ) = 2 * (2 : ℝ) ^ (302 : ℤ) := by
      rw [show (303 : ℤ) = 1 + 302 by norm_num, zpow_add₀ (by norm_num)]; norm_num
    rw [e]
    generalize (2 : ℝ) ^ (302 : ℤ) = A at *
    linarith

theorem Mfl.neg {v : ℚ} (hv : Mfl v) : Mfl (-v) := by
  refine ⟨In_neg hv.rep, fun h => ?_, ?_⟩
  · push_cast; rw [abs_neg]; exact hv.ge (neg_ne_zero.mp h)
  · push_cast; rw [abs_neg]; exact hv.le

theorem mod_artanh {v : ℚ} (hv : Mfl v) (h : |v| < 1) : Mod (Real.log ((1 + v) / (1 - v)) / 2) := by
  obtain ⟨h1, h2⟩ := abs_lt.mp h
  have h1' : (-1 : ℝ) < v := by exact_mod_cast h1
  have h2' : (v : ℝ) < 1 := by exact_mod_cast h2
  have e : Real.log ((1 + (v : ℝ)) / (1 - v)) = Real.log (1 + v) - Real.log (1 + ((-v : ℚ) : ℝ)) := by
    rw [Real.log_div (by linarith) (by linarith)]; push_cast; ring_nf
  rw [e]
  obtain ⟨-, b1⟩ := log1p_bounds hv h1
  obtain ⟨-, b2⟩ := log1p_bounds hv.neg (by linarith)
  refine mod_of (fun h0 => ?_) ?_
  · have v0 : v ≠ 0 := by rintro rfl; simp at h0
    rw [← e]
    have key : ∀ x : ℝ, 0 ≤ x → x < 1 → |x| / 2 ≤ |Real.log ((1 + x) / (1 - x)) / 2| := by
      intro x hx hx1
      rw [Real.log_div (by linarith) (by linarith)]
      have g1 := Real.log_le_sub_one_of_pos (show 0 < 1 - x by linarith)
      have g2 := Real.log_nonneg (show 1 ≤ 1 + x by linarith)
      rw [abs_of_nonneg hx]
      refine le_trans ?_ (le_abs_self _)
      linarith
    have key2 : |(v : ℝ)| / 2 ≤ |Real.log ((1 + (v : ℝ)) / (1 - v)) / 2| := by
      rcases le_total 0 (v : ℝ) with hp | hp
      · exact key v hp h2'
      · have := key (-v) (by linarith) (by linarith)
        rw [abs_neg, sub_neg_eq_add, ← sub_eq_add_neg] at this
        rwa [← abs_neg (Real.log ((1 + (v : ℝ)) / (1 - v)) / 2), ← neg_div, ← Real.log_inv, inv_div]
    refine le_trans ?_ key2
    have := hv.ge v0
    have e3 : (2 : ℝ) ^ (-303 : ℤ) = (2 : ℝ) ^ (-302 : ℤ) / 2 := by
      rw [show (-303 : ℤ) = -302 - 1 by norm_num, zpow_sub₀ (by norm_num)]; norm_num
    refine (z_le (show (-900 : ℤ) ≤ -303 by norm_num)).trans ?_
    rw [e3]; linarith
  · refine le_trans ?_ (z_le (show (302 : ℤ) ≤ 900 by norm_num))
    rw [abs_div, abs_two]
    have := abs_sub (Real.log (1 + (v : ℝ))) (Real.log (1 + ((-v : ℚ) : ℝ)))
    linarith

end Takum
