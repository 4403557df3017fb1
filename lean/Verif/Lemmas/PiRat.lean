import Verif.Lemmas.Fl
import Mathlib.Analysis.SpecialFunctions.Complex.Arctan
import Mathlib.Analysis.SpecialFunctions.Trigonometric.Arctan
import Mathlib.Analysis.SpecialFunctions.Trigonometric.Bounds
import Mathlib.Analysis.SpecificLimits.Normed
import Mathlib.Analysis.Real.Pi.Bounds

/-!
# No float of moderate size is close to a multiple of `π / 2`

From a rational approximation of `π` with a denominator of 369 bits.
-/

namespace Takum

set_option exponentiation.threshold 1000

/-- Partial sum of the series of `arctan (1 / N)`. -/
def atn (N : ℕ) : ℕ → ℚ
  | 0 => 0
  | n + 1 => atn N n + (-1) ^ n * (1 / ((2 * n + 1) * N ^ (2 * n + 1)))

theorem atn_cast (N n : ℕ) : ((atn N n : ℚ) : ℝ) =
    ∑ i ∈ Finset.range n, (-1) ^ i * (((N : ℝ)⁻¹) ^ (2 * i + 1) / ((2 * i + 1 : ℕ) : ℝ)) := by
  induction n with
  | zero => simp [atn]
  | succ n ih =>
    rw [Finset.sum_range_succ, ← ih, atn]
    push_cast
    congr 2
    rw [inv_pow, one_div, mul_inv, div_eq_mul_inv]; ring

theorem atn_bounds {N : ℕ} (hN : 1 < N) (k : ℕ) :
    ((atn N (2 * k) : ℚ) : ℝ) ≤ Real.arctan (N : ℝ)⁻¹ ∧ Real.arctan (N : ℝ)⁻¹ ≤ ((atn N (2 * k + 1) : ℚ) : ℝ) := by
  have hN' : (1 : ℝ) < N := by exact_mod_cast hN
  have x0 : (0 : ℝ) < (N : ℝ)⁻¹ := by positivity
  have x1 : (N : ℝ)⁻¹ < 1 := inv_lt_one_of_one_lt₀ hN'
  have hs := Real.hasSum_arctan (x := (N : ℝ)⁻¹) (by rw [Real.norm_eq_abs, abs_of_pos x0]; exact x1)
  have hl := hs.tendsto_sum_nat
  have hl' : Filter.Tendsto (fun n => ∑ i ∈ Finset.range n, (-1 : ℝ) ^ i * (((N : ℝ)⁻¹) ^ (2 * i + 1) / ((2 * i + 1 : ℕ) : ℝ)))
      Filter.atTop (nhds (Real.arctan (N : ℝ)⁻¹)) := by
    refine hl.congr fun n => Finset.sum_congr rfl fun i _ => by rw [mul_div_assoc]
  have ha : Antitone (fun i : ℕ => ((N : ℝ)⁻¹) ^ (2 * i + 1) / ((2 * i + 1 : ℕ) : ℝ)) := by
    refine antitone_nat_of_succ_le fun n => ?_
    apply div_le_div₀ (by positivity) _ (by positivity) (by push_cast; linarith)
    exact pow_le_pow_of_le_one x0.le x1.le (by omega)
  rw [atn_cast, atn_cast]
  exact ⟨ha.alternating_series_le_tendsto hl' k, ha.tendsto_le_alternating_series hl' k⟩

/-- A convergent of `π`. -/
def piP : ℤ := 2625397072861489382588344261687387254435871926529993731146464100493982987897495070145726512633321412171197679089
def piQ : ℤ := 835689843449797870236408561148115030549932222584920582606149081619573261013899944902083382503968172305253536930

theorem pi_approx : |Real.pi * piQ - piP| ≤ 2 / 5 / piQ := by
  have h5 := atn_bounds (N := 5) (by norm_num) 85
  have h239 := atn_bounds (N := 239) (by norm_num) 30
  have hm := Real.four_mul_arctan_inv_5_sub_arctan_inv_239
  push_cast at h5 h239
  have lo : (((4 * (4 * atn 5 170 - atn 239 61)) : ℚ) : ℝ) ≤ Real.pi := by push_cast; linarith [h5.1, h239.2]
  have hi : Real.pi ≤ (((4 * (4 * atn 5 171 - atn 239 60)) : ℚ) : ℝ) := by push_cast; linarith [h5.2, h239.1]
  have l1 : (piP : ℚ) - 2 / 5 / piQ ≤ 4 * (4 * atn 5 170 - atn 239 61) * piQ := by decide +kernel
  have l2 : 4 * (4 * atn 5 171 - atn 239 60) * piQ ≤ (piP : ℚ) + 2 / 5 / piQ := by decide +kernel
  have q0 : (0 : ℝ) < piQ := by exact_mod_cast (by decide : (0 : ℤ) < piQ)
  have l1 : (((piP : ℚ) - 2 / 5 / piQ : ℚ) : ℝ) ≤ ((4 * (4 * atn 5 170 - atn 239 61) * piQ : ℚ) : ℝ) := by exact_mod_cast l1
  have l2 : ((4 * (4 * atn 5 171 - atn 239 60) * piQ : ℚ) : ℝ) ≤ (((piP : ℚ) + 2 / 5 / piQ : ℚ) : ℝ) := by exact_mod_cast l2
  push_cast at l1 l2 lo hi
  have m1 := mul_le_mul_of_nonneg_right lo q0.le
  have m2 := mul_le_mul_of_nonneg_right hi q0.le
  rw [abs_le]; constructor <;> linarith

/-- No integer is close to a small multiple of `π`. -/
theorem pi_far {a b : ℤ} (hb : b ≠ 0) (hq : |b| < piQ) : (1 : ℝ) / (2 * piQ) ≤ |(a : ℝ) - b * Real.pi| := by
  have q0 : (0 : ℤ) < piQ := by decide
  have q0' : (0 : ℝ) < piQ := by exact_mod_cast q0
  have hc : Int.gcd piP piQ = 1 := by decide +kernel
  have hne : a * piQ - b * piP ≠ 0 := by
    intro h
    have : piQ ∣ b * piP := ⟨a, by linarith⟩
    have : piQ ∣ b := by
      have hc' : IsCoprime piQ piP := by rw [Int.isCoprime_iff_gcd_eq_one, Int.gcd_comm]; exact hc
      exact hc'.dvd_of_dvd_mul_right this
    have := Int.eq_zero_of_abs_lt_dvd this hq
    exact hb this
  have h1 : (1 : ℝ) ≤ |(a : ℝ) * piQ - b * piP| := by exact_mod_cast Int.one_le_abs hne
  have h2 : |(b : ℝ) * (Real.pi * piQ - piP)| ≤ 2 / 5 := by
    rw [abs_mul]
    have hb' : |(b : ℝ)| ≤ piQ := by exact_mod_cast hq.le
    calc _ ≤ (piQ : ℝ) * (2 / 5 / piQ) := mul_le_mul hb' pi_approx (abs_nonneg _) q0'.le
      _ = 2 / 5 := by field_simp
  have h3 : |(a : ℝ) * piQ - b * piP| ≤ |(a : ℝ) - b * Real.pi| * piQ + |(b : ℝ) * (Real.pi * piQ - piP)| := by
    rw [← abs_of_pos q0', ← abs_mul, abs_of_pos q0']
    refine le_trans (le_of_eq ?_) (abs_add_le _ _)
    congr 1; ring
  have h4 : (1 : ℝ) / 2 ≤ |(a : ℝ) - b * Real.pi| * piQ := by linarith
  rw [div_le_iff₀ (by positivity)]; linarith

/-- The distance from the integral multiples of `π / 2`. -/
theorem trig_far {v : ℚ} (hr : x80.Rep v) (h1 : 1 ≤ |v|) (k : ℤ) (hk : |k| ≤ 2 ^ 302) (h0 : k ≠ 0) :
    (1 : ℝ) / 2 ^ 435 ≤ |(v : ℝ) - k * (Real.pi / 2)| := by
  obtain ⟨j, e, hv, hj, he⟩ := hr
  have hj' : |j| < 2 ^ 64 := hj
  have he' : -64 ≤ e := by
    by_contra h
    push Not at h
    have : |v| < 1 := by
      rw [hv, abs_mul, abs_of_pos (zpow_pos (by norm_num : (0 : ℚ) < 2) e)]
      have a : |(j : ℚ)| < 2 ^ (64 : ℤ) := by exact_mod_cast hj'
      calc _ < (2 : ℚ) ^ (64 : ℤ) * 2 ^ e := by apply mul_lt_mul_of_pos_right a (by positivity)
        _ = (2 : ℚ) ^ (64 + e) := by rw [← zpow_add₀ (by norm_num)]
        _ ≤ 2 ^ (0 : ℤ) := zpow_le_zpow_right₀ (by norm_num) (by omega)
        _ = 1 := by norm_num
    linarith
  obtain ⟨d, hd⟩ := Int.eq_ofNat_of_zero_le (show 0 ≤ e + 64 by omega)
  have ha : v * 2 ^ 65 = ((2 * j * 2 ^ d : ℤ) : ℚ) := by
    rw [hv, show e = (d : ℤ) - 64 by omega, zpow_sub₀ (by norm_num)]
    push_cast
    rw [zpow_natCast]
    norm_num
    ring
  have hf := pi_far (a := 2 * j * 2 ^ d) (b := k * 2 ^ 64) (by positivity) (by
    rw [abs_mul]
    calc |k| * |(2 : ℤ) ^ 64| ≤ 2 ^ 302 * 2 ^ 64 := by
          rw [abs_of_pos (by positivity : (0 : ℤ) < 2 ^ 64)]
          exact mul_le_mul_of_nonneg_right hk (by positivity)
      _ < piQ := by decide +kernel)
  have ha' : (v : ℝ) * 2 ^ 65 = ((2 * j * 2 ^ d : ℤ) : ℝ) := by
    have := congrArg (Rat.cast (K := ℝ)) ha
    push_cast at this ⊢; exact this
  rw [← ha'] at hf
  have e1 : (v : ℝ) * 2 ^ 65 - ((k * 2 ^ 64 : ℤ) : ℝ) * Real.pi = ((v : ℝ) - k * (Real.pi / 2)) * 2 ^ 65 := by
    push_cast; ring
  rw [e1, abs_mul, abs_of_pos (by positivity : (0 : ℝ) < 2 ^ 65)] at hf
  have hq : (1 : ℝ) / 2 ^ 370 ≤ 1 / (2 * piQ) := by
    apply one_div_le_one_div_of_le
    · exact_mod_cast (by decide : (0 : ℤ) < 2 * piQ)
    · exact_mod_cast (by decide +kernel : 2 * piQ ≤ 2 ^ 370)
  have : (1 : ℝ) / 2 ^ 435 * 2 ^ 65 = 1 / 2 ^ 370 := by norm_num
  have p : (0 : ℝ) < 2 ^ 65 := by positivity
  by_contra hc
  push Not at hc
  have := mul_lt_mul_of_pos_right hc p
  linarith

theorem abs_sin_sub (x : ℝ) (k : ℤ) : |Real.sin (x - k * Real.pi)| = |Real.sin x| := by
  have h := abs_cos_int_mul_pi k
  have : Real.sin (x - k * Real.pi) = Real.sin x * Real.cos (k * Real.pi) := by
    rw [Real.sin_sub, Real.sin_int_mul_pi]; ring
  rw [this, abs_mul, h, mul_one]
where
  abs_cos_int_mul_pi (k : ℤ) : |Real.cos (k * Real.pi)| = 1 := by
    have h1 := Real.sin_sq_add_cos_sq (k * Real.pi)
    rw [Real.sin_int_mul_pi] at h1
    have : Real.cos (k * Real.pi) ^ 2 = 1 := by linarith
    rw [← sq_abs] at this
    nlinarith [abs_nonneg (Real.cos (k * Real.pi))]

/-- A number within half a period of the nearest multiple of `π`. -/
theorem near_pi (x : ℝ) : ∃ k : ℤ, |x - k * Real.pi| ≤ Real.pi / 2 ∧ |(k : ℝ)| ≤ |x| + 1 := by
  have hp := Real.pi_gt_three
  refine ⟨round (x / Real.pi), ?_, ?_⟩
  · have h := abs_sub_round (x / Real.pi)
    have : x - (round (x / Real.pi) : ℤ) * Real.pi = (x / Real.pi - (round (x / Real.pi) : ℤ)) * Real.pi := by field_simp
    rw [this, abs_mul, abs_of_pos (by linarith : 0 < Real.pi)]
    nlinarith
  · have h := abs_sub_round (x / Real.pi)
    have h2 : |x / Real.pi| ≤ |x| := by
      rw [abs_div, abs_of_pos (by linarith : 0 < Real.pi)]
      exact div_le_self (abs_nonneg _) (by linarith)
    have h3 : |((round (x / Real.pi) : ℤ) : ℝ)| ≤ |x / Real.pi| + |x / Real.pi - (round (x / Real.pi) : ℤ)| := by
      rw [← abs_neg (x / Real.pi - _)]
      refine le_trans (le_of_eq ?_) (abs_add_le _ _)
      congr 1; ring
    linarith

theorem two_div_pi : (1 : ℝ) / 2 ≤ 2 / Real.pi := by
  have := Real.pi_lt_four; have := Real.pi_pos
  rw [div_le_div_iff₀ (by norm_num) (by linarith)]; linarith

theorem real_bounds {v : ℚ} (h2 : |v| ≤ (2 : ℚ) ^ (300 : ℤ)) : |(v : ℝ)| ≤ 2 ^ 300 := by
  have := (Rat.cast_le (K := ℝ)).mpr h2
  rw [Rat.cast_zpow, Rat.cast_abs] at this
  exact_mod_cast this

/-- The sine of a float of moderate size is not tiny. -/
theorem sin_far {v : ℚ} (hr : x80.Rep v) (h1 : (2 : ℚ) ^ (-300 : ℤ) ≤ |v|) (h2 : |v| ≤ (2 : ℚ) ^ (300 : ℤ)) :
    (1 : ℝ) / 2 ^ 440 ≤ |Real.sin v| := by
  have p3 := Real.pi_gt_three
  by_cases h : |v| < 1
  · have hv : |(v : ℝ)| < 1 := by exact_mod_cast h
    have := Real.mul_abs_le_abs_sin (x := (v : ℝ)) (by linarith)
    have h1' : (1 : ℝ) / 2 ^ 300 ≤ |(v : ℝ)| := by
      have := (Rat.cast_le (K := ℝ)).mpr h1
      rw [Rat.cast_zpow, Rat.cast_abs] at this
      refine le_trans (le_of_eq ?_) this
      rw [zpow_neg]; norm_num
    have t := two_div_pi
    have : (1 : ℝ) / 2 * (1 / 2 ^ 300) ≤ 2 / Real.pi * |(v : ℝ)| := mul_le_mul t h1' (by positivity) (by positivity)
    have : (1 : ℝ) / 2 ^ 440 ≤ 1 / 2 * (1 / 2 ^ 300) := by norm_num
    linarith
  · push Not at h
    have hv : 1 ≤ |(v : ℝ)| := by exact_mod_cast h
    have hv2 := real_bounds h2
    obtain ⟨k, hk, hk'⟩ := near_pi (v : ℝ)
    have b := Real.mul_abs_le_abs_sin hk
    rw [abs_sin_sub] at b
    have t := two_div_pi
    have f : (1 : ℝ) / 2 ^ 435 ≤ |(v : ℝ) - k * Real.pi| := by
      by_cases k0 : k = 0
      · rw [k0]; simp only [Int.cast_zero, zero_mul, sub_zero]
        refine le_trans ?_ hv; norm_num
      · have := trig_far hr h (2 * k) (by
          have : |(k : ℝ)| ≤ 2 ^ 300 + 1 := by linarith
          have : |k| ≤ 2 ^ 300 + 1 := by exact_mod_cast this
          rw [abs_mul]
          norm_num at this ⊢
          linarith) (by omega)
        push_cast at this
        rwa [show (2 : ℝ) * k * (Real.pi / 2) = k * Real.pi by ring] at this
    have : (1 : ℝ) / 2 * (1 / 2 ^ 435) ≤ 2 / Real.pi * |(v : ℝ) - k * Real.pi| := mul_le_mul t f (by positivity) (by positivity)
    have : (1 : ℝ) / 2 ^ 440 ≤ 1 / 2 * (1 / 2 ^ 435) := by norm_num
    linarith

/-- The cosine of a float of moderate size is not tiny. -/
theorem cos_far {v : ℚ} (hr : x80.Rep v) (h2 : |v| ≤ (2 : ℚ) ^ (300 : ℤ)) : (1 : ℝ) / 2 ^ 440 ≤ |Real.cos v| := by
  have p3 := Real.pi_gt_three
  by_cases h : |v| < 1
  · have hv : |(v : ℝ)| < 1 := by exact_mod_cast h
    have := Real.one_sub_sq_div_two_le_cos (x := (v : ℝ))
    have hs : (v : ℝ) ^ 2 ≤ 1 := by rw [← sq_abs]; nlinarith [abs_nonneg (v : ℝ)]
    have : (1 : ℝ) / 2 ≤ Real.cos v := by linarith
    have h3 := le_abs_self (Real.cos v)
    have : (1 : ℝ) / 2 ^ 440 ≤ 1 / 2 := by norm_num
    linarith
  · push Not at h
    have hv : 1 ≤ |(v : ℝ)| := by exact_mod_cast h
    have hv2 := real_bounds h2
    obtain ⟨k, hk, hk'⟩ := near_pi ((v : ℝ) + Real.pi / 2)
    have b := Real.mul_abs_le_abs_sin hk
    rw [abs_sin_sub, Real.sin_add_pi_div_two] at b
    have t := two_div_pi
    have hp4 := Real.pi_lt_four
    have hk2 : |(k : ℝ)| ≤ 2 ^ 300 + 3 := by
      have := abs_add_le (v : ℝ) (Real.pi / 2)
      rw [abs_of_pos (by linarith : 0 < Real.pi / 2)] at this
      linarith
    have hk3 : |k| ≤ 2 ^ 300 + 3 := by exact_mod_cast hk2
    have f : (1 : ℝ) / 2 ^ 435 ≤ |(v : ℝ) - ((2 * k - 1 : ℤ) : ℝ) * (Real.pi / 2)| :=
      trig_far hr h (2 * k - 1) (by
        rw [abs_le] at hk3 ⊢
        norm_num at hk3 ⊢
        constructor <;> linarith) (by omega)
    push_cast at f
    rw [show (v : ℝ) - (2 * k - 1) * (Real.pi / 2) = v + Real.pi / 2 - k * Real.pi by ring] at f
    have : (1 : ℝ) / 2 * (1 / 2 ^ 435) ≤ 2 / Real.pi * |(v : ℝ) + Real.pi / 2 - k * Real.pi| := mul_le_mul t f (by positivity) (by positivity)
    have : (1 : ℝ) / 2 ^ 440 ≤ 1 / 2 * (1 / 2 ^ 435) := by norm_num
    linarith

end Takum
