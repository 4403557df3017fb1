import Verif.LibmSpec
import Verif.Lemmas.FlReal
import Mathlib.Analysis.SpecialFunctions.Log.Deriv
import Mathlib.Analysis.SpecialFunctions.Trigonometric.DerivHyp
import Mathlib.Analysis.Complex.ExponentialBounds

/-!
# The ideal library meets the hypotheses of `LibmSpec.lean`
-/

namespace Takum

theorem std_prec {F : Fmt} (hF : F = b32 ∨ F = b64 ∨ F = x80) : 1 ≤ F.prec := by
  rcases hF with rfl | rfl | rfl <;> decide

theorem big_std {F : Fmt} (hF : F = b64 ∨ F = x80) : F = b32 ∨ F = b64 ∨ F = x80 := Or.inr hF

theorem rq_real_zero (F : Fmt) : F.rq (0 : ℝ) = 0 := by
  have := F.rq_cast 0; push_cast at this
  rw [this, F.rq_of_rep (Fmt.Rep.zero F)]

theorem rq_real_nonneg (F : Fmt) (hp : 1 ≤ F.prec) {r : ℝ} (h : 0 ≤ r) : 0 ≤ F.rq r := by
  have := F.rq_mono hp h; rwa [rq_real_zero] at this

theorem rq_real_nonpos (F : Fmt) (hp : 1 ≤ F.prec) {r : ℝ} (h : r ≤ 0) : F.rq r ≤ 0 := by
  have := F.rq_mono hp h; rwa [rq_real_zero] at this

theorem rnd_ne_nan (F : Fmt) (r : ℝ) : rnd F r ≠ .nan := by
  unfold rnd Fl.mk; split_ifs <;> simp

theorem rnd_in {F : Fmt} (hF : F = b32 ∨ F = b64 ∨ F = x80) (r : ℝ) : (rnd F r).In F := by
  unfold rnd Fl.mk
  split_ifs with h h0
  · trivial
  · trivial
  · exact ⟨h0, F.rq_real_rep (std_prec hF) r, not_le.mp h⟩

theorem rnd_sgn {F : Fmt} (hF : F = b32 ∨ F = b64 ∨ F = x80) (r : ℝ) : (rnd F r).sgn = decide (r < 0) := by
  unfold rnd Fl.mk
  split_ifs with h h0
  · rfl
  · rfl
  · show decide (F.rq r < 0) = _
    have hp := std_prec hF
    rw [decide_eq_decide]
    constructor
    · intro h1; by_contra h2; exact absurd (rq_real_nonneg F hp (not_lt.mp h2)) (not_le.mpr h1)
    · intro h1; exact lt_of_le_of_ne (rq_real_nonpos F hp h1.le) h0

theorem rnd_is {F : Fmt} {r : ℝ} (h : |F.rq r| < (2 : ℚ) ^ F.emax) : (rnd F r).Is (F.rq r) := by
  unfold rnd; rw [if_neg (not_le.mpr h)]; exact Fl.Is.mk _ _

/-- Between powers of two that are far from overflow and underflow. -/
theorem rq_real_between {F : Fmt} (hp : 1 ≤ F.prec) {r : ℝ} {a b : ℤ} (ha : F.emin ≤ a) (hab : a ≤ b) (h1 : (2 : ℝ) ^ a ≤ r)
    (h2 : r ≤ (2 : ℝ) ^ b) : (2 : ℚ) ^ a ≤ F.rq r ∧ F.rq r ≤ (2 : ℚ) ^ b := by
  refine ⟨F.le_rq_real hp (Fmt.Rep.zpow hp ha) ?_, F.rq_real_le hp (Fmt.Rep.zpow hp (by omega)) ?_⟩
  · push_cast; exact h1
  · push_cast; exact h2

theorem rq_real_neg (F : Fmt) (r : ℝ) : F.rq (-r) = -F.rq r := F.rq_neg r

theorem abs_rq_real (F : Fmt) (hp : 1 ≤ F.prec) (r : ℝ) : |F.rq r| = F.rq |r| := by
  rcases le_total 0 r with h | h
  · rw [abs_of_nonneg h, abs_of_nonneg (rq_real_nonneg F hp h)]
  · rw [abs_of_nonpos h, rq_real_neg, abs_of_nonpos (rq_real_nonpos F hp h)]

theorem rq_real_err {F : Fmt} {x : ℝ} (hx : (2 : ℝ) ^ (F.emin + F.prec) ≤ |x|) :
    |(F.rq x : ℝ) - x| ≤ |x| / 2 ^ F.prec := by
  have hx0 : 0 < |x| := lt_of_lt_of_le (by positivity) hx
  have hl : F.emin + F.prec ≤ Int.log 2 |x| := by
    apply (Int.zpow_le_iff_le_log (b := 2) (by norm_num) hx0).mp; exact_mod_cast hx
  have hj : F.qexp x = Int.log 2 |x| - (F.prec - 1) := by
    unfold Fmt.qexp; apply max_eq_left; omega
  set j := F.qexp x with hj'
  have hpos : (0 : ℝ) < (2 : ℝ) ^ j := by positivity
  have e : (F.rq x : ℝ) = (rne (x / (2 : ℝ) ^ j) : ℝ) * (2 : ℝ) ^ j := by
    unfold Fmt.rq; push_cast; rfl
  have h1 := abs_sub_rne (x / (2 : ℝ) ^ j)
  have h2 : (F.rq x : ℝ) - x = -((x / (2 : ℝ) ^ j - rne (x / (2 : ℝ) ^ j)) * (2 : ℝ) ^ j) := by
    rw [e]; field_simp; ring
  rw [h2, abs_neg, abs_mul, abs_of_pos hpos]
  have h3 : (2 : ℝ) ^ Int.log 2 |x| ≤ |x| := by
    have := Int.zpow_log_le_self (b := 2) (by norm_num) hx0; exact_mod_cast this
  have h4 : (2 : ℝ) ^ j = 2 * ((2 : ℝ) ^ Int.log 2 |x| / 2 ^ F.prec) := by
    rw [hj, zpow_sub₀ (by norm_num), zpow_sub₀ (by norm_num), zpow_natCast, zpow_one]; field_simp
  calc _ ≤ 1 / 2 * (2 : ℝ) ^ j := by gcongr
    _ = (2 : ℝ) ^ Int.log 2 |x| / 2 ^ F.prec := by rw [h4]; ring
    _ ≤ _ := by gcongr

/-! ## NaN -/

theorem ideal_nans : ideal.NaNs where
  log _ := rfl
  log1p _ := rfl
  log2 _ := rfl
  log10 _ := rfl
  exp _ := rfl
  exp2 _ := rfl
  expm1 _ := rfl
  sin _ := rfl
  cos _ := rfl
  tan _ := rfl
  asin _ := rfl
  acos _ := rfl
  atan _ := rfl
  sinh _ := rfl
  cosh _ := rfl
  tanh _ := rfl
  asinh _ := rfl
  acosh _ := rfl
  atanh _ := rfl
  pow_left F y hy := by
    show idealPow F .nan y = .nan
    unfold idealPow
    rw [if_neg (by simp [hy])]
  pow_right F x hx := by
    show idealPow F x .nan = .nan
    unfold idealPow
    rw [if_neg (by simp [hx])]
    cases x <;> rfl
  atan2_left F y := by cases y <;> rfl
  atan2_right F x := by cases x <;> rfl
  hypot_left F y hy := by cases y <;> first | rfl | simp [Fl.isinf] at hy
  hypot_right F x hx := by cases x <;> first | rfl | simp [Fl.isinf] at hx

/-! ## Powers -/

theorem idealPow_is {F : Fmt} {x q : ℚ} (hx : 1 < x) {l : Fl} (hl : l.Is q) :
    (l.Is 0 ∧ q = 0 ∧ idealPow F (.num x) l = .num 1) ∨ idealPow F (.num x) l = rnd F ((x : ℝ) ^ (q : ℝ)) := by
  rcases hl.cases with ⟨h0, rfl⟩ | ⟨rfl, s, rfl⟩
  · right
    unfold idealPow
    rw [if_neg (by simp [hx.ne'])]
    show (if x < 0 ∧ _ then _ else _) = _
    rw [if_neg (by intro h; linarith [h.1])]; rfl
  · left
    refine ⟨hl, rfl, ?_⟩
    unfold idealPow; rw [if_pos (by cases s <;> simp)]

theorem rpow_bounds {x q : ℝ} (h1 : 1 < x) (h2 : x < 2) (hq : |q| ≤ 255) :
    (2 : ℝ) ^ (-255 : ℤ) ≤ x ^ q ∧ x ^ q ≤ (2 : ℝ) ^ (255 : ℤ) := by
  have e1 : (2 : ℝ) ^ (255 : ℤ) = (2 : ℝ) ^ (255 : ℝ) := by
    rw [← Real.rpow_intCast]; norm_num
  have e2 : (2 : ℝ) ^ (-255 : ℤ) = (2 : ℝ) ^ (-255 : ℝ) := by
    rw [← Real.rpow_intCast]; norm_num
  rw [abs_le] at hq
  rw [e1, e2]
  constructor
  · calc (2 : ℝ) ^ (-255 : ℝ) ≤ x ^ (-255 : ℝ) :=
        Real.rpow_le_rpow_of_nonpos (by linarith) h2.le (by norm_num)
      _ ≤ x ^ q := Real.rpow_le_rpow_of_exponent_le h1.le hq.1
  · calc x ^ q ≤ x ^ (255 : ℝ) := Real.rpow_le_rpow_of_exponent_le h1.le hq.2
      _ ≤ _ := Real.rpow_le_rpow (by linarith) h2.le (by norm_num)

theorem one_in {F : Fmt} (hF : F = b32 ∨ F = b64 ∨ F = x80) : F.In (1 : ℚ) := by
  rcases hF with rfl | rfl | rfl <;>
    exact ⟨⟨1, 0, by norm_num, by decide, by decide⟩, by decide +kernel⟩

/-- The rounding of a positive number of moderate size. -/
theorem rnd_moderate {F : Fmt} (hF : F = b64 ∨ F = x80) {r : ℝ} (h1 : (2 : ℝ) ^ (-255 : ℤ) ≤ r) (h2 : r ≤ (2 : ℝ) ^ (255 : ℤ)) :
    rnd F r = .num (F.rq r) ∧ F.In (F.rq r) ∧ (2 : ℚ) ^ (-255 : ℤ) ≤ F.rq r ∧ F.rq r ≤ (2 : ℚ) ^ (255 : ℤ) ∧
      |(F.rq r : ℝ) - r| ≤ r / 2 ^ F.prec := by
  have hp : 1 ≤ F.prec ∧ F.emin + F.prec ≤ -255 ∧ F.emin ≤ -255 ∧ 255 < F.emax := by
    rcases hF with rfl | rfl <;> decide
  obtain ⟨a, b⟩ := rq_real_between hp.1 hp.2.2.1 (by norm_num) h1 h2
  have hr : 0 < r := lt_of_lt_of_le (by positivity) h1
  have h0 : 0 < F.rq r := lt_of_lt_of_le (by positivity) a
  have hb : |F.rq r| < (2 : ℚ) ^ F.emax := by
    rw [abs_of_pos h0]; exact lt_of_le_of_lt b (zpow_lt_zpow_right₀ (by norm_num) hp.2.2.2)
  refine ⟨(rnd_is hb).eq_num h0.ne', ⟨F.rq_real_rep hp.1 r, hb⟩, a, b, ?_⟩
  have := rq_real_err (F := F) (x := r) (by
    rw [abs_of_pos hr]; exact le_trans (zpow_le_zpow_right₀ (by norm_num) hp.2.1) h1)
  rwa [abs_of_pos hr] at this

theorem idealPow_accurate {F : Fmt} (hF : F = b64 ∨ F = x80) {x q : ℚ} {l : Fl} (h1 : 1 < x) (h2 : x < 2)
    (hl : l.Is q) (hq : |q| ≤ 255) :
    ∃ z, idealPow F (.num x) l = .num z ∧ F.In z ∧ (2 : ℚ) ^ (-255 : ℤ) ≤ z ∧ z ≤ (2 : ℚ) ^ (255 : ℤ) ∧
      |(z : ℝ) - (x : ℝ) ^ (q : ℝ)| ≤ 1 / 2 ^ F.prec * (x : ℝ) ^ (q : ℝ) := by
  have hb := rpow_bounds (x := x) (q := q) (by exact_mod_cast h1) (by exact_mod_cast h2) (by exact_mod_cast hq)
  rcases idealPow_is (F := F) h1 hl with ⟨-, rfl, e⟩ | e
  · refine ⟨1, e, one_in (big_std hF), by norm_num, by norm_num, ?_⟩
    simp
  · obtain ⟨a, b, c, d, f⟩ := rnd_moderate hF hb.1 hb.2
    refine ⟨_, e.trans a, b, c, d, ?_⟩
    rw [one_div, inv_mul_eq_div]; exact f

theorem ideal_specials : ideal.Specials where
  log_one F := by
    show (if (1 : ℚ) < 0 then Fl.nan else rnd F (Real.log ((1 : ℚ) : ℝ))) = _
    rw [if_neg (by norm_num), Rat.cast_one, Real.log_one]
    unfold rnd
    rw [rq_real_zero, abs_zero, if_neg (not_le.mpr (by positivity))]
    simp [Fl.mk]
  exp_zero F x s := by
    show idealPow F x (.zero s) = _
    unfold idealPow
    cases s <;> simp
  base_one F y := by
    show idealPow F (.num 1) y = _
    unfold idealPow
    simp
  zero_neg F s q h := by
    show (idealPow F (.zero s) (.num q)).isinf = true
    unfold idealPow
    simp [Fl.sgn, h, Fl.isinf]

theorem ideal_powers : ideal.Powers where
  nan := ideal_nans.pow_right
  neg_inf F x hx := by
    show idealPow F (.num x) (.inf true) = _
    unfold idealPow
    rw [if_neg (by simp [hx.ne'])]
    have : |x| = x := abs_of_pos (by linarith)
    simp [this, hx.ne', not_lt.mpr hx.le]
  nonneg F hF x l h1 h2 hl := by
    show idealPow F (.num x) l ≠ .nan ∧ (idealPow F (.num x) l).sgn = false ∧ (idealPow F (.num x) l).In F
    have h3 : ∀ q : ℝ, idealPow F (.num x) l = rnd F ((x : ℝ) ^ q) → idealPow F (.num x) l ≠ .nan ∧
        (idealPow F (.num x) l).sgn = false ∧ (idealPow F (.num x) l).In F := by
      intro q e
      rw [e]
      refine ⟨rnd_ne_nan _ _, ?_, rnd_in hF _⟩
      rw [rnd_sgn hF, decide_eq_false_iff_not, not_lt]
      have : (0 : ℝ) < x := by exact_mod_cast (by linarith : (0 : ℚ) < x)
      positivity
    cases l with
    | nan => simp [Fl.isfinite] at hl
    | inf s => simp [Fl.isfinite] at hl
    | zero s =>
      have e : idealPow F (.num x) (.zero s) = .num 1 := by
        unfold idealPow; rw [if_pos (by cases s <;> simp)]
      rw [e]; exact ⟨by simp, by simp [Fl.sgn], by norm_num, one_in hF⟩
    | num q =>
      apply h3 q
      unfold idealPow
      rw [if_neg (by simp [h1.ne'])]
      show (if x < 0 ∧ _ then _ else _) = _
      rw [if_neg (by intro h; linarith [h.1])]; rfl
  finite F hF x l q h1 h2 _ hl _ hq := by
    obtain ⟨z, a, b, c, d, -⟩ := idealPow_accurate hF h1 h2 hl hq
    refine ⟨z, a, le_trans (zpow_le_zpow_right₀ (by norm_num) (by norm_num)) c,
      le_trans d (zpow_le_zpow_right₀ (by norm_num) (by norm_num)), b⟩

/-! ## Logarithms -/

/-- A number of the format is 1 or not closer to 1 than `2^-64`. -/
theorem rep_gap {F : Fmt} (hF : F = b64 ∨ F = x80) {q : ℚ} (h : F.Rep q) (h1 : q ≠ 1) : (2 : ℚ) ^ (-64 : ℤ) ≤ |q - 1| := by
  obtain ⟨m, e, rfl, hm, -⟩ := h.mono (G := x80) (by rcases hF with rfl | rfl <;> decide) (by rcases hF with rfl | rfl <;> decide)
  have hm' : |m| < 2 ^ 64 := hm
  rcases lt_or_ge e (-64) with he | he
  · have hb : |(m : ℚ) * 2 ^ e| ≤ 1 / 2 := by
      rw [abs_mul, abs_of_pos (show (0 : ℚ) < 2 ^ e by positivity)]
      have a1 : |(m : ℚ)| ≤ 2 ^ 64 := by exact_mod_cast hm'.le
      have a2 : (2 : ℚ) ^ e ≤ 2 ^ (-65 : ℤ) := zpow_le_zpow_right₀ (by norm_num) (by omega)
      calc |(m : ℚ)| * 2 ^ e ≤ 2 ^ 64 * 2 ^ (-65 : ℤ) := by gcongr
        _ = 1 / 2 := by norm_num
    rw [abs_le] at hb
    rw [abs_of_nonpos (by linarith)]
    exact (show (2 : ℚ) ^ (-64 : ℤ) ≤ 1 / 2 by norm_num).trans (by linarith)
  · obtain ⟨k, hk⟩ : ∃ k : ℤ, (m : ℚ) * 2 ^ e - 1 = k * 2 ^ (-64 : ℤ) := by
      obtain ⟨j, rfl⟩ : ∃ j : ℕ, e = -64 + j := ⟨(e + 64).toNat, by omega⟩
      refine ⟨m * 2 ^ j - 2 ^ 64, ?_⟩
      rw [zpow_add₀ (by norm_num), zpow_natCast]; push_cast
      norm_num; ring
    rw [hk, abs_mul, abs_of_pos (show (0 : ℚ) < 2 ^ (-64 : ℤ) by positivity)]
    have hk0 : k ≠ 0 := by
      rintro rfl; apply h1; simp at hk; linarith
    have : (1 : ℚ) ≤ |(k : ℚ)| := by exact_mod_cast Int.one_le_abs hk0
    nlinarith [show (0 : ℚ) < 2 ^ (-64 : ℤ) by positivity]

theorem in_bounds {F : Fmt} (hF : F = b64 ∨ F = x80) {q : ℚ} (h0 : 0 < q) (h : F.In q) :
    (2 : ℚ) ^ (-16445 : ℤ) ≤ q ∧ q ≤ (2 : ℚ) ^ (16384 : ℤ) := by
  constructor
  · obtain ⟨m, e, rfl, -, he⟩ := h.1
    have : F.emin ≥ -16445 := by rcases hF with rfl | rfl <;> decide
    have hm : (1 : ℚ) ≤ m := by
      have : 0 < m := by
        by_contra h'
        have : (m : ℚ) ≤ 0 := by exact_mod_cast not_lt.mp h'
        have := mul_nonpos_of_nonpos_of_nonneg this (show (0 : ℚ) ≤ 2 ^ e by positivity)
        linarith
      exact_mod_cast this
    calc (2 : ℚ) ^ (-16445 : ℤ) ≤ 2 ^ e := zpow_le_zpow_right₀ (by norm_num) (by omega)
      _ = 1 * 2 ^ e := by ring
      _ ≤ _ := by gcongr
  · refine le_trans (le_abs_self q) (le_trans h.2.le (zpow_le_zpow_right₀ (by norm_num) ?_))
    rcases hF with rfl | rfl <;> decide

theorem log_bound {x : ℝ} (h1 : (2 : ℝ) ^ (-16445 : ℤ) ≤ x) (h2 : x ≤ (2 : ℝ) ^ (16385 : ℤ)) : |Real.log x| ≤ 16445 := by
  have hx : 0 < x := lt_of_lt_of_le (zpow_pos (by norm_num) _) h1
  have a := Real.log_le_log (zpow_pos (by norm_num) _) h1
  have b := Real.log_le_log hx h2
  rw [Real.log_zpow] at a b
  have l1 : Real.log 2 ≤ 1 := by have := Real.log_two_lt_d9; linarith
  have l2 : 0 < Real.log 2 := Real.log_pos (by norm_num)
  rw [abs_le]
  push_cast at a b
  constructor <;> nlinarith

theorem log_gap {q : ℚ} (h0 : 0 < q) (h : (2 : ℚ) ^ (-64 : ℤ) ≤ |q - 1|) : (2 : ℝ) ^ (-65 : ℤ) ≤ |Real.log q| := by
  have h0' : (0 : ℝ) < q := by exact_mod_cast h0
  have h' : (2 : ℝ) ^ (-64 : ℤ) ≤ |(q : ℝ) - 1| := by
    have := (Rat.cast_le (K := ℝ)).mpr h; push_cast at this; exact this
  have e : (2 : ℝ) ^ (-65 : ℤ) = (2 : ℝ) ^ (-64 : ℤ) / 2 := by norm_num
  have hd : (2 : ℝ) ^ (-64 : ℤ) ≤ 1 / 2 := by norm_num
  have hd0 : (0 : ℝ) < (2 : ℝ) ^ (-64 : ℤ) := by positivity
  rw [e]
  set d := (2 : ℝ) ^ (-64 : ℤ)
  clear_value d
  rcases le_abs.mp h' with h2 | h2
  · have a := Real.one_sub_inv_le_log_of_pos h0'
    refine le_trans ?_ (le_trans a (le_abs_self _))
    have : (q : ℝ)⁻¹ ≤ (1 + d)⁻¹ := inv_anti₀ (by linarith) (by linarith)
    have : (1 + d)⁻¹ ≤ 1 - d / 2 := by
      rw [inv_le_comm₀ (by linarith) (by linarith), ← one_div, div_le_iff₀ (by linarith)]; nlinarith
    linarith
  · have a := Real.log_le_sub_one_of_pos h0'
    have b := neg_le_abs (Real.log q)
    linarith

/-- The rounding of a number that is not absurdly large. -/
theorem rnd_bounded {F : Fmt} (hF : F = b64 ∨ F = x80) {r : ℝ} (h : |r| ≤ 2 ^ 100) :
    (rnd F r).Is (F.rq r) ∧ F.In (F.rq r) ∧ |F.rq r| ≤ 2 ^ 100 := by
  have hp : 1 ≤ F.prec ∧ F.emin ≤ 100 ∧ 100 < F.emax := by rcases hF with rfl | rfl <;> decide
  have hb : |F.rq r| ≤ 2 ^ 100 := by
    rw [abs_rq_real F hp.1]
    have := F.rq_real_le hp.1 (x := |r|) (Fmt.Rep.zpow hp.1 hp.2.1) (by push_cast; exact_mod_cast h)
    exact_mod_cast this
  have hb' : |F.rq r| < (2 : ℚ) ^ F.emax := by
    refine lt_of_le_of_lt hb ?_
    exact_mod_cast zpow_lt_zpow_right₀ (a := (2 : ℚ)) (by norm_num) hp.2.2
  exact ⟨rnd_is hb', ⟨F.rq_real_rep hp.1 r, hb'⟩, hb⟩

theorem log_in_bound {F : Fmt} (hF : F = b64 ∨ F = x80) {q : ℚ} (h0 : 0 < q) (h : F.In q) : |Real.log q| ≤ 16445 := by
  obtain ⟨a, b⟩ := in_bounds hF h0 h
  apply log_bound
  · have := (Rat.cast_le (K := ℝ)).mpr a; rw [Rat.cast_zpow] at this; exact this
  · refine le_trans ((Rat.cast_le (K := ℝ)).mpr b) ?_
    rw [Rat.cast_zpow]
    exact zpow_le_zpow_right₀ (by norm_num) (by norm_num)

theorem ideal_accurate : ideal.Accurate where
  pow F hF x l q h1 h2 _ hl _ hq := by
    obtain ⟨z, a, b, -, -, d⟩ := idealPow_accurate hF h1 h2 hl hq
    refine ⟨z, a, b, d.trans ?_⟩
    gcongr; norm_num
  log F hF q h0 h := by
    have e : ideal.log F (.num q) = rnd F (Real.log q) := by
      show idealLog Real.log F (.num q) = _
      unfold idealLog; simp only; rw [if_neg (not_lt.mpr h0.le)]
    have hb := log_in_bound hF h0 h
    obtain ⟨a, b, -⟩ := rnd_bounded hF (r := Real.log q) (hb.trans (by norm_num))
    refine ⟨_, by rw [e]; exact a, b, ?_⟩
    by_cases h1 : q = 1
    · subst h1; simp
    · have g := log_gap h0 (rep_gap hF h.1 h1)
      have := rq_real_err (F := F) (x := Real.log q) (le_trans (zpow_le_zpow_right₀ (by norm_num) (by rcases hF with rfl | rfl <;> decide)) g)
      refine this.trans ?_
      rw [div_eq_mul_inv, mul_comm, ← one_div]
      gcongr; norm_num

theorem idealLog_like (f : ℝ → ℝ) (hf : ∀ q : ℚ, 0 < q → |f q| ≤ 2 * |Real.log q|) : LogLike 0 (idealLog f) where
  below F hF x q hx hq := by
    rw [hx.eq_num hq.ne]; unfold idealLog; simp only; rw [if_pos hq]
  pole F hF x hx := by
    rcases hx.cases with ⟨h, -⟩ | ⟨-, s, rfl⟩
    · exact absurd rfl h
    · rfl
  above F hF x q hx hq hi := by
    rw [hx.eq_num hq.ne']; unfold idealLog; simp only; rw [if_neg (not_lt.mpr hq.le)]
    refine ⟨_, rnd_bounded hF (r := f q) ?_⟩
    have := hf q hq
    have := log_in_bound hF hq hi
    linarith [show (2 : ℝ) * 16445 ≤ 2 ^ 100 by norm_num]

theorem abs_logb_le {b : ℝ} (hb : 2 ≤ b) (x : ℝ) : |Real.logb b x| ≤ 2 * |Real.log x| := by
  have h2 := Real.log_two_gt_d9
  have hl : 1 / 2 ≤ Real.log b := by
    have := Real.log_le_log (by norm_num) hb; linarith
  unfold Real.logb
  rw [abs_div, abs_of_pos (by linarith : 0 < Real.log b), div_le_iff₀ (by linarith)]
  nlinarith [abs_nonneg (Real.log x)]

theorem ideal_logarithms : ideal.Logarithms where
  log := idealLog_like _ (fun q _ => by linarith [abs_nonneg (Real.log q)])
  log2 := idealLog_like _ (fun q _ => abs_logb_le (le_refl _) _)
  log10 := idealLog_like _ (fun q _ => abs_logb_le (by norm_num) _)
  log1p :=
    { below := fun F hF x q hx hq => by
        rw [hx.eq_num (by linarith : q < 0).ne]
        show (if q < -1 then _ else _) = _
        rw [if_pos hq]
      pole := fun F hF x hx => by
        rw [hx.eq_num (by norm_num)]
        show (if (-1 : ℚ) < -1 then Fl.nan else if (-1 : ℚ) = -1 then Fl.inf true
          else rnd F (Real.log (1 + ((-1 : ℚ) : ℝ)))) = _
        rw [if_neg (lt_irrefl _), if_pos rfl]
      above := fun F hF x q hx hq hi => by
        rcases hx.cases with ⟨h0, rfl⟩ | ⟨rfl, s, rfl⟩
        · show ∃ r, Fl.Is (if q < -1 then _ else if q = -1 then _ else _) r ∧ _
          rw [if_neg (not_lt.mpr hq.le), if_neg hq.ne']
          refine ⟨_, rnd_bounded hF (r := Real.log (1 + q)) ?_⟩
          have g := rep_gap hF hi.1.neg (by linarith)
          rw [show -q - 1 = -(1 + q) by ring, abs_neg, abs_of_pos (by linarith)] at g
          refine (log_bound (x := 1 + q) ?_ ?_).trans (by norm_num)
          · have : (2 : ℝ) ^ (-64 : ℤ) ≤ 1 + q := by
              have := (Rat.cast_le (K := ℝ)).mpr g; push_cast at this; exact this
            exact le_trans (zpow_le_zpow_right₀ (by norm_num) (by norm_num)) this
          · have : q ≤ (2 : ℚ) ^ (16384 : ℤ) := by
              rcases lt_or_ge 0 q with h | h
              · exact (in_bounds hF h hi).2
              · exact h.trans (zpow_nonneg (by norm_num) _)
            have h1 : (q : ℝ) ≤ (2 : ℝ) ^ (16384 : ℤ) := by
              have := (Rat.cast_le (K := ℝ)).mpr this; rw [Rat.cast_zpow] at this; exact this
            have h2 : (1 : ℝ) ≤ (2 : ℝ) ^ (16384 : ℤ) := one_le_zpow₀ (by norm_num) (by norm_num)
            have h3 : (2 : ℝ) ^ (16385 : ℤ) = 2 * (2 : ℝ) ^ (16384 : ℤ) := by
              rw [show (16385 : ℤ) = 1 + 16384 by norm_num, zpow_add₀ (by norm_num), zpow_one]
            rw [h3, two_mul]; exact add_le_add h2 h1
        · refine ⟨0, Fl.Is.zero s, ⟨Fmt.Rep.zero F, ?_⟩, by norm_num⟩
          rw [abs_zero]; positivity }

theorem ideal_logs : ideal.Logs where
  finite F hF q h0 h := ideal_logarithms.log.above F hF _ q (Fl.Is.num h0.ne') h0 h

/-! ## Exponentials -/

theorem idealFn_pos {f : ℝ → ℝ} (hf : ∀ x, 0 ≤ f x) (hi lo : Fmt → Fl) {F : Fmt} (hF : F = b32 ∨ F = b64 ∨ F = x80) {x : Fl}
    (hx : x.isfinite = true) :
    idealFn f hi lo F x ≠ .nan ∧ (idealFn f hi lo F x).sgn = false ∧ (idealFn f hi lo F x).In F := by
  have key : ∀ r, rnd F (f r) ≠ .nan ∧ (rnd F (f r)).sgn = false ∧ (rnd F (f r)).In F := fun r =>
    ⟨rnd_ne_nan _ _, by rw [rnd_sgn hF, decide_eq_false_iff_not, not_lt]; exact hf r, rnd_in hF _⟩
  cases x with
  | nan => simp [Fl.isfinite] at hx
  | inf s => simp [Fl.isfinite] at hx
  | zero s => exact key 0
  | num q => exact key q

theorem ideal_exps : ideal.Exps where
  exp F hF x hx _ := idealFn_pos (f := Real.exp) (fun x => (Real.exp_pos x).le) (fun _ => .inf false) (fun _ => .zero false) (big_std hF) hx
  exp2 F hF x hx _ := idealFn_pos (f := fun x => (2 : ℝ) ^ x) (fun x => Real.rpow_nonneg (by norm_num) x) (fun _ => .inf false) (fun _ => .zero false) (big_std hF) hx
  pow10 x hx _ := by
    show idealPow x80 (.num 10) x ≠ .nan ∧ (idealPow x80 (.num 10) x).sgn = false ∧ (idealPow x80 (.num 10) x).In x80
    have hF : x80 = b32 ∨ x80 = b64 ∨ x80 = x80 := by simp
    cases x with
    | nan => simp [Fl.isfinite] at hx
    | inf s => simp [Fl.isfinite] at hx
    | zero s =>
      have e : idealPow x80 (.num 10) (.zero s) = .num 1 := by
        unfold idealPow; rw [if_pos (by cases s <;> simp)]
      rw [e]; exact ⟨by simp, by simp [Fl.sgn], by norm_num, one_in hF⟩
    | num q =>
      have e : idealPow x80 (.num 10) (.num q) = rnd x80 ((10 : ℝ) ^ (q : ℝ)) := by
        unfold idealPow
        rw [if_neg (by simp)]
        show (if (10 : ℚ) < 0 ∧ _ then _ else _) = _
        rw [if_neg (by intro h; linarith [h.1])]
        show rnd x80 (((10 : ℚ) : ℝ) ^ (q : ℝ)) = _
        norm_num
      rw [e]
      exact ⟨rnd_ne_nan _ _, by rw [rnd_sgn hF, decide_eq_false_iff_not, not_lt]; positivity, rnd_in hF _⟩
  expm1 F hF x hx _ := by
    cases x with
    | nan => simp [Fl.isfinite] at hx
    | inf s => simp [Fl.isfinite] at hx
    | zero s => exact ⟨by simp [ideal, idealOdd], trivial⟩
    | num q => exact ⟨rnd_ne_nan _ _, rnd_in (big_std hF) _⟩

/-! ## Hyperbolic functions -/

theorem abs_le_abs_sinh (x : ℝ) : |x| ≤ |Real.sinh x| := by
  rcases le_total 0 x with h | h
  · rw [abs_of_nonneg h]; exact (Real.self_le_sinh_iff.mpr h).trans (le_abs_self _)
  · rw [abs_of_nonpos h]
    exact (neg_le_neg (Real.sinh_le_self_iff.mpr h)).trans (neg_le_abs _)

theorem abs_tanh_ge (x : ℝ) : min |x| 1 / 2 ≤ |Real.tanh x| := by
  wlog hx : 0 ≤ x generalizing x
  · have := this (-x) (by linarith)
    rwa [abs_neg, Real.tanh_neg, abs_neg] at this
  rw [abs_of_nonneg hx]
  have key : ∀ y : ℝ, 0 ≤ y → y ≤ 1 → y / 2 ≤ Real.tanh y := by
    intro y h0 h1
    rw [Real.tanh_eq_sinh_div_cosh, le_div_iff₀ (Real.cosh_pos y)]
    have a := Real.self_le_sinh_iff.mpr h0
    have b : Real.cosh y ≤ 2 := by
      have c : Real.cosh y ≤ Real.cosh 1 := Real.cosh_le_cosh.mpr (by rw [abs_of_nonneg h0, abs_one]; exact h1)
      have d : Real.cosh 1 ≤ 2 := by
        rw [Real.cosh_eq]
        have e1 := Real.exp_one_lt_d9
        have e2 : Real.exp (-1) ≤ 1 := Real.exp_le_one_iff.mpr (by norm_num)
        linarith
      linarith
    nlinarith
  refine le_trans ?_ (le_abs_self _)
  rcases le_total x 1 with h | h
  · rw [min_eq_left h]; exact key x hx h
  · rw [min_eq_right h]
    rw [Real.tanh_eq_sinh_div_cosh, le_div_iff₀ (Real.cosh_pos x), Real.sinh_eq, Real.cosh_eq]
    have e1 : Real.exp 1 ≤ Real.exp x := Real.exp_le_exp.mpr h
    have e2 : Real.exp (-x) ≤ 1 / 2 := by
      rw [Real.exp_neg, one_div]; apply inv_anti₀ (by norm_num)
      linarith [Real.exp_one_gt_d9]
    linarith [Real.exp_one_gt_d9]

theorem ideal_hyperbolics : ideal.Hyperbolics where
  sinh_zero _ _ := rfl
  tanh_zero _ _ := rfl
  sinh F hF q h0 hq := by
    have hp := std_prec (big_std hF)
    have e : ideal.sinh F (.num q) = rnd F (Real.sinh q) := rfl
    have hs : (Real.sinh q < 0 ↔ q < 0) := by rw [Real.sinh_neg_iff]; exact_mod_cast Iff.rfl
    rw [e]
    have hge : |q| ≤ |F.rq (Real.sinh q)| := by
      rw [abs_rq_real F hp]
      apply F.le_rq_real hp hq.1.abs
      push_cast; exact abs_le_abs_sinh _
    have h0' : F.rq (Real.sinh q) ≠ 0 := by
      intro h; rw [h, abs_zero] at hge; exact h0 (abs_eq_zero.mp (le_antisymm hge (abs_nonneg _)))
    have hsg := rnd_sgn (big_std hF) (Real.sinh q)
    by_cases hb : |F.rq (Real.sinh q)| < (2 : ℚ) ^ F.emax
    · right
      have := (rnd_is hb).eq_num h0'
      refine ⟨_, this, ⟨F.rq_real_rep hp _, hb⟩, by linarith [abs_nonneg q], ?_⟩
      rw [this] at hsg
      have : decide (F.rq (Real.sinh q) < 0) = decide (Real.sinh q < 0) := hsg
      rw [decide_eq_decide] at this
      rw [this, hs]
    · left
      unfold rnd; rw [if_pos (not_lt.mp hb)]
      simp [hs]
  cosh F hF x q hx hq := by
    have hp := std_prec (big_std hF)
    have e : ideal.cosh F x = rnd F (Real.cosh q) := by
      rcases hx.cases with ⟨h0, rfl⟩ | ⟨rfl, s, rfl⟩
      · rfl
      · show rnd F (Real.cosh 0) = _; push_cast; rfl
    rw [e]
    have hge : 1 ≤ F.rq (Real.cosh q) := F.le_rq_real hp (one_in (big_std hF)).1 (by push_cast; exact Real.one_le_cosh _)
    by_cases hb : |F.rq (Real.cosh q)| < (2 : ℚ) ^ F.emax
    · right; exact ⟨_, (rnd_is hb).eq_num (by linarith), ⟨F.rq_real_rep hp _, hb⟩, hge⟩
    · left; unfold rnd; rw [if_pos (not_lt.mp hb)]
      rw [decide_eq_false (not_lt.mpr (Real.cosh_pos _).le)]
  tanh F hF q h0 hq := by
    have hp := std_prec (big_std hF)
    have hq0 : 0 < |q| := lt_of_lt_of_le (by positivity) h0
    have e : ideal.tanh F (.num q) = rnd F (Real.tanh q) := rfl
    rw [e]
    have h1 : |F.rq (Real.tanh q)| ≤ 1 := by
      rw [abs_rq_real F hp]
      apply F.rq_real_le hp (one_in (big_std hF)).1
      push_cast; exact (Real.abs_tanh_lt_one _).le
    have hb : |F.rq (Real.tanh q)| < (2 : ℚ) ^ F.emax := by
      refine lt_of_le_of_lt h1 ?_
      apply one_lt_zpow₀ (by norm_num); rcases hF with rfl | rfl <;> decide
    have hg := abs_tanh_ge (q : ℝ)
    have hm : (2 : ℝ) ^ (-300 : ℤ) ≤ min |(q : ℝ)| 1 := by
      apply le_min
      · have := (Rat.cast_le (K := ℝ)).mpr h0; push_cast at this; exact this
      · exact zpow_le_one_of_nonpos₀ (by norm_num) (by norm_num)
    have herr := rq_real_err (F := F) (x := Real.tanh q) (by
      refine le_trans ?_ hg
      refine le_trans ?_ (div_le_div_of_nonneg_right hm (by norm_num))
      rw [show (2 : ℝ) ^ (-300 : ℤ) / 2 = 2 ^ (-301 : ℤ) by
        rw [show (-301 : ℤ) = -300 - 1 by norm_num, zpow_sub₀ (by norm_num), zpow_one]]
      apply zpow_le_zpow_right₀ (by norm_num); rcases hF with rfl | rfl <;> decide)
    have hge : min |q| 1 / 4 ≤ |F.rq (Real.tanh q)| := by
      rw [← Rat.cast_le (K := ℝ)]
      push_cast
      have h2 : |Real.tanh q| / 2 ^ F.prec ≤ |Real.tanh q| / 2 := by
        apply div_le_div_of_nonneg_left (abs_nonneg _) (by norm_num)
        calc (2 : ℝ) = 2 ^ 1 := by norm_num
          _ ≤ 2 ^ F.prec := pow_le_pow_right₀ (by norm_num) hp
      have h3 := abs_sub_abs_le_abs_sub (Real.tanh q) (F.rq (Real.tanh q) : ℝ)
      rw [abs_sub_comm] at h3
      linarith
    have h0' : F.rq (Real.tanh q) ≠ 0 := by
      intro h; rw [h, abs_zero] at hge
      have : 0 < min |q| 1 := lt_min hq0 (by norm_num)
      linarith
    have hsg := rnd_sgn (big_std hF) (Real.tanh q)
    have hn := (rnd_is hb).eq_num h0'
    refine ⟨_, hn, ⟨F.rq_real_rep hp _, hb⟩, hge, h1, ?_⟩
    rw [hn] at hsg
    have : decide (F.rq (Real.tanh q) < 0) = decide (Real.tanh q < 0) := hsg
    rw [decide_eq_decide] at this
    rw [this, Real.tanh_eq_sinh_div_cosh, div_lt_iff₀ (Real.cosh_pos _), zero_mul, Real.sinh_neg_iff]
    exact_mod_cast Iff.rfl

end Takum
