import Verif.MonoSpec2
import Verif.Lemmas.IdealMono
import Mathlib.Analysis.SpecialFunctions.Complex.Arg
import Mathlib.Analysis.SpecialFunctions.Trigonometric.Arctan

/-! # The ideal `pow`, `hypot` and `atan2` are monotone -/

namespace Takum

theorem ideal_pow_pos {F : Fmt} (hF : F = b64 ∨ F = x80) {x z : Fl} {p c : ℚ} (hx : x.Is p) (hz : z.Is c) (h : 0 < p) : ideal.pow F x z = rnd F ((p : ℝ) ^ (c : ℝ)) := by
  have hx := hx.eq_num h.ne'
  subst hx
  show idealPow F (.num p) z = _
  unfold idealPow
  rcases hz.cases with ⟨h0, rfl⟩ | ⟨rfl, s, rfl⟩
  · by_cases h1 : p = 1
    · subst h1; simp [rnd_one hF]
    · simp [h1, h.not_gt, Fl.toQ]
  · cases s <;> simp [rnd_one hF]

theorem arg_pos_re {x y : ℝ} (h : 0 < x) : Complex.arg ⟨x, y⟩ = Real.arctan (y / x) := by
  have h1 : |Complex.arg ⟨x, y⟩| < Real.pi / 2 := Complex.abs_arg_lt_pi_div_two_iff.mpr (Or.inl h)
  have h2 := Complex.tan_arg (⟨x, y⟩ : ℂ)
  obtain ⟨a, b⟩ := abs_lt.mp h1
  rw [← Real.arctan_tan a b, h2]

theorem arg_pos_im {x y : ℝ} (h : 0 < y) : Complex.arg ⟨x, y⟩ = Real.pi / 2 - Real.arctan (x / y) := by
  have e : (⟨x, y⟩ : ℂ) = ⟨y, -x⟩ * Complex.I := by apply Complex.ext <;> simp
  have n : (⟨y, -x⟩ : ℂ) ≠ 0 := by intro h'; have := congrArg Complex.re h'; simp at this; linarith
  have b := Complex.abs_arg_lt_pi_div_two_iff.mpr (Or.inl h : (0 : ℝ) < (⟨y, -x⟩ : ℂ).re ∨ _)
  obtain ⟨b1, b2⟩ := abs_lt.mp b
  rw [e, Complex.arg_mul n Complex.I_ne_zero, Complex.arg_I, arg_pos_re h, neg_div, Real.arctan_neg]
  · ring
  · rw [Complex.arg_I]; constructor <;> linarith [Real.pi_pos]

theorem arg_neg_im {x y : ℝ} (h : y < 0) : Complex.arg ⟨x, y⟩ = -Complex.arg ⟨x, -y⟩ := by
  have e : (⟨x, -y⟩ : ℂ) = (starRingEnd ℂ) ⟨x, y⟩ := by apply Complex.ext <;> simp
  rw [e, Complex.arg_conj, if_neg]
  · ring
  · intro h'
    have := Complex.arg_neg_iff.mpr (show (⟨x, y⟩ : ℂ).im < 0 from h)
    rw [h'] at this; linarith [Real.pi_pos]

/-- `atan2` of two numbers of which the second is positive or the first is not 0. -/
theorem ideal_atan2_eq {F : Fmt} {y x : Fl} {q p : ℚ} (hy : y.Is q) (hx : x.Is p) (h : 0 < p ∨ q ≠ 0) :
    ideal.atan2 F y x = rnd F (Complex.arg ⟨p, q⟩) ∨ (q = 0 ∧ 0 < p ∧ ∃ s, ideal.atan2 F y x = .zero s) := by
  rcases hy.cases with ⟨h0, rfl⟩ | ⟨rfl, s, rfl⟩
  · left
    rcases hx.cases with ⟨h0', rfl⟩ | ⟨rfl, s, rfl⟩
    · rfl
    · show rnd F ((if q < 0 then -1 else 1) * (Real.pi / 2)) = _
      congr 1
      rcases lt_or_gt_of_ne h0 with hq | hq
      · have hq' : (q : ℝ) < 0 := by exact_mod_cast hq
        rw [if_pos hq, arg_neg_im hq', arg_pos_im (by linarith)]; simp
      · have hq' : (0 : ℝ) < q := by exact_mod_cast hq
        rw [if_neg (not_lt.mpr hq.le), arg_pos_im hq']; simp
  · right
    have h : 0 < p := by simpa using h
    have := hx.eq_num h.ne'
    subst this
    refine ⟨rfl, h, s, ?_⟩
    show (if (decide (p < 0)) = true then _ else Fl.zero s) = _
    simp [h.not_gt]

theorem atan2_ival {F : Fmt} {y x : Fl} {q p : ℚ} (hy : y.Is q) (hx : x.Is p) (h : 0 < p ∨ q ≠ 0) : IVal F (ideal.atan2 F y x) 0 (Complex.arg ⟨p, q⟩) := by
  rcases ideal_atan2_eq (F := F) hy hx h with e | ⟨rfl, h, e⟩
  · exact Or.inl ⟨rfl, Or.inl e⟩
  · refine Or.inl ⟨rfl, Or.inr ⟨?_, e⟩⟩
    rw [arg_pos_re (by exact_mod_cast h)]; simp

theorem hypot_ival {F : Fmt} {x y : Fl} {p q : ℚ} (hx : x.Is p) (hy : y.Is q) : IVal F (ideal.hypot F x y) 0 (Real.sqrt ((p : ℝ) ^ 2 + (q : ℝ) ^ 2)) := by
  rcases hx.cases with ⟨h0, rfl⟩ | ⟨rfl, s, rfl⟩ <;> rcases hy.cases with ⟨h0', rfl⟩ | ⟨rfl, s', rfl⟩
  · exact Or.inl ⟨rfl, Or.inl rfl⟩
  · exact Or.inl ⟨rfl, Or.inl rfl⟩
  · exact Or.inl ⟨rfl, Or.inl rfl⟩
  · exact Or.inl ⟨rfl, Or.inr ⟨by simp, false, rfl⟩⟩

theorem ideal_monotone_two : ideal.MonotoneTwo where
  pow_base F hF x y z p q c hx hy hz _ _ _ h0 h := by
    have h0' : (0 : ℝ) < p := by exact_mod_cast h0
    have h' : (p : ℝ) ≤ q := by exact_mod_cast h
    rw [ideal_pow_pos hF hx hz h0, ideal_pow_pos hF hy hz (h0.trans_le h)]
    exact ⟨fun hc => rnd_le hF (Real.rpow_le_rpow h0'.le h' (by exact_mod_cast hc)), fun hc => rnd_le hF (Real.rpow_le_rpow_of_nonpos h0' h' (by exact_mod_cast hc))⟩
  pow_exponent F hF x y z p c d hx hy hz _ _ _ h0 h := by
    have h0' : (0 : ℝ) < p := by exact_mod_cast h0
    have h' : (c : ℝ) ≤ d := by exact_mod_cast h
    rw [ideal_pow_pos hF hx hy h0, ideal_pow_pos hF hx hz h0]
    exact ⟨fun hp => rnd_le hF (Real.rpow_le_rpow_of_exponent_le (by exact_mod_cast hp) h'), fun hp => rnd_le hF (Real.rpow_le_rpow_of_exponent_ge h0' (by exact_mod_cast hp) h')⟩
  hypot F hF x y x' y' p q p' q' hx hy hx' hy' _ _ _ _ h1 h2 := by
    refine IVal.le hF (hypot_ival hx hy) (hypot_ival hx' hy') (Or.inr ⟨rfl, fun _ => Real.sqrt_le_sqrt ?_⟩)
    have h1 : (p : ℝ) ^ 2 ≤ (p' : ℝ) ^ 2 := by exact_mod_cast sq_le_sq.mpr h1
    have h2 : (q : ℝ) ^ 2 ≤ (q' : ℝ) ^ 2 := by exact_mod_cast sq_le_sq.mpr h2
    linarith
  hypot_type F hF x y p q hx hy _ _ := ⟨(hypot_ival hx hy).type hF,
    IVal.le hF (c := 0) (r := 0) (Or.inl ⟨rfl, Or.inr ⟨rfl, false, rfl⟩⟩) (hypot_ival hx hy) (Or.inr ⟨rfl, fun _ => Real.sqrt_nonneg _⟩)⟩
  atan2 F hF y y' x q q' p hy hy' hx _ _ _ h0 h := by
    have h0' : (0 : ℝ) < p := by exact_mod_cast h0
    have h' : (q : ℝ) ≤ q' := by exact_mod_cast h
    refine IVal.le hF (atan2_ival hy hx (Or.inl h0)) (atan2_ival hy' hx (Or.inl h0)) (Or.inr ⟨rfl, fun _ => ?_⟩)
    rw [arg_pos_re h0', arg_pos_re h0']
    exact Real.arctan_strictMono.monotone (div_le_div_of_nonneg_right h' h0'.le)
  atan2_right F hF y x x' q p p' hy hx hx' _ _ _ h := by
    have h' : (p : ℝ) ≤ p' := by exact_mod_cast h
    constructor
    · intro h0
      have h0' : (0 : ℝ) < q := by exact_mod_cast h0
      refine IVal.le hF (atan2_ival hy hx' (Or.inr h0.ne')) (atan2_ival hy hx (Or.inr h0.ne')) (Or.inr ⟨rfl, fun _ => ?_⟩)
      rw [arg_pos_im h0', arg_pos_im h0']
      linarith [Real.arctan_strictMono.monotone (div_le_div_of_nonneg_right h' h0'.le)]
    · intro h0
      have h0' : (q : ℝ) < 0 := by exact_mod_cast h0
      refine IVal.le hF (atan2_ival hy hx (Or.inr h0.ne)) (atan2_ival hy hx' (Or.inr h0.ne)) (Or.inr ⟨rfl, fun _ => ?_⟩)
      rw [arg_neg_im h0', arg_neg_im h0', arg_pos_im (by linarith), arg_pos_im (by linarith)]
      linarith [Real.arctan_strictMono.monotone (div_le_div_of_nonneg_right h' (by linarith : (0 : ℝ) ≤ -q))]
  atan2_type F hF y x q p hy hx _ _ := by
    rcases hy.cases with ⟨h0, rfl⟩ | ⟨rfl, s, rfl⟩
    · exact (atan2_ival hy hx (Or.inr h0)).type hF
    · have e : ideal.atan2 F (.zero s) x = if x.sgn then rnd F ((if s then -1 else 1) * Real.pi) else .zero s := by
        rcases hx.cases with ⟨-, rfl⟩ | ⟨-, s', rfl⟩ <;> rfl
      rw [e]
      split_ifs
      · exact rnd_in (std3 hF) _
      · exact rnd_in (std3 hF) _
      · trivial

end Takum
