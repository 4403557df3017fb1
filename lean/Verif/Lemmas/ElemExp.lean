import Verif.Lemmas.ElemAcc

/-! # Accuracy of the exponential and hyperbolic functions on floats -/

namespace Takum
open Spec

theorem dbl_max' {F : Fmt} (hF : F = b64 ∨ F = x80) : ∃ q : ℚ, DBL_MAX = .num q ∧ (2 : ℚ) ^ (990 : ℤ) ≤ q ∧ F.In q := by
  obtain ⟨q, e, -, i⟩ := dbl_max hF
  refine ⟨q, e, ?_, i⟩
  unfold DBL_MAX at e
  injection e with e
  rw [← e]; decide +kernel

theorem dbl_min' {F : Fmt} (hF : F = b64 ∨ F = x80) : ∃ q : ℚ, DBL_MIN = .num q ∧ 0 < q ∧ q ≤ (2 : ℚ) ^ (-990 : ℤ) ∧ F.In q := by
  obtain ⟨q, e, p, i⟩ := dbl_min hF
  refine ⟨q, e, p, ?_, i⟩
  unfold DBL_MIN at e
  injection e with e
  rw [← e]; decide +kernel

theorem cast_z {q : ℚ} {k : ℤ} : ((2 : ℚ) ^ k ≤ q ↔ (2 : ℝ) ^ k ≤ q) ∧ (q ≤ (2 : ℚ) ^ k ↔ (q : ℝ) ≤ (2 : ℝ) ^ k) := by
  constructor
  · rw [← Rat.cast_le (K := ℝ), Rat.cast_zpow, Rat.cast_ofNat]
  · rw [← Rat.cast_le (K := ℝ), Rat.cast_zpow, Rat.cast_ofNat]

theorem lt990 : (2 : ℝ) ^ (300 : ℤ) < (2 : ℝ) ^ (990 : ℤ) ∧ (2 : ℝ) ^ (-990 : ℤ) < (2 : ℝ) ^ (-300 : ℤ) :=
  ⟨zpow_lt_zpow_right₀ (by norm_num) (by norm_num), zpow_lt_zpow_right₀ (by norm_num) (by norm_num)⟩

theorem beyond_big {z : ℚ} {y : ℝ} (hz : (2 : ℚ) ^ (990 : ℤ) ≤ z) (hy : (2 : ℝ) ^ (990 : ℤ) ≤ y) :
    Beyond ((2 : ℝ) ^ (300 : ℤ)) ((2 : ℝ) ^ (-300 : ℤ)) z y :=
  Or.inl ⟨lt990.1.trans_le (cast_z.1.mp hz), lt990.1.trans_le hy⟩

theorem beyond_neg {z y : ℝ} (h : Beyond ((2 : ℝ) ^ (300 : ℤ)) ((2 : ℝ) ^ (-300 : ℤ)) (-z) (-y)) :
    Beyond ((2 : ℝ) ^ (300 : ℤ)) ((2 : ℝ) ^ (-300 : ℤ)) z y := by
  unfold Beyond at *
  rcases h with h | h | h | h
  · exact Or.inr (Or.inl ⟨by linarith [h.1], by linarith [h.2]⟩)
  · exact Or.inl ⟨by linarith [h.1], by linarith [h.2]⟩
  · exact Or.inr (Or.inr (Or.inr ⟨by linarith [h.2.1], by linarith [h.1], by linarith [h.2.2.2], by linarith [h.2.2.1]⟩))
  · exact Or.inr (Or.inr (Or.inl ⟨by linarith [h.2.1], by linarith [h.1], by linarith [h.2.2.2], by linarith [h.2.2.1]⟩))

theorem beyond_small {z : ℚ} {y : ℝ} (h0 : 0 < z) (hz : z ≤ (2 : ℚ) ^ (-990 : ℤ)) (hy0 : 0 < y) (hy : y ≤ (2 : ℝ) ^ (-990 : ℤ)) :
    Beyond ((2 : ℝ) ^ (300 : ℤ)) ((2 : ℝ) ^ (-300 : ℤ)) z y :=
  Or.inr (Or.inr (Or.inl ⟨by exact_mod_cast h0, (cast_z.2.mp hz).trans_lt lt990.2, hy0, hy.trans_lt lt990.2⟩))

theorem near_ne {F : Fmt} {ε y : ℝ} {x : Fl} (h : Near F ε y x) (he : ε < 1) (hy : y ≠ 0) : ∃ z : ℚ, x.Is z ∧ z ≠ 0 := by
  obtain ⟨z, a, b, c⟩ := h
  refine ⟨z, a, ?_⟩
  rintro rfl
  have := abs_pos.mpr hy
  rw [Rat.cast_zero, zero_sub, abs_neg] at c
  nlinarith

/-- The fixers turn any correct result into an accurate or saturating one. -/
theorem fixExp_ext {F : Fmt} (hF : F = b64 ∨ F = x80) {ε y : ℝ} {x : Fl} (a : Fl) (h : Ext F ε y x) (he : ε < 1) (hy : 0 < y) :
    Res F (ε * |y|) y (fixExp a x) := by
  rcases h with ⟨-, h2⟩ | ⟨-, h1, z, i, j, c, d⟩ | ⟨h1, h2⟩
  · obtain ⟨z, i, z0⟩ := near_ne h2 he hy.ne'
    rw [fixExp_is i z0]; exact h2.res
  · rw [abs_of_pos hy] at h1
    by_cases z0 : z = 0
    · obtain ⟨m, e, p1, p2, p3⟩ := dbl_min' hF
      have : fixExp a x = DBL_MIN := by unfold fixExp; rw [if_pos ((Fl.eq_iff i (Fl.Is.zero false)).mpr z0)]
      rw [this, e]
      exact ⟨m, Fl.Is.num p1.ne', p3, Or.inr (beyond_small p1 p2 hy h1)⟩
    · rw [fixExp_is i z0]
      have zp : 0 < z := by
        have : (0 : ℝ) ≤ z := nonneg_of_mul_nonneg_left d hy
        exact lt_of_le_of_ne (by exact_mod_cast this) (Ne.symm z0)
      rw [abs_of_pos zp] at c
      exact ⟨z, i, j, Or.inr (beyond_small zp c hy h1)⟩
  · rw [abs_of_pos hy] at h1
    rcases h2 with rfl | ⟨z, rfl, j, c, d⟩
    · obtain ⟨m, e, p1, p2⟩ := dbl_max' hF
      have : fixExp a (.inf (decide (y < 0))) = DBL_MAX := by simp [fixExp, Fl.eq, Fl.isinf]
      rw [this, e]
      exact ⟨m, Fl.Is.num (lt_of_lt_of_le (by positivity) p1).ne', p2, Or.inr (beyond_big p1 h1)⟩
    · have z0 : z ≠ 0 := by rintro rfl; rw [abs_zero] at c; exact absurd c (not_le.mpr (by positivity))
      rw [fixExp_is (Fl.Is.num z0) z0]
      have zp : 0 ≤ z := by exact_mod_cast (nonneg_of_mul_nonneg_left d hy : (0 : ℝ) ≤ z)
      rw [abs_of_nonneg zp] at c
      exact ⟨z, Fl.Is.num z0, j, Or.inr (beyond_big c h1)⟩

theorem fixInf_ext {F : Fmt} (hF : F = b64 ∨ F = x80) {ε y : ℝ} {x : Fl} (a : Fl) (h : Ext F ε y x) (hy : -1 ≤ y)
    (hl : y ≠ 0 → (2 : ℝ) ^ (-900 : ℤ) ≤ |y|) : Res F (ε * |y|) y (fixInf a x) := by
  rcases h with ⟨-, h2⟩ | ⟨h0, h1, -⟩ | ⟨h1, h2⟩
  · rw [fixInf_is h2.choose_spec.1]; exact h2.res
  · exact absurd ((hl h0).trans h1) (not_le.mpr (zpow_lt_zpow_right₀ (by norm_num) (by norm_num)))
  · have hp : 0 ≤ y := by
      by_contra hc
      have b : |y| ≤ 1 := abs_le.mpr ⟨hy, by linarith⟩
      exact absurd (h1.trans b) (not_le.mpr (one_lt_zpow₀ (by norm_num) (by norm_num)))
    rw [abs_of_nonneg hp] at h1
    have hy : 0 < y := lt_of_lt_of_le (by positivity) h1
    rcases h2 with rfl | ⟨z, rfl, j, c, d⟩
    · obtain ⟨m, e, p1, p2⟩ := dbl_max' hF
      have : fixInf a (.inf (decide (y < 0))) = DBL_MAX := by simp [fixInf, Fl.isinf]
      rw [this, e]
      exact ⟨m, Fl.Is.num (lt_of_lt_of_le (by positivity) p1).ne', p2, Or.inr (beyond_big p1 h1)⟩
    · have z0 : z ≠ 0 := by rintro rfl; rw [abs_zero] at c; exact absurd c (not_le.mpr (by positivity))
      rw [fixInf_is (Fl.Is.num z0)]
      have zp : 0 ≤ z := by exact_mod_cast (nonneg_of_mul_nonneg_left d hy : (0 : ℝ) ≤ z)
      rw [abs_of_nonneg zp] at c
      exact ⟨z, Fl.Is.num z0, j, Or.inr (beyond_big c h1)⟩

theorem fixSinh_ext {F : Fmt} (hF : F = b64 ∨ F = x80) {ε y : ℝ} {x : Fl} (a : Fl) (h : Ext F ε y x)
    (hl : y ≠ 0 → (2 : ℝ) ^ (-900 : ℤ) ≤ |y|) : Res F (ε * |y|) y (fixSinh a x) := by
  rcases h with ⟨-, h2⟩ | ⟨h0, h1, -⟩ | ⟨h1, h2⟩
  · rw [fixSinh_is h2.choose_spec.1]; exact h2.res
  · exact absurd ((hl h0).trans h1) (not_le.mpr (zpow_lt_zpow_right₀ (by norm_num) (by norm_num)))
  · obtain ⟨m, e, p1, p2⟩ := dbl_max' hF
    have m0 : m ≠ 0 := (lt_of_lt_of_le (by positivity) p1).ne'
    rcases lt_or_ge y 0 with hy | hy
    · rw [abs_of_neg hy] at h1
      rcases h2 with rfl | ⟨z, rfl, j, c, d⟩
      · have : fixSinh a (.inf (decide (y < 0))) = DBL_MAX.neg := by simp [fixSinh, hy, Fl.isinf, Fl.le, Fl.lt, Fl.eq]
        rw [this, e]
        refine ⟨-m, (Fl.Is.num m0).neg, In_neg p2, Or.inr (beyond_neg ?_)⟩
        push_cast; rw [neg_neg]; exact beyond_big p1 h1
      · have z0 : z ≠ 0 := by rintro rfl; rw [abs_zero] at c; exact absurd c (not_le.mpr (by positivity))
        rw [fixSinh_is (Fl.Is.num z0)]
        have zp : z ≤ 0 := by
          by_contra hc
          have : (0 : ℝ) < z := by exact_mod_cast not_le.mp hc
          exact absurd d (not_le.mpr (mul_neg_of_pos_of_neg this hy))
        rw [abs_of_nonpos zp] at c
        refine ⟨z, Fl.Is.num z0, j, Or.inr (beyond_neg ?_)⟩
        have := beyond_big c h1; push_cast at this; exact this
    · rw [abs_of_nonneg hy] at h1
      have hy' : 0 < y := lt_of_lt_of_le (by positivity) h1
      rcases h2 with rfl | ⟨z, rfl, j, c, d⟩
      · have : fixSinh a (.inf (decide (y < 0))) = DBL_MAX := by
          simp [fixSinh, not_lt.mpr hy, Fl.isinf, Fl.le, Fl.lt]
        rw [this, e]
        exact ⟨m, Fl.Is.num m0, p2, Or.inr (beyond_big p1 h1)⟩
      · have z0 : z ≠ 0 := by rintro rfl; rw [abs_zero] at c; exact absurd c (not_le.mpr (by positivity))
        rw [fixSinh_is (Fl.Is.num z0)]
        have zp : 0 ≤ z := by exact_mod_cast (nonneg_of_mul_nonneg_left d hy' : (0 : ℝ) ≤ z)
        rw [abs_of_nonneg zp] at c
        exact ⟨z, Fl.Is.num z0, j, Or.inr (beyond_big c h1)⟩

theorem fixCsch_ext {F : Fmt} (hF : F = b64 ∨ F = x80) {ε y : ℝ} {x a : Fl} {v : ℚ} (ha : a.Is v) (hs : v < 0 ↔ y < 0) (h : Ext F ε y x) (he : ε < 1)
    (h0 : y ≠ 0) (hu : |y| ≤ (2 : ℝ) ^ (900 : ℤ)) : Res F (ε * |y|) y (fixCsch a x) := by
  rcases h with ⟨-, h2⟩ | ⟨-, h1, z, i, j, c, d⟩ | ⟨h1, -⟩
  · obtain ⟨z, i, z0⟩ := near_ne h2 he h0
    rw [fixCsch_is i z0]; exact h2.res
  · obtain ⟨m, e, p1, p2, p3⟩ := dbl_min' hF
    rcases lt_or_ge y 0 with hy | hy
    · rw [abs_of_neg hy] at h1
      have hy' : 0 < -y := by linarith
      by_cases z0 : z = 0
      · have : fixCsch a x = DBL_MIN.neg := by
          unfold fixCsch
          rw [if_pos ((Fl.eq_iff i (Fl.Is.zero false)).mpr z0), if_pos ((Fl.lt_iff ha (Fl.Is.zero false)).mpr (hs.mpr hy))]
        rw [this, e]
        refine ⟨-m, (Fl.Is.num p1.ne').neg, In_neg p3, Or.inr (beyond_neg ?_)⟩
        push_cast; rw [neg_neg]; exact beyond_small p1 p2 hy' h1
      · rw [fixCsch_is i z0]
        have zp : z < 0 := by
          refine lt_of_le_of_ne ?_ z0
          by_contra hc
          have : (0 : ℝ) < z := by exact_mod_cast not_le.mp hc
          exact absurd d (not_le.mpr (mul_neg_of_pos_of_neg this hy))
        rw [abs_of_neg zp] at c
        refine ⟨z, i, j, Or.inr (beyond_neg ?_)⟩
        have := beyond_small (by linarith : 0 < -z) c hy' h1; push_cast at this; exact this
    · have hy' : 0 < y := lt_of_le_of_ne hy (Ne.symm h0)
      rw [abs_of_pos hy'] at h1
      by_cases z0 : z = 0
      · have : fixCsch a x = DBL_MIN := by
          unfold fixCsch
          rw [if_pos ((Fl.eq_iff i (Fl.Is.zero false)).mpr z0), if_neg]
          rw [Fl.lt_iff ha (Fl.Is.zero false), hs]; exact not_lt.mpr hy
        rw [this, e]
        exact ⟨m, Fl.Is.num p1.ne', p3, Or.inr (beyond_small p1 p2 hy' h1)⟩
      · rw [fixCsch_is i z0]
        have zp : 0 < z := by
          have : (0 : ℝ) ≤ z := nonneg_of_mul_nonneg_left d hy'
          exact lt_of_le_of_ne (by exact_mod_cast this) (Ne.symm z0)
        rw [abs_of_pos zp] at c
        exact ⟨z, i, j, Or.inr (beyond_small zp c hy' h1)⟩
  · exact absurd (h1.trans hu) (not_le.mpr (zpow_lt_zpow_right₀ (by norm_num) (by norm_num)))

theorem fixSech_ext {F : Fmt} (hF : F = b64 ∨ F = x80) {ε y : ℝ} {x : Fl} (a : Fl) (h : Ext F ε y x) (he : ε < 1)
    (h0 : 0 < y) (hu : |y| ≤ (2 : ℝ) ^ (900 : ℤ)) : Res F (ε * |y|) y (fixSech a x) := by
  rcases h with ⟨-, h2⟩ | ⟨-, h1, z, i, j, c, d⟩ | ⟨h1, -⟩
  · obtain ⟨z, i, z0⟩ := near_ne h2 he h0.ne'
    rw [fixSech_is i z0]; exact h2.res
  · obtain ⟨m, e, p1, p2, p3⟩ := dbl_min' hF
    rw [abs_of_pos h0] at h1
    by_cases z0 : z = 0
    · have : fixSech a x = DBL_MIN := by
        unfold fixSech
        rw [if_pos ((Fl.eq_iff i (Fl.Is.zero false)).mpr z0)]
      rw [this, e]
      exact ⟨m, Fl.Is.num p1.ne', p3, Or.inr (beyond_small p1 p2 h0 h1)⟩
    · rw [fixSech_is i z0]
      have zp : 0 < z := by
        have : (0 : ℝ) ≤ z := nonneg_of_mul_nonneg_left d h0
        exact lt_of_le_of_ne (by exact_mod_cast this) (Ne.symm z0)
      rw [abs_of_pos zp] at c
      exact ⟨z, i, j, Or.inr (beyond_small zp c h0 h1)⟩
  · exact absurd (h1.trans hu) (not_le.mpr (zpow_lt_zpow_right₀ (by norm_num) (by norm_num)))

theorem Ext.mono {F : Fmt} {ε δ y : ℝ} {x : Fl} (h : Ext F ε y x) (hd : ε ≤ δ) : Ext F δ y x := by
  rcases h with ⟨a, b⟩ | h
  · exact Or.inl ⟨a, b.mono hd⟩
  · exact Or.inr h

theorem ext_castfun {L : Libm} {u : UFun} (hu : CastFun u = true) {F : Fmt} (hF : F = b64 ∨ F = x80) {r : Fl} {ε y : ℝ}
    (h : Ext x80 ε y (u.evl L r)) (he : ε ≤ 8 / 2 ^ 64) : Ext F (8 / 2 ^ F.prec) y (u.ev L F r) := by
  rcases hF with rfl | rfl
  · rw [ev_b64, evd_cast L hu]
    refine (h.cast (by norm_num at *; linarith)).mono ?_
    have : b64.prec = 53 := rfl
    rw [this]; norm_num at *; linarith
  · rw [ev_x80]; exact h.mono he

theorem eight_lt {F : Fmt} (hF : F = b64 ∨ F = x80) : (8 : ℝ) / 2 ^ F.prec < 1 := by
  rcases hF with rfl | rfl
  · show (8 : ℝ) / 2 ^ 53 < 1; norm_num
  · show (8 : ℝ) / 2 ^ 64 < 1; norm_num

section
variable {L : Libm} (hA : L.Approximates) {w : W} {F : Fmt} (hF : F = b64 ∨ F = x80) {r : Fl} {v : ℚ} {x : ℝ} (h : Arg F w r v x)
include hA hF h

theorem good_exp : Good L .exp F r v := by
  refine ⟨v, argPert_nonneg _ v, Or.inr ⟨id, ?_⟩⟩
  show Res F (8 / 2 ^ F.prec * |Real.exp v|) (Real.exp v) (fixExp r (UFun.exp.ev L F r))
  rw [ev_direct (f := L.exp) rfl rfl hF]
  exact fixExp_ext hF r ((hA.exp F hF r v h.is h.isIn).ext.mono (four_le F)) (eight_lt hF) (Real.exp_pos _)

theorem good_two_raised : Good L .two_raised F r v := by
  refine ⟨v, argPert_nonneg _ v, Or.inr ⟨id, ?_⟩⟩
  show Res F (8 / 2 ^ F.prec * |(2 : ℝ) ^ (v : ℝ)|) ((2 : ℝ) ^ (v : ℝ)) (fixExp r (UFun.two_raised.ev L F r))
  rw [ev_direct (f := L.exp2) rfl rfl hF]
  exact fixExp_ext hF r ((hA.exp2 F hF r v h.is h.isIn).ext.mono (four_le F)) (eight_lt hF) (by positivity)

omit hA hF h in
theorem ten_in : x80.In 10 := ⟨⟨10, 0, by norm_num, by decide, by decide⟩, by
  refine lt_of_lt_of_le (by norm_num : |(10 : ℚ)| < 2 ^ (4 : ℤ)) (zpow_le_zpow_right₀ (by norm_num) (by decide))⟩

theorem pow10_approx : Approx x80 ((10 : ℝ) ^ (v : ℝ)) (L.pow x80 (.num 10) r) := by
  have := hA.pow x80 (Or.inr rfl) (.num 10) r 10 v (Fl.Is.num (by norm_num)) ten_in (by norm_num) h.is (in_x80 hF h.isIn)
  rwa [Rat.cast_ofNat] at this

theorem good_ten_raised : Good L .ten_raised F r v := by
  refine ⟨v, argPert_nonneg _ v, Or.inr ⟨id, ?_⟩⟩
  refine fixExp_ext hF r (ext_castfun rfl hF (pow10_approx hA hF h).ext ?_) (eight_lt hF) ?_
  · norm_num [prec80]
  · show (0 : ℝ) < (10 : ℝ) ^ (v : ℝ); positivity

theorem good_exp_minus_1 : Good L .exp_minus_1 F r v := by
  refine ⟨v, argPert_nonneg _ v, Or.inr ⟨id, ?_⟩⟩
  show Res F (8 / 2 ^ F.prec * |Real.exp v - 1|) (Real.exp v - 1) (fixInf r (UFun.exp_minus_1.ev L F r))
  rw [ev_direct (f := L.expm1) rfl rfl hF]
  refine fixInf_ext hF r ((hA.expm1 F hF r v h.is h.isIn).ext.mono (four_le F)) (by linarith [Real.exp_pos v]) fun h0 => ?_
  exact (z_le (by norm_num)).trans ((half_min ((h.mfl hF).ge (by rintro rfl; simp at h0))).trans (expm1_ge _))

theorem good_sinh : Good L .sinh F r v := by
  refine ⟨v, argPert_nonneg _ v, Or.inr ⟨id, ?_⟩⟩
  show Res F (8 / 2 ^ F.prec * |Real.sinh v|) (Real.sinh v) (fixSinh r (UFun.sinh.ev L F r))
  rw [ev_direct (f := L.sinh) rfl rfl hF]
  refine fixSinh_ext hF r ((hA.sinh F hF r v h.is h.isIn).ext.mono (four_le F)) fun h0 => ?_
  exact (z_le (by norm_num)).trans (((h.mfl hF).ge (by rintro rfl; simp at h0)).trans (abs_le_abs_sinh _))

omit hA hF h in
theorem one_le_zpow900 : (1 : ℝ) ≤ (2 : ℝ) ^ (900 : ℤ) ∧ (2 : ℝ) ^ (-900 : ℤ) ≤ 1 := by
  constructor
  · have := z_le (show (0 : ℤ) ≤ 900 by norm_num); simpa using this
  · have := z_le (show (-900 : ℤ) ≤ 0 by norm_num); simpa using this

theorem good_cosh : Good L .cosh F r v := by
  refine ⟨v, argPert_nonneg _ v, Or.inr ⟨id, ?_⟩⟩
  show Res F (8 / 2 ^ F.prec * |Real.cosh v|) (Real.cosh v) (fixInf r (UFun.cosh.ev L F r))
  rw [ev_direct (f := L.cosh) rfl rfl hF]
  have c1 := Real.one_le_cosh v
  refine fixInf_ext hF r ((hA.cosh F hF r v h.is h.isIn).ext.mono (four_le F)) (by linarith) fun h0 => ?_
  rw [abs_of_pos (by linarith)]; exact one_le_zpow900.2.trans c1

theorem good_sech : Good L .sech F r v := by
  refine ⟨v, argPert_nonneg _ v, Or.inr ⟨id, ?_⟩⟩
  show Res F (8 / 2 ^ F.prec * |1 / Real.cosh v|) (1 / Real.cosh v) (fixSech r (UFun.sech.ev L F r))
  rw [ev_direct (f := fun F f => Fl.div F (.num 1) (L.cosh F f)) rfl rfl hF]
  have c1 := Real.one_le_cosh v
  have c0 : 0 < Real.cosh v := by linarith
  have hp : F.prec = 53 ∨ F.prec = 64 := by rcases hF with rfl | rfl <;> decide
  refine fixSech_ext hF r (((hA.cosh F hF r v h.is h.isIn).ext.inv hF c0.ne' ?_ ?_).mono ?_) (eight_lt hF) (by positivity) ?_
  · rw [abs_of_pos c0]; exact one_le_zpow900.2.trans c1
  · rcases hp with e | e <;> rw [e] <;> norm_num
  · rcases hp with e | e <;> rw [e] <;> norm_num
  · rw [abs_of_pos (by positivity)]
    refine le_trans ?_ one_le_zpow900.1
    rw [div_le_one c0]; exact c1

theorem good_csch (hL : L.Conforming) : Good L .csch F r v := by
  refine ⟨v, argPert_nonneg _ v, ?_⟩
  by_cases hv : v = 0
  · left
    refine ⟨?_, (csch_core hL.hyperbolics hF h).1 hv⟩
    show (v : ℝ) = 0
    rw [hv]; simp
  · have hv' : (v : ℝ) ≠ 0 := by exact_mod_cast hv
    refine Or.inr ⟨hv', ?_⟩
    have b := ((h.mfl hF).ge hv).trans (abs_le_abs_sinh v)
    have b' := (z_le (show (-900 : ℤ) ≤ -302 by norm_num)).trans b
    have s0 : Real.sinh v ≠ 0 := by
      intro h0; rw [h0, abs_zero] at b; exact absurd b (not_le.mpr (by positivity))
    have := (hA.sinh x80 (Or.inr rfl) r v h.is (in_x80 hF h.isIn)).ext.inv (Or.inr rfl) s0 b' (by norm_num [prec80])
    refine fixCsch_ext hF h.is ?_ (ext_castfun (u := .csch) rfl hF this ?_) (eight_lt hF) (one_div_ne_zero s0) ?_
    · show v < 0 ↔ 1 / Real.sinh v < 0
      rw [one_div_neg, Real.sinh_neg_iff]; norm_cast
    · norm_num [prec80]
    · show |1 / Real.sinh v| ≤ _
      rw [abs_div, abs_one, show (900 : ℤ) = -(-900) by norm_num, zpow_neg, ← one_div]
      exact one_div_le_one_div_of_le (by positivity) b'

end

/-! ## `2^x - 1` and `10^x - 1` -/

/-- Accurate relative to `|y| + 1`, or huge. -/
def Sc (F : Fmt) (ε y : ℝ) (x : Fl) : Prop :=
  (|y| ≤ (2 : ℝ) ^ (1001 : ℤ) ∧ ∃ z : ℚ, x.Is z ∧ F.In z ∧ |(z : ℝ) - y| ≤ ε * (|y| + 1)) ∨
  ((2 : ℝ) ^ (980 : ℤ) ≤ y ∧ (x = .inf false ∨ ∃ z : ℚ, x = .num z ∧ F.In z ∧ (2 : ℚ) ^ (980 : ℤ) ≤ z))

theorem rq_err_add {F : Fmt} (hF : F = b64 ∨ F = x80) (q : ℚ) : |(F.rq q : ℝ) - q| ≤ |(q : ℝ)| / 2 ^ F.prec + (2 : ℝ) ^ (-1000 : ℤ) := by
  have hp : 1 ≤ F.prec ∧ F.emin + F.prec ≤ -1001 ∧ F.emin ≤ -1001 := by
    rcases hF with rfl | rfl <;> decide
  rcases lt_or_ge |(q : ℝ)| ((2 : ℝ) ^ (-1001 : ℤ)) with hq | hq
  · have h1 : |F.rq q| ≤ (2 : ℚ) ^ (-1001 : ℤ) := by
      apply F.abs_rq_le hp.1 (Fmt.Rep.zpow hp.1 hp.2.2)
      apply cast_z.2.mpr
      rw [Rat.cast_abs]; exact hq.le
    have h2 := cast_z.2.mp h1
    rw [Rat.cast_abs] at h2
    have h3 := abs_sub (F.rq q : ℝ) q
    rw [zm1001] at hq h2
    have : 0 ≤ |(q : ℝ)| / 2 ^ F.prec := by positivity
    linarith
  · have := rq_real_err (F := F) ((zpow_le_zpow_right₀ (by norm_num) hp.2.1).trans hq)
    rw [Fmt.rq_cast] at this
    have : (0 : ℝ) < 2 ^ (-1000 : ℤ) := by positivity
    linarith

theorem round_sc {F : Fmt} (hF : F = b64 ∨ F = x80) {q : ℚ} {y ε : ℝ} (hy : |y| ≤ (2 : ℝ) ^ (1001 : ℤ)) (h : |(q : ℝ) - y| ≤ ε * (|y| + 1)) (he : ε ≤ 1 / 4) (s : Bool) :
    ∃ z : ℚ, (Fl.round F s q).Is z ∧ F.In z ∧ |(z : ℝ) - y| ≤ (ε + 1.26 / 2 ^ F.prec) * (|y| + 1) := by
  have hp : 1 ≤ F.prec ∧ F.emin ≤ 1003 ∧ 1003 < F.emax ∧ (F.prec ≤ 64) := by
    rcases hF with rfl | rfl <;> decide
  have y0 := abs_nonneg y
  have h3 := mul_le_mul_of_nonneg_right he (by linarith : 0 ≤ |y| + 1)
  have h4 : |(q : ℝ)| ≤ 1.25 * (|y| + 1) := by
    have := abs_add_le ((q : ℝ) - y) y
    rw [sub_add_cancel] at this; norm_num at *; linarith
  have h8 : |F.rq q| ≤ (2 : ℚ) ^ (1003 : ℤ) := by
    apply F.abs_rq_le hp.1 (Fmt.Rep.zpow hp.1 hp.2.1)
    apply cast_z.2.mpr
    rw [Rat.cast_abs]
    have e : (2 : ℝ) ^ (1003 : ℤ) = 4 * (2 : ℝ) ^ (1001 : ℤ) := by
      rw [show (1003 : ℤ) = 2 + 1001 by norm_num, zpow_add₀ (by norm_num)]; norm_num
    have : (1 : ℝ) ≤ (2 : ℝ) ^ (1001 : ℤ) := one_le_zpow₀ (by norm_num) (by norm_num)
    rw [e]
    clear e h he h3
    generalize (2 : ℝ) ^ (1001 : ℤ) = A at *
    norm_num at h4 ⊢; linarith
  have h9 : |F.rq q| < (2 : ℚ) ^ F.emax := h8.trans_lt (zpow_lt_zpow_right₀ (by norm_num) hp.2.2.1)
  refine ⟨F.rq q, Fl.Is.round s h9, ⟨F.rq_rep hp.1 q, h9⟩, ?_⟩
  have h7 := rq_err_add hF q
  have h10 := abs_add_le ((F.rq q : ℝ) - q) (q - y)
  rw [sub_add_sub_cancel] at h10
  have p4 : (0 : ℝ) < 2 ^ F.prec := by positivity
  have h11 : |(q : ℝ)| / 2 ^ F.prec ≤ 1.25 / 2 ^ F.prec * (|y| + 1) := by
    rw [div_mul_eq_mul_div]; exact div_le_div_of_nonneg_right h4 p4.le
  have h12 : (2 : ℝ) ^ (-1000 : ℤ) ≤ 0.01 / 2 ^ F.prec * (|y| + 1) := by
    have a : (2 : ℝ) ^ (-1000 : ℤ) ≤ 2 ^ (-100 : ℤ) := z_le (by norm_num)
    have b : (0.01 : ℝ) / 2 ^ 64 ≤ 0.01 / 2 ^ F.prec := by
      apply div_le_div_of_nonneg_left (by norm_num) p4
      exact pow_le_pow_right₀ (by norm_num) hp.2.2.2
    have c : (2 : ℝ) ^ (-100 : ℤ) ≤ 0.01 / 2 ^ 64 := by norm_num
    have d : (0.01 : ℝ) / 2 ^ F.prec ≤ 0.01 / 2 ^ F.prec * (|y| + 1) := le_mul_of_one_le_right (by positivity) (by linarith)
    exact a.trans (c.trans (b.trans d))
  have e : (ε + 1.26 / 2 ^ F.prec) * (|y| + 1) = ε * (|y| + 1) + 1.25 / 2 ^ F.prec * (|y| + 1) + 0.01 / 2 ^ F.prec * (|y| + 1) := by ring
  rw [e]; linarith

theorem big_round {F : Fmt} (hF : F = b64 ∨ F = x80) {q : ℚ} (hq : (2 : ℚ) ^ (980 : ℤ) ≤ q) (s : Bool) :
    Fl.round F s q = .inf false ∨ ∃ z : ℚ, Fl.round F s q = .num z ∧ F.In z ∧ (2 : ℚ) ^ (980 : ℤ) ≤ z := by
  have hp : 1 ≤ F.prec ∧ F.emin ≤ 980 := by
    rcases hF with rfl | rfl <;> decide
  have q0 : 0 < q := lt_of_lt_of_le (by positivity) hq
  have h1 := F.le_rq hp.1 (Fmt.Rep.zpow hp.1 hp.2) hq
  have r0 : F.rq q ≠ 0 := (lt_of_lt_of_le (by positivity) h1).ne'
  by_cases h : |F.rq q| < (2 : ℚ) ^ F.emax
  · exact Or.inr ⟨_, (Fl.Is.round s h).eq_num r0, ⟨F.rq_rep hp.1 q, h⟩, h1⟩
  · left
    unfold Fl.round
    rw [if_neg q0.ne', if_pos (not_lt.mp h)]
    simp [q0.le]

theorem Sc.cast {ε y : ℝ} {x : Fl} (h : Sc x80 ε y x) (he : ε ≤ 1 / 4) : Sc b64 (ε + 1.26 / 2 ^ 53) y (Fl.cast b64 x) := by
  rcases h with ⟨h1, z, a, b, c⟩ | ⟨h1, h2⟩
  · obtain ⟨s, e⟩ := cast_round (F := b64) a
    rw [e]; exact Or.inl ⟨h1, round_sc (Or.inl rfl) h1 c he s⟩
  · refine Or.inr ⟨h1, ?_⟩
    rcases h2 with rfl | ⟨z, rfl, b, c⟩
    · exact Or.inl rfl
    · exact big_round (Or.inl rfl) c false

theorem sub1_sc {E : ℝ} {x : Fl} (hE : 0 < E) (h : Ext x80 (4 / 2 ^ 64) E x) : Sc x80 (6 / 2 ^ 64) (E - 1) (Fl.sub x80 x (.num 1)) := by
  have key : ∀ z : ℚ, x.Is z → |(z : ℝ) - E| ≤ 4 / 2 ^ 64 * E + (2 : ℝ) ^ (-989 : ℤ) → E ≤ (2 : ℝ) ^ (1000 : ℤ) →
      Sc x80 (6 / 2 ^ 64) (E - 1) (Fl.sub x80 x (.num 1)) := by
    intro z hz hb hE2
    have y1 : |E - 1| ≤ (2 : ℝ) ^ (1001 : ℤ) := by
      rw [zp1001]
      have : (1 : ℝ) ≤ (2 : ℝ) ^ (1000 : ℤ) := one_le_zpow₀ (by norm_num) (by norm_num)
      generalize (2 : ℝ) ^ (1000 : ℤ) = A at *
      rw [abs_le]; constructor <;> linarith
    have hy : E ≤ |E - 1| + 1 := by linarith [le_abs_self (E - 1)]
    have hs : (2 : ℝ) ^ (-989 : ℤ) ≤ 0.7 / 2 ^ 64 := (z_le (show (-989 : ℤ) ≤ -65 by norm_num)).trans (by norm_num)
    have e : (((z + -1 : ℚ)) : ℝ) - (E - 1) = z - E := by push_cast; ring
    have hb' : |((z + -1 : ℚ) : ℝ) - (E - 1)| ≤ 4.7 / 2 ^ 64 * (|E - 1| + 1) := by
      rw [e]
      have := abs_nonneg (E - 1)
      clear h y1 hE2 e
      generalize (2 : ℝ) ^ (-989 : ℤ) = B at *
      norm_num at hs hb ⊢; linarith
    left
    refine ⟨y1, ?_⟩
    unfold Fl.sub
    rw [Fl.add_eq hz (Fl.Is.num one_ne_zero).neg]
    obtain ⟨a, b, c, d⟩ := round_sc (F := x80) (Or.inr rfl) y1 hb' (by norm_num) (x.sgn && (Fl.num 1).neg.sgn)
    refine ⟨a, b, c, d.trans (mul_le_mul_of_nonneg_right ?_ (by positivity))⟩
    rw [prec80]; norm_num
  rcases h with ⟨h1, z, a, b, c⟩ | ⟨-, h1, z, a, b, c, d⟩ | ⟨h1, h2⟩
  · rw [abs_of_pos hE] at c
    refine key z a (c.trans ?_) ?_
    · have : (0 : ℝ) < 2 ^ (-989 : ℤ) := by positivity
      linarith
    · rcases h1 with h1 | ⟨-, h1⟩
      · exact absurd h1 hE.ne'
      · rwa [abs_of_pos hE] at h1
  · rw [abs_of_pos hE] at h1
    refine key z a ?_ (h1.trans (z_le (by norm_num)))
    have c' := cast_z.2.mp c
    rw [Rat.cast_abs] at c'
    have e : (2 : ℝ) ^ (-989 : ℤ) = 2 * (2 : ℝ) ^ (-990 : ℤ) := by
      rw [show (-989 : ℤ) = 1 + -990 by norm_num, zpow_add₀ (by norm_num)]; norm_num
    have := abs_sub (z : ℝ) E
    rw [abs_of_pos hE] at this
    have : 0 ≤ 4 / 2 ^ 64 * E := by positivity
    rw [e]; linarith
  · rw [abs_of_pos hE] at h1
    have e : (2 : ℝ) ^ (990 : ℤ) = 1024 * (2 : ℝ) ^ (980 : ℤ) := by
      rw [show (990 : ℤ) = 10 + 980 by norm_num, zpow_add₀ (by norm_num)]; norm_num
    have l : (1 : ℝ) ≤ (2 : ℝ) ^ (980 : ℤ) := one_le_zpow₀ (by norm_num) (by norm_num)
    refine Or.inr ⟨?_, ?_⟩
    · rw [e] at h1
      clear e key h2
      generalize (2 : ℝ) ^ (980 : ℤ) = A at *
      linarith
    · rcases h2 with rfl | ⟨z, rfl, b, c, d⟩
      · left
        simp [not_lt.mpr hE.le, Fl.sub, Fl.neg, Fl.add]
      · have z0 : z ≠ 0 := by rintro rfl; rw [abs_zero] at c; exact absurd c (not_le.mpr (by positivity))
        have zp : 0 ≤ z := by exact_mod_cast (nonneg_of_mul_nonneg_left d hE : (0 : ℝ) ≤ z)
        rw [abs_of_nonneg zp] at c
        unfold Fl.sub
        rw [Fl.add_eq (Fl.Is.num z0) (Fl.Is.num one_ne_zero).neg]
        apply big_round (Or.inr rfl)
        have e' : (2 : ℚ) ^ (990 : ℤ) = 1024 * (2 : ℚ) ^ (980 : ℤ) := by
          rw [show (990 : ℤ) = 10 + 980 by norm_num, zpow_add₀ (by norm_num)]; norm_num
        have l : (1 : ℚ) ≤ (2 : ℚ) ^ (980 : ℤ) := one_le_zpow₀ (by norm_num) (by norm_num)
        rw [e'] at c
        clear e' key e
        generalize (2 : ℚ) ^ (980 : ℤ) = A at *
        linarith

theorem fixInf_sc {F : Fmt} (hF : F = b64 ∨ F = x80) {ε y : ℝ} {x : Fl} (a : Fl) (h : Sc F ε y x) : Res F (ε * (|y| + 1)) y (fixInf a x) := by
  have l : (2 : ℝ) ^ (300 : ℤ) < (2 : ℝ) ^ (980 : ℤ) := zpow_lt_zpow_right₀ (by norm_num) (by norm_num)
  rcases h with ⟨-, z, i, j, c⟩ | ⟨h1, h2⟩
  · rw [fixInf_is i]; exact ⟨z, i, j, Or.inl c⟩
  · rcases h2 with rfl | ⟨z, rfl, j, c⟩
    · obtain ⟨m, e, p1, p2⟩ := dbl_max' hF
      show Res F _ _ DBL_MAX
      rw [e]
      exact ⟨m, Fl.Is.num (lt_of_lt_of_le (by positivity) p1).ne', p2, Or.inr (Or.inl ⟨lt990.1.trans_le (cast_z.1.mp p1), l.trans_le h1⟩)⟩
    · have z0 : z ≠ 0 := (lt_of_lt_of_le (by positivity) c).ne'
      rw [fixInf_is (Fl.Is.num z0)]
      exact ⟨z, Fl.Is.num z0, j, Or.inr (Or.inl ⟨l.trans_le (cast_z.1.mp c), l.trans_le h1⟩)⟩

theorem sc_castfun {L : Libm} {u : UFun} (hu : CastFun u = true) {F : Fmt} (hF : F = b64 ∨ F = x80) {r : Fl} {y : ℝ}
    (h : Sc x80 (6 / 2 ^ 64) y (u.evl L r)) : Sc F (8 / 2 ^ F.prec) y (u.ev L F r) := by
  have mono : ∀ {F : Fmt} {ε δ : ℝ} {x : Fl}, Sc F ε y x → ε ≤ δ → Sc F δ y x := by
    intro F ε δ x h hd
    rcases h with ⟨h1, z, a, b, c⟩ | h
    · exact Or.inl ⟨h1, z, a, b, c.trans (mul_le_mul_of_nonneg_right hd (by positivity))⟩
    · exact Or.inr h
  rcases hF with rfl | rfl
  · rw [ev_b64, evd_cast L hu]
    refine mono (h.cast (by norm_num)) ?_
    have : b64.prec = 53 := rfl
    rw [this]; norm_num
  · rw [ev_x80]; refine mono h ?_
    rw [prec80]; norm_num

section
variable {L : Libm} (hA : L.Approximates) {w : W} {F : Fmt} (hF : F = b64 ∨ F = x80) {r : Fl} {v : ℚ} {x : ℝ} (h : Arg F w r v x)
include hA hF h

theorem good_two_raised_minus_1 : Good L .two_raised_minus_1 F r v := by
  refine ⟨v, argPert_nonneg _ v, Or.inr ⟨id, ?_⟩⟩
  exact fixInf_sc hF r (sc_castfun (u := .two_raised_minus_1) rfl hF
    (sub1_sc (by positivity) (hA.exp2 x80 (Or.inr rfl) r v h.is (in_x80 hF h.isIn)).ext))

theorem good_ten_raised_minus_1 : Good L .ten_raised_minus_1 F r v := by
  refine ⟨v, argPert_nonneg _ v, Or.inr ⟨id, ?_⟩⟩
  exact fixInf_sc hF r (sc_castfun (u := .ten_raised_minus_1) rfl hF (sub1_sc (by positivity) (pow10_approx hA hF h).ext))

end

end Takum
