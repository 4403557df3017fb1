import Verif.BinSpec
import Verif.Lemmas.ElemExp
import Verif.Lemmas.Powers

/-! # Accuracy of the functions of two arguments on floats -/

namespace Takum
open Spec

/-- What has to be shown of the float function. -/
def Good2 (L : Libm) (u : BFun) (F : Fmt) (r s : Fl) (p q : ℚ) : Prop :=
  (Undefined2 u p q ∧ (u.fix r s (u.ev L F r s)).isfinite = false) ∨
  (¬Undefined2 u p q ∧ Res F (8 / 2 ^ F.prec * |realFn2 u p q|) (realFn2 u p q) (u.fix r s (u.ev L F r s)))

theorem eFrom_faithful {L : Libm} (hL : L.Conforming) (k : Kind) {w : W} (f : Fl) (z : ℚ) (hf : f.Is z) (h : x80.In z) :
    ∃ (t : T w) (y : ℝ), eFrom L k w f = .ok t ∧ |y - z| ≤ outTol k * |(z : ℝ)| ∧ Faithful k y t := by
  cases k
  · exact kFrom_log hL.accurate hL.logs hf h
  · by_cases hz : z = 0
    · subst hz
      rcases hf.cases with ⟨h0, _⟩ | ⟨_, s, rfl⟩
      · exact absurd rfl h0
      · exact ⟨_, 0, linFrom_zero .ext w s, by simp, Faithful.zero _⟩
    · rw [hf.eq_num hz]
      obtain ⟨t, e, ht⟩ := lin_from_faithful .ext w z hz h
      exact ⟨t, z, e, by simp [outTol], ht.faithful (by exact_mod_cast hz)⟩

/-! ## The argument of a complex number -/

theorem arg_bounds {p q : ℚ} (hp : Mfl p) (hq : Mfl q) :
    (Complex.arg ⟨q, p⟩ ≠ 0 → (2 : ℝ) ^ (-800 : ℤ) ≤ |Complex.arg ⟨q, p⟩|) ∧ |Complex.arg ⟨q, p⟩| ≤ (2 : ℝ) ^ (800 : ℤ) := by
  have h4 : |Complex.arg ⟨q, p⟩| ≤ 4 := (Complex.abs_arg_le_pi _).trans Real.pi_le_four
  have z4 : (4 : ℝ) ≤ (2 : ℝ) ^ (800 : ℤ) := by
    have := z_le (show (2 : ℤ) ≤ 800 by norm_num); norm_num at this ⊢; exact this
  refine ⟨fun h0 => ?_, h4.trans z4⟩
  by_cases p0 : p = 0
  · subst p0
    have e : (⟨(q : ℝ), ((0 : ℚ) : ℝ)⟩ : ℂ) = ((q : ℝ) : ℂ) := by rw [Rat.cast_zero]; rfl
    rw [e] at h0 ⊢
    rcases le_or_gt 0 (q : ℝ) with h | h
    · exact absurd (Complex.arg_ofReal_of_nonneg h) h0
    · rw [Complex.arg_ofReal_of_neg h, abs_of_pos Real.pi_pos]
      have : (2 : ℝ) ^ (-800 : ℤ) ≤ 1 := zpow_le_one_of_nonpos₀ (by norm_num) (by norm_num)
      linarith [Real.pi_gt_three]
  · have s1 := Real.abs_sin_le_one
    have hs : |Real.sin (Complex.arg ⟨q, p⟩)| ≤ |Complex.arg ⟨q, p⟩| := Real.abs_sin_le_abs
    rw [Complex.sin_arg] at hs
    refine le_trans ?_ hs
    rw [abs_div]
    have pp := hp.ge p0
    have n1 : ‖(⟨q, p⟩ : ℂ)‖ ≤ 2 * (2 : ℝ) ^ (302 : ℤ) := by
      refine (Complex.norm_le_abs_re_add_abs_im _).trans ?_
      have := hp.le; have := hq.le
      show |(q : ℝ)| + |(p : ℝ)| ≤ _
      linarith
    have n0 : 0 < ‖(⟨q, p⟩ : ℂ)‖ := by
      rw [norm_pos_iff]; intro h
      have : (p : ℝ) = 0 := congrArg Complex.im h
      exact p0 (by exact_mod_cast this)
    rw [abs_of_pos n0, le_div_iff₀ n0]
    have e : (2 : ℝ) ^ (-800 : ℤ) * (2 * (2 : ℝ) ^ (302 : ℤ)) = (2 : ℝ) ^ (-497 : ℤ) := by
      rw [← zpow_one_add₀ (by norm_num), ← zpow_add₀ (by norm_num)]; norm_num
    calc (2 : ℝ) ^ (-800 : ℤ) * ‖(⟨q, p⟩ : ℂ)‖ ≤ (2 : ℝ) ^ (-800 : ℤ) * (2 * (2 : ℝ) ^ (302 : ℤ)) :=
          mul_le_mul_of_nonneg_left n1 (by positivity)
      _ = (2 : ℝ) ^ (-497 : ℤ) := e
      _ ≤ (2 : ℝ) ^ (-302 : ℤ) := z_le (by norm_num)
      _ ≤ |(p : ℝ)| := pp

theorem hypot_bounds {p q : ℚ} (hp : Mfl p) (hq : Mfl q) : Mod (Real.sqrt ((p : ℝ) ^ 2 + (q : ℝ) ^ 2)) := by
  have hpl := hp.le
  have hql := hq.le
  have a1 : |(p : ℝ)| ≤ Real.sqrt ((p : ℝ) ^ 2 + (q : ℝ) ^ 2) := Real.abs_le_sqrt (by nlinarith [sq_nonneg (q : ℝ)])
  have a2 : |(q : ℝ)| ≤ Real.sqrt ((p : ℝ) ^ 2 + (q : ℝ) ^ 2) := Real.abs_le_sqrt (by nlinarith [sq_nonneg (p : ℝ)])
  have a3 : Real.sqrt ((p : ℝ) ^ 2 + (q : ℝ) ^ 2) ≤ |(p : ℝ)| + |(q : ℝ)| := by
    apply Real.sqrt_le_iff.mpr
    refine ⟨by positivity, ?_⟩
    have := mul_nonneg (abs_nonneg (p : ℝ)) (abs_nonneg (q : ℝ))
    nlinarith [sq_abs (p : ℝ), sq_abs (q : ℝ)]
  have n0 := Real.sqrt_nonneg ((p : ℝ) ^ 2 + (q : ℝ) ^ 2)
  refine mod_of (fun h0 => ?_) ?_
  · rw [abs_of_nonneg n0]
    by_cases p0 : p = 0
    · by_cases q0 : q = 0
      · subst p0 q0; simp at h0
      · exact (z_le (by norm_num)).trans ((hq.ge q0).trans a2)
    · exact (z_le (by norm_num)).trans ((hp.ge p0).trans a1)
  · rw [abs_of_nonneg n0]
    have e : (2 : ℝ) ^ (303 : ℤ) = 2 * (2 : ℝ) ^ (302 : ℤ) := by
      rw [show (303 : ℤ) = 1 + 302 by norm_num, zpow_add₀ (by norm_num)]; norm_num
    have := z_le (show (303 : ℤ) ≤ 900 by norm_num)
    generalize (2 : ℝ) ^ (303 : ℤ) = A at *
    generalize (2 : ℝ) ^ (302 : ℤ) = B at *
    generalize (2 : ℝ) ^ (900 : ℤ) = C at *
    linarith

/-! ## The fixer of the power -/

theorem fixPower_is {a b x : Fl} {z : ℚ} (h : x.Is z) (hz : z ≠ 0) : fixPower a b x = x := by
  unfold fixPower
  rw [if_neg (by rw [Fl.eq_iff h (Fl.Is.zero false)]; exact hz), h.isinf, if_neg (by simp)]

theorem fixPower_ext {F : Fmt} (hF : F = b64 ∨ F = x80) {ε y : ℝ} {x a : Fl} {v : ℚ} (b : Fl) (ha : a.Is v) (hv : v ≠ 0) (h : Ext F ε y x)
    (he : ε < 1) (hy : y ≠ 0) (hs : x.sgn = true ↔ y < 0) : Res F (ε * |y|) y (fixPower a b x) := by
  have hp : Fl.eq a (.zero false) = false := by
    rw [Bool.eq_false_iff]; rw [Ne, Fl.eq_iff ha (Fl.Is.zero false)]; exact hv
  rcases h with ⟨-, h2⟩ | ⟨-, h1, z, i, j, c, d⟩ | ⟨h1, h2⟩
  · obtain ⟨z, i, z0⟩ := near_ne h2 he hy
    rw [fixPower_is i z0]; exact h2.res
  · by_cases z0 : z = 0
    · obtain ⟨m, e, p1, p2, p3⟩ := dbl_min' hF
      have : fixPower a b x = if x.sgn then DBL_MIN.neg else DBL_MIN := by
        unfold fixPower; rw [if_pos ((Fl.eq_iff i (Fl.Is.zero false)).mpr z0), hp, if_neg (by simp)]
      rw [this, e]
      rcases lt_or_gt_of_ne hy with hn | hn
      · rw [if_pos (hs.mpr hn)]
        rw [abs_of_neg hn] at h1
        refine ⟨-m, (Fl.Is.num p1.ne').neg, In_neg p3, Or.inr (beyond_neg ?_)⟩
        push_cast; rw [neg_neg]; exact beyond_small p1 p2 (by linarith) h1
      · rw [if_neg (fun h => absurd (hs.mp h) (not_lt.mpr hn.le))]
        rw [abs_of_pos hn] at h1
        exact ⟨m, Fl.Is.num p1.ne', p3, Or.inr (beyond_small p1 p2 hn h1)⟩
    · rw [fixPower_is i z0]
      refine ⟨z, i, j, Or.inr ?_⟩
      have zr : (z : ℝ) ≠ 0 := by exact_mod_cast z0
      have d' : 0 < (z : ℝ) * y := lt_of_le_of_ne d (Ne.symm (mul_ne_zero zr hy))
      rcases mul_pos_iff.mp d' with ⟨u1, u2⟩ | ⟨u1, u2⟩
      · have u1 : 0 < z := by exact_mod_cast u1
        rw [abs_of_pos u1] at c; rw [abs_of_pos u2] at h1
        exact beyond_small u1 c u2 h1
      · have u1 : z < 0 := by exact_mod_cast u1
        rw [abs_of_neg u1] at c; rw [abs_of_neg u2] at h1
        have := beyond_small (z := -z) (by linarith) c (by linarith : 0 < -y) h1
        push_cast at this
        exact beyond_neg this
  · rcases h2 with rfl | ⟨z, rfl, j, c, d⟩
    · obtain ⟨m, e, p1, p2⟩ := dbl_max' hF
      have m0 : m ≠ 0 := (lt_of_lt_of_le (by positivity) p1).ne'
      have : fixPower a b (.inf (decide (y < 0))) = if decide (y < 0) then DBL_MAX.neg else DBL_MAX := by
        unfold fixPower; rw [if_neg (by simp [Fl.eq]), if_pos (by simp [Fl.isinf]), hp, if_neg (by simp)]; rfl
      rw [this, e]
      rcases lt_or_gt_of_ne hy with hn | hn
      · rw [if_pos (by simp [hn])]
        rw [abs_of_neg hn] at h1
        refine ⟨-m, (Fl.Is.num m0).neg, In_neg p2, Or.inr (beyond_neg ?_)⟩
        push_cast; rw [neg_neg]; exact beyond_big p1 h1
      · rw [if_neg (by simp [hn.le])]
        rw [abs_of_pos hn] at h1
        exact ⟨m, Fl.Is.num m0, p2, Or.inr (beyond_big p1 h1)⟩
    · have z0 : z ≠ 0 := by rintro rfl; rw [abs_zero] at c; exact absurd c (not_le.mpr (by positivity))
      rw [fixPower_is (Fl.Is.num z0) z0]
      refine ⟨z, Fl.Is.num z0, j, Or.inr ?_⟩
      have zr : (z : ℝ) ≠ 0 := by exact_mod_cast z0
      have d' : 0 < (z : ℝ) * y := lt_of_le_of_ne d (Ne.symm (mul_ne_zero zr hy))
      rcases mul_pos_iff.mp d' with ⟨u1, u2⟩ | ⟨u1, u2⟩
      · have u1 : 0 < z := by exact_mod_cast u1
        rw [abs_of_pos u1] at c; rw [abs_of_pos u2] at h1
        exact beyond_big c h1
      · have u1 : z < 0 := by exact_mod_cast u1
        rw [abs_of_neg u1] at c; rw [abs_of_neg u2] at h1
        have := beyond_big c h1
        push_cast at this
        exact beyond_neg this

/-- The sign of an integral power. -/
theorem zpow_neg_iff_odd {p : ℝ} (hp : p ≠ 0) (k : ℤ) : p ^ k < 0 ↔ p < 0 ∧ k % 2 = 1 := by
  rcases Int.even_or_odd k with hk | hk
  · have := hk.zpow_pos hp
    have h2 : ¬k % 2 = 1 := by have := Int.even_iff.mp hk; omega
    simp [h2, this.le]
  · have h2 : k % 2 = 1 := Int.odd_iff.mp hk
    simp [h2, hk.zpow_neg_iff]

theorem odd_rat_iff (k : ℤ) : (∃ j : ℤ, (k : ℚ) = 2 * j + 1) ↔ k % 2 = 1 := odd_rat k

section
variable {L : Libm} (hL : L.Conforming) (hA : L.Approximates) {w : W} {F : Fmt} (hF : F = b64 ∨ F = x80)
  {r s : Fl} {p q : ℚ} {x y : ℝ} (h : Arg F w r p x) (h' : Arg F w s q y)
include hA hF h h'

theorem atan2_near (z : p = 0 → r = .zero false) (z' : q = 0 → s = .zero false) {G : Fmt} (hG : G = b64 ∨ G = x80) (ip : G.In p) (iq : G.In q) :
    Near G (4 / 2 ^ G.prec) (Complex.arg ⟨q, p⟩) (L.atan2 G r s) := by
  refine (hA.atan2 G hG r s p q h.is ip h'.is iq ?_).near (mod_of' (arg_bounds (h.mfl hF) (h'.mfl hF)))
  by_cases p0 : p = 0
  · refine Or.inr (Or.inr ⟨z p0, ?_⟩)
    by_cases q0 : q = 0
    · exact Or.inr (z' q0)
    · exact Or.inl q0
  · exact Or.inl p0

theorem good_arctan2 (z : p = 0 → r = .zero false) (z' : q = 0 → s = .zero false) : Good2 L .arctan2 F r s p q := by
  refine Or.inr ⟨id, ?_⟩
  have := atan2_near hA hF h h' z z' hF h.isIn h'.isIn
  exact (this.mono (four_le F)).res

theorem good_arctan2_over_pi (z : p = 0 → r = .zero false) (z' : q = 0 → s = .zero false) : Good2 L .arctan2_over_pi F r s p q := by
  refine Or.inr ⟨id, ?_⟩
  have n := atan2_near hA hF h h' z z' (Or.inr rfl : x80 = b64 ∨ x80 = x80) (in_x80 hF h.isIn) (in_x80 hF h'.isIn)
  rw [prec80] at n
  obtain ⟨b1, b2⟩ := arg_bounds (h.mfl hF) (h'.mfl hF)
  have hm : Mod (Complex.arg ⟨q, p⟩ / Real.pi) := (mod_scale pi_quarter.1 pi_quarter.2 b1 b2).2
  have d := div_pi_near n hm (by norm_num) (by norm_num)
  show Res F _ (Complex.arg ⟨q, p⟩ / Real.pi) (Fl.cast F (Fl.div x80 (L.atan2 x80 r s) PI))
  rcases hF with rfl | rfl
  · refine ((d.cast hm (by norm_num)).mono ?_).res
    have : b64.prec = 53 := rfl
    rw [this]; norm_num
  · obtain ⟨z, a, b, c⟩ := d
    refine Near.res (Near.mono ⟨z, ?_, b, c⟩ (by rw [prec80]; norm_num))
    have := a.cast (F := x80) (by rw [x80.rq_of_rep b.1]; exact b.2)
    rwa [x80.rq_of_rep b.1] at this

theorem good_hypotenuse : Good2 L .hypotenuse F r s p q := by
  refine Or.inr ⟨id, ?_⟩
  have n := (hA.hypot F hF r s p q h.is h.isIn h'.is h'.isIn).near (hypot_bounds (h.mfl hF) (h'.mfl hF))
  have e : fixHypot r s (L.hypot F r s) = L.hypot F r s := by
    unfold fixHypot; rw [n.choose_spec.1.isinf, if_neg (by simp)]
  show Res F _ _ (fixHypot r s (L.hypot F r s))
  rw [e]
  exact (n.mono (four_le F)).res

include hL in
theorem good_power : Good2 L .power F r s p q := by
  by_cases q0 : q = 0
  · -- exponent 0
    subst q0
    rcases h'.is.cases with ⟨g, _⟩ | ⟨_, b, rfl⟩
    · exact absurd rfl g
    refine Or.inr ⟨?_, ?_⟩
    · rintro (⟨-, g⟩ | ⟨-, g⟩)
      · simp at g
      · exact g ⟨0, by simp⟩
    · have e : (BFun.power.fix r (.zero b) (BFun.power.ev L F r (.zero b))) = .num 1 := by
        show fixPower r (.zero b) (L.pow F r (.zero b)) = _
        rw [hL.specials.exp_zero, fixPower_is (Fl.Is.num one_ne_zero) one_ne_zero]
      rw [e]
      refine ⟨1, Fl.Is.num one_ne_zero, one_in (Or.inr hF), Or.inl ?_⟩
      have : realFn2 .power (p : ℝ) ((0 : ℚ) : ℝ) = 1 := by simp [realFn2]
      rw [this]; push_cast; rw [sub_self, abs_zero]; positivity
  rw [show s = .num q from h'.is.eq_num q0]
  by_cases p0 : p = 0
  · subst p0
    rcases h.is.cases with ⟨g, _⟩ | ⟨_, b, rfl⟩
    · exact absurd rfl g
    rcases lt_or_gt_of_ne q0 with hq | hq
    · refine Or.inl ⟨Or.inl ⟨by simp, by exact_mod_cast hq⟩, ?_⟩
      have := hL.specials.zero_neg F b q hq
      show (fixPower (.zero b) (.num q) (L.pow F (.zero b) (.num q))).isfinite = false
      generalize L.pow F (.zero b) (.num q) = z at *
      cases z <;> simp_all [Fl.isinf, fixPower, Fl.eq, Fl.toQ, Fl.isfinite]
    · refine Or.inr ⟨?_, ?_⟩
      · rintro (⟨-, g⟩ | ⟨g, -⟩)
        · have : q < 0 := by exact_mod_cast g
          linarith
        · simp at g
      · obtain ⟨b', e⟩ := hL.powSigns.zero_pos F b q hq
        have e2 : (BFun.power.fix (.zero b) (.num q) (BFun.power.ev L F (.zero b) (.num q))) = .zero false := by
          show fixPower (.zero b) (.num q) (L.pow F (.zero b) (.num q)) = _
          rw [e]; simp [fixPower, Fl.eq, Fl.toQ]
        rw [e2]
        refine ⟨0, Fl.Is.zero _, ⟨Fmt.Rep.zero F, by rw [abs_zero]; positivity⟩, Or.inl ?_⟩
        have : realFn2 .power ((0 : ℚ) : ℝ) (q : ℝ) = 0 := by
          have hq' : (q : ℝ) ≠ 0 := by exact_mod_cast q0
          simp [realFn2, Real.zero_rpow hq']
        rw [this]; simp
  rw [show r = .num p from h.is.eq_num p0]
  have pr : (p : ℝ) ≠ 0 := by exact_mod_cast p0
  by_cases hb : 0 < p ∨ ∃ k : ℤ, q = k
  · refine Or.inr ⟨?_, ?_⟩
    · rintro (⟨g, -⟩ | ⟨g, g'⟩)
      · exact pr g
      · rcases hb with hb | ⟨k, hb⟩
        · have : p < 0 := by exact_mod_cast g
          linarith
        · exact g' ⟨k, by rw [hb]; simp⟩
    · obtain ⟨-, -, r3⟩ := hL.powSigns.regular F hF p q p0 q0 h.isIn h'.isIn hb
      have key : Approx F ((p : ℝ) ^ (q : ℝ)) (L.pow F (.num p) (.num q)) ∧ (p : ℝ) ^ (q : ℝ) ≠ 0 ∧
          ((p : ℝ) ^ (q : ℝ) < 0 ↔ p < 0 ∧ ∃ k : ℤ, q = 2 * k + 1) := by
        rcases lt_or_gt_of_ne p0 with hn | hn
        · obtain ⟨k, rfl⟩ := hb.resolve_left (not_lt.mpr hn.le)
          have e : (p : ℝ) ^ (((k : ℚ)) : ℝ) = (p : ℝ) ^ k := by
            rw [Rat.cast_intCast, Real.rpow_intCast]
          rw [e]
          refine ⟨hA.pow_int F hF _ _ p k (Fl.Is.num p0) h.isIn p0 (Fl.Is.num q0) h'.isIn, zpow_ne_zero _ pr, ?_⟩
          rw [zpow_neg_iff_odd pr, odd_rat]
          exact and_congr_left' (by exact_mod_cast Iff.rfl)
        · have hn' : (0 : ℝ) < p := by exact_mod_cast hn
          have := Real.rpow_pos_of_pos hn' (q : ℝ)
          refine ⟨hA.pow F hF _ _ p q (Fl.Is.num p0) h.isIn hn (Fl.Is.num q0) h'.isIn, this.ne', ?_⟩
          exact iff_of_false (not_lt.mpr this.le) (fun g => absurd g.1 (not_lt.mpr hn.le))
      obtain ⟨k1, k2, k3⟩ := key
      have hs := r3.trans k3.symm
      exact fixPower_ext hF (.num q) (Fl.Is.num p0) p0 (k1.ext.mono (four_le F)) (eight_lt hF) k2 hs
  · push Not at hb
    have hn : p < 0 := lt_of_le_of_ne hb.1 p0
    refine Or.inl ⟨Or.inr ⟨by exact_mod_cast hn, ?_⟩, ?_⟩
    · rintro ⟨k, hk⟩; exact hb.2 k (by exact_mod_cast hk)
    · show (fixPower (.num p) (.num q) (L.pow F (.num p) (.num q))).isfinite = false
      rw [hL.powSigns.not_int F p q hn (by rintro ⟨k, hk⟩; exact hb.2 k hk)]
      simp [fixPower, Fl.eq, Fl.isinf, Fl.isfinite]

end

theorem good2_all {L : Libm} (hL : L.Conforming) (hA : L.Approximates) (u : BFun) {k : Kind} {w : W} {r s : Fl} {p q : ℚ} {x y : ℝ}
    (h : Arg' k w r p x) (h' : Arg' k w s q y) : Good2 L u (kF k w) r s p q := by
  have hF := kF_std k w
  have a := h.toArg
  have b := h'.toArg
  cases u
  · exact good_arctan2 hA hF a b h.zpos h'.zpos
  · exact good_arctan2_over_pi hA hF a b h.zpos h'.zpos
  · exact good_hypotenuse hA hF a b
  · exact good_power hL hA hF a b

end Takum
