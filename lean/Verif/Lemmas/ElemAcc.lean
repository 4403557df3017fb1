import Verif.ElemSpec
import Verif.Lemmas.ElemRange
import Verif.Lemmas.ConstIv

/-! # Accuracy of the elementary functions on floats -/

namespace Takum
open Spec

/-- Relative perturbation of the argument inside of the function. -/
noncomputable def argPert : UFun → ℝ
  | .sin_pi_times | .cos_pi_times | .tan_pi_times | .csc_pi_times | .sec_pi_times | .cot_pi_times => 0.9 / 2 ^ 62
  | .arccsc | .arcsec | .arccot | .arccsc_over_pi | .arcsec_over_pi | .arccot_over_pi | .arsech => 0.9 / 2 ^ 62
  | .arcsch | .arcoth => 0.9 / 2 ^ 52
  | _ => 0

/-- Relative error of the result. -/
noncomputable def resPert (F : Fmt) : UFun → ℝ
  | .arcsch | .arcoth => 4 / 2 ^ 53
  | _ => 8 / 2 ^ F.prec

/-- What has to be shown of the float function: a slightly perturbed argument is either outside of the domain
and the result not finite, or the result is accurate. -/
def Good (L : Libm) (u : UFun) (F : Fmt) (r : Fl) (v : ℚ) : Prop :=
  ∃ x' : ℝ, |x' - v| ≤ argPert u * |(v : ℝ)| ∧
    ((Undefined u x' ∧ (u.fix r (u.ev L F r)).isfinite = false) ∨
     (¬Undefined u x' ∧ Res F (resPert F u * errScale u (realFn u x')) (realFn u x') (u.fix r (u.ev L F r))))

theorem excluded_cast (u : UFun) (v : ℚ) : Excluded u (v : ℝ) ↔ Excluded u v := by
  cases u <;> simp only [Excluded] <;> norm_cast

theorem argPert_nonneg (u : UFun) (v : ℚ) : |(v : ℝ) - v| ≤ argPert u * |(v : ℝ)| := by
  have : 0 ≤ argPert u := by unfold argPert; split <;> norm_num
  rw [sub_self, abs_zero]; positivity

theorem Near.res {F : Fmt} {ε y : ℝ} {x : Fl} (h : Near F ε y x) : Res F (ε * |y|) y x := by
  obtain ⟨z, a, b, c⟩ := h
  exact ⟨z, a, b, Or.inl c⟩

theorem near_castfun {L : Libm} {u : UFun} (hu : CastFun u = true) {F : Fmt} (hF : F = b64 ∨ F = x80) {r : Fl} {ε y : ℝ}
    (h : Near x80 ε y (u.evl L r)) (hy : Mod y) (he : ε ≤ 8 / 2 ^ 64) : Near F (8 / 2 ^ F.prec) y (u.ev L F r) := by
  rcases hF with rfl | rfl
  · rw [ev_b64, evd_cast L hu]
    refine (h.cast hy (by norm_num at *; linarith)).mono ?_
    have : b64.prec = 53 := rfl
    rw [this]; norm_num at *; linarith
  · rw [ev_x80]; exact h.mono he

theorem four_le (F : Fmt) : (4 : ℝ) / 2 ^ F.prec ≤ 8 / 2 ^ F.prec := by gcongr; norm_num

theorem fixLog_is {a x : Fl} {z : ℚ} (h : x.Is z) : fixLog a x = x := by unfold fixLog; rw [h.isinf]; rfl
theorem fixInf_is {a x : Fl} {z : ℚ} (h : x.Is z) : fixInf a x = x := by unfold fixInf; rw [h.isinf]; rfl
theorem fixSinh_is {a x : Fl} {z : ℚ} (h : x.Is z) : fixSinh a x = x := by unfold fixSinh; rw [h.isinf]; rfl
theorem fixExp_is {a x : Fl} {z : ℚ} (h : x.Is z) (hz : z ≠ 0) : fixExp a x = x := by
  unfold fixExp; rw [h.isinf, if_neg]; · rfl
  · rw [Fl.eq_iff h (Fl.Is.zero false)]; exact hz
theorem fixCsch_is {a x : Fl} {z : ℚ} (h : x.Is z) (hz : z ≠ 0) : fixCsch a x = x := by
  unfold fixCsch; rw [if_neg]; rw [Fl.eq_iff h (Fl.Is.zero false)]; exact hz
theorem fixSech_is {a x : Fl} {z : ℚ} (h : x.Is z) (hz : z ≠ 0) : fixSech a x = x := by
  unfold fixSech; rw [if_neg]; rw [Fl.eq_iff h (Fl.Is.zero false)]; exact hz

/-- A function of the argument itself, with a fixer that leaves finite numbers alone. -/
theorem good_of {L : Libm} (hL : L.Conforming) {u : UFun} (hu : Covered u = true) (hc : u ≠ .arcoth) {w : W} {F : Fmt} (hF : F = b64 ∨ F = x80)
    {r : Fl} {v : ℚ} {x : ℝ} (h : Arg F w r v x) (hU : Undefined u (v : ℝ) ↔ Excluded u (v : ℝ))
    (hf : ∀ z, (u.ev L F r).Is z → u.fix r (u.ev L F r) = u.ev L F r)
    (he : resPert F u = 8 / 2 ^ F.prec) (hs : errScale u (realFn u v) = |realFn u v|)
    (hn : ¬Excluded u v → Near F (8 / 2 ^ F.prec) (realFn u v) (u.ev L F r)) : Good L u F r v := by
  obtain ⟨a, -⟩ := domain_core hL hu (w := w) (fun h => absurd h hc) hF h
  refine ⟨v, argPert_nonneg u v, ?_⟩
  by_cases hx : Excluded u v
  · exact Or.inl ⟨hU.mpr ((excluded_cast u v).mpr hx), a hx⟩
  · refine Or.inr ⟨fun h => hx ((excluded_cast u v).mp (hU.mp h)), ?_⟩
    have hn := hn hx
    rw [he, hs, hf _ hn.choose_spec.1]
    exact hn.res

theorem Arg.mfl {F : Fmt} (hF : F = b64 ∨ F = x80) {w : W} {r : Fl} {v : ℚ} {x : ℝ} (h : Arg F w r v x) : Mfl v := by
  refine ⟨in_x80 hF h.isIn, fun h0 => ?_, ?_⟩
  · have := (Rat.cast_le (K := ℝ)).mpr (h.ge h0)
    rw [Rat.cast_zpow, Rat.cast_abs, Rat.cast_ofNat] at this
    exact (z_le (by norm_num)).trans this
  · have := (Rat.cast_le (K := ℝ)).mpr h.le
    rw [Rat.cast_zpow, Rat.cast_abs, Rat.cast_ofNat] at this
    exact this.trans (z_le (by norm_num))

theorem Arg.tfl {F : Fmt} (hF : F = b64 ∨ F = x80) {w : W} {r : Fl} {v : ℚ} {x : ℝ} (h : Arg F w r v x) : Tfl v :=
  ⟨in_x80 hF h.isIn, h.ge, h.le⟩

/-! ## Constants -/

theorem const_near {c : ℚ} {p : ℚ × ℚ} {x : ℝ} (hx : InIv p x) (h1 : c - p.1 ≤ 1 / 2 ^ 64 * p.1) (h2 : p.2 - c ≤ 1 / 2 ^ 64 * p.1) :
    |(c : ℝ) - x| ≤ 1 / 2 ^ 64 * x := by
  obtain ⟨a, b⟩ := hx
  have h1' : (c : ℝ) - p.1 ≤ 1 / 2 ^ 64 * p.1 := by have := (Rat.cast_le (K := ℝ)).mpr h1; push_cast at this; exact this
  have h2' : (p.2 : ℝ) - c ≤ 1 / 2 ^ 64 * p.1 := by have := (Rat.cast_le (K := ℝ)).mpr h2; push_cast at this; exact this
  have := mul_le_mul_of_nonneg_left a (by norm_num : (0 : ℝ) ≤ 1 / 2 ^ 64)
  rw [abs_le]; constructor <;> linarith

theorem pi_near : ∃ c : ℚ, PI = .num c ∧ 3 < c ∧ c < 4 ∧ |(c : ℝ) - Real.pi| ≤ 1 / 2 ^ 64 * Real.pi := by
  refine ⟨_, rfl, by decide +kernel, by decide +kernel, ?_⟩
  have := pi_in 1 1 (by norm_num) (by norm_num)
  have e : ((1 : ℚ) : ℝ) * Real.pi / ((1 : ℚ) : ℝ) = Real.pi := by push_cast; ring
  rw [e] at this
  exact const_near this (by decide +kernel) (by decide +kernel)

theorem lbe_near : ∃ c : ℚ, LB_E = .num c ∧ c ≠ 0 ∧ |(c : ℝ) - 1 / Real.log 2| ≤ 1 / 2 ^ 64 * (1 / Real.log 2) := by
  refine ⟨_, rfl, by decide +kernel, ?_⟩
  have := Const.iv_real .lb_e
  have e : Const.lb_e.real = 1 / Real.log 2 := by simp [Const.real, Real.logb]
  rw [e] at this
  exact const_near this (by decide +kernel) (by decide +kernel)

theorem lge_near : ∃ c : ℚ, LG_E = .num c ∧ c ≠ 0 ∧ |(c : ℝ) - 1 / Real.log 10| ≤ 1 / 2 ^ 64 * (1 / Real.log 10) := by
  refine ⟨_, rfl, by decide +kernel, ?_⟩
  have := Const.iv_real .lg_e
  have e : Const.lg_e.real = 1 / Real.log 10 := by simp [Const.real, Real.logb]
  rw [e] at this
  exact const_near this (by decide +kernel) (by decide +kernel)

theorem prec80 : x80.prec = 64 := rfl

theorem div_pi_near {ε y : ℝ} {x : Fl} (h : Near x80 ε y x) (hy : Mod (y / Real.pi)) (h0 : 0 ≤ ε) (he : ε ≤ 4 / 2 ^ 64) :
    Near x80 (6.3 / 2 ^ 64) (y / Real.pi) (Fl.div x80 x PI) := by
  obtain ⟨c, e, -, -, hc⟩ := pi_near
  rw [e]
  refine (Near.divc Real.pi_pos hc (by norm_num) h hy h0 (by norm_num at *; linarith)).mono ?_
  norm_num at *; linarith

/-! ## Logarithms -/

section
variable {L : Libm} (hL : L.Conforming) (hA : L.Approximates) {w : W} {F : Fmt} (hF : F = b64 ∨ F = x80) {r : Fl} {v : ℚ} {x : ℝ} (h : Arg F w r v x)
include hL hA hF h

theorem good_ln : Good L .ln F r v := by
  refine good_of hL rfl (by decide) hF h Iff.rfl (fun _ => fixLog_is (a := r)) rfl rfl fun hx => ?_
  rw [ev_direct (f := L.log) rfl rfl hF]
  have h0 : 0 < v := not_le.mp hx
  exact ((hA.log F hF r v h.is h.isIn h0).near (mod_log (h.mfl hF) h0)).mono (four_le F)

theorem good_lb : Good L .lb F r v := by
  refine good_of hL rfl (by decide) hF h Iff.rfl (fun _ => fixLog_is (a := r)) rfl rfl fun hx => ?_
  rw [ev_direct (f := L.log2) rfl rfl hF]
  have h0 : 0 < v := not_le.mp hx
  exact ((hA.log2 F hF r v h.is h.isIn h0).near (mod_logb (h.mfl hF) h0).1).mono (four_le F)

theorem good_lg : Good L .lg F r v := by
  refine good_of hL rfl (by decide) hF h Iff.rfl (fun _ => fixLog_is (a := r)) rfl rfl fun hx => ?_
  rw [ev_direct (f := L.log10) rfl rfl hF]
  have h0 : 0 < v := not_le.mp hx
  exact ((hA.log10 F hF r v h.is h.isIn h0).near (mod_logb (h.mfl hF) h0).2).mono (four_le F)

theorem good_ln_1_plus : Good L .ln_1_plus F r v := by
  refine good_of hL rfl (by decide) hF h Iff.rfl (fun _ => fixLog_is (a := r)) rfl rfl fun hx => ?_
  rw [ev_direct (f := L.log1p) rfl rfl hF]
  have h0 : -1 < v := not_le.mp hx
  exact ((hA.log1p F hF r v h.is h.isIn h0).near (mod_log1p (h.mfl hF) h0).1).mono (four_le F)

theorem good_lb_1_plus : Good L .lb_1_plus F r v := by
  refine good_of hL rfl (by decide) hF h Iff.rfl (fun _ => fixLog_is (a := r)) rfl rfl fun hx => ?_
  have h0 : -1 < v := not_le.mp hx
  obtain ⟨c, e, c0, hc⟩ := lbe_near
  have hm := mod_log1p (h.mfl hF) h0
  have q := log2_quarter
  have g1 : 1 / 4 ≤ 1 / Real.log 2 := one_div_le_one_div_of_le (by linarith) q.2
  have g2 : 1 / Real.log 2 ≤ 4 := by rw [div_le_iff₀ (by linarith)]; linarith
  have e1 : realFn .lb_1_plus v = 1 / Real.log 2 * Real.log (1 + v) := by
    show Real.logb 2 (1 + v) = _; unfold Real.logb; ring
  rw [e1]
  have hm' := hm.2 _ g1 g2
  refine near_castfun rfl hF ?_ hm' le_rfl
  have hn := (hA.log1p x80 (Or.inr rfl) r v h.is (in_x80 hF h.isIn) h0).near hm.1
  show Near x80 _ _ (Fl.mul x80 LB_E (L.log1p x80 r))
  rw [e]
  refine (Near.mulc c0 (by linarith) hc hn hm' ?_).mono ?_ <;> rw [prec80] <;> norm_num

theorem good_lg_1_plus : Good L .lg_1_plus F r v := by
  refine good_of hL rfl (by decide) hF h Iff.rfl (fun _ => fixLog_is (a := r)) rfl rfl fun hx => ?_
  have h0 : -1 < v := not_le.mp hx
  obtain ⟨c, e, c0, hc⟩ := lge_near
  have hm := mod_log1p (h.mfl hF) h0
  have q := log10_quarter
  have g1 : 1 / 4 ≤ 1 / Real.log 10 := one_div_le_one_div_of_le (by linarith) q.2
  have g2 : 1 / Real.log 10 ≤ 4 := by rw [div_le_iff₀ (by linarith)]; linarith
  have e1 : realFn .lg_1_plus v = 1 / Real.log 10 * Real.log (1 + v) := by
    show Real.logb 10 (1 + v) = _; unfold Real.logb; ring
  rw [e1]
  have hm' := hm.2 _ g1 g2
  refine near_castfun rfl hF ?_ hm' le_rfl
  have hn := (hA.log1p x80 (Or.inr rfl) r v h.is (in_x80 hF h.isIn) h0).near hm.1
  show Near x80 _ _ (Fl.mul x80 LG_E (L.log1p x80 r))
  rw [e]
  refine (Near.mulc c0 (by linarith) hc hn hm' ?_).mono ?_ <;> rw [prec80] <;> norm_num

/-! ## Inverse functions -/

theorem good_arcsin : Good L .arcsin F r v := by
  refine good_of hL rfl (by decide) hF h Iff.rfl (fun _ _ => rfl) rfl rfl fun hx => ?_
  rw [ev_direct (f := L.asin) rfl rfl hF]
  have h0 : |v| ≤ 1 := not_lt.mp hx
  exact ((hA.asin F hF r v h.is h.isIn h0).near (mod_of' (arcsin_bounds (h.mfl hF) h0))).mono (four_le F)

theorem good_arccos : Good L .arccos F r v := by
  refine good_of hL rfl (by decide) hF h Iff.rfl (fun _ _ => rfl) rfl rfl fun hx => ?_
  rw [ev_direct (f := L.acos) rfl rfl hF]
  have h0 : |v| ≤ 1 := not_lt.mp hx
  exact ((hA.acos F hF r v h.is h.isIn h0).near (mod_of' (arccos_bounds (h.mfl hF) h0))).mono (four_le F)

theorem good_arctan : Good L .arctan F r v := by
  refine good_of hL rfl (by decide) hF h Iff.rfl (fun _ _ => rfl) rfl rfl fun hx => ?_
  rw [ev_direct (f := L.atan) rfl rfl hF]
  exact ((hA.atan F hF r v h.is h.isIn).near (mod_of' (arctan_bounds (h.mfl hF)))).mono (four_le F)

omit hL hA hF h in
theorem pi_quarter : (1 : ℝ) / 4 ≤ Real.pi ∧ Real.pi ≤ 4 := ⟨by linarith [Real.pi_gt_three], Real.pi_le_four⟩

theorem good_arcsin_over_pi : Good L .arcsin_over_pi F r v := by
  refine good_of hL rfl (by decide) hF h Iff.rfl (fun _ _ => rfl) rfl rfl fun hx => ?_
  have h0 : |v| ≤ 1 := not_lt.mp hx
  have b := arcsin_bounds (h.mfl hF) h0
  have hm := (mod_scale pi_quarter.1 pi_quarter.2 b.1 b.2).2
  refine near_castfun rfl hF (div_pi_near ((hA.asin x80 (Or.inr rfl) r v h.is (in_x80 hF h.isIn) h0).near (mod_of' b)) hm ?_ ?_) hm ?_ <;>
    norm_num [prec80]

theorem good_arccos_over_pi : Good L .arccos_over_pi F r v := by
  refine good_of hL rfl (by decide) hF h Iff.rfl (fun _ _ => rfl) rfl rfl fun hx => ?_
  have h0 : |v| ≤ 1 := not_lt.mp hx
  have b := arccos_bounds (h.mfl hF) h0
  have hm := (mod_scale pi_quarter.1 pi_quarter.2 b.1 b.2).2
  refine near_castfun rfl hF (div_pi_near ((hA.acos x80 (Or.inr rfl) r v h.is (in_x80 hF h.isIn) h0).near (mod_of' b)) hm ?_ ?_) hm ?_ <;>
    norm_num [prec80]

theorem good_arctan_over_pi : Good L .arctan_over_pi F r v := by
  refine good_of hL rfl (by decide) hF h Iff.rfl (fun _ _ => rfl) rfl rfl fun hx => ?_
  have b := arctan_bounds (h.mfl hF)
  have hm := (mod_scale pi_quarter.1 pi_quarter.2 b.1 b.2).2
  refine near_castfun rfl hF (div_pi_near ((hA.atan x80 (Or.inr rfl) r v h.is (in_x80 hF h.isIn)).near (mod_of' b)) hm ?_ ?_) hm ?_ <;>
    norm_num [prec80]

theorem good_tanh : Good L .tanh F r v := by
  refine good_of hL rfl (by decide) hF h Iff.rfl (fun _ _ => rfl) rfl rfl fun hx => ?_
  rw [ev_direct (f := L.tanh) rfl rfl hF]
  exact ((hA.tanh F hF r v h.is h.isIn).near (tanh_bounds (h.mfl hF))).mono (four_le F)

theorem good_coth : Good L .coth F r v := by
  refine good_of hL rfl (by decide) hF h Iff.rfl (fun _ _ => rfl) rfl rfl fun hx => ?_
  have hv : v ≠ 0 := hx
  have m := tanh_bounds (h.mfl hF)
  have t0 : Real.tanh v ≠ 0 := by
    have := half_min ((h.mfl hF).ge hv)
    intro h0
    have := this.trans (abs_tanh_ge v)
    rw [h0, abs_zero] at this
    exact absurd this (not_le.mpr (by positivity))
  have e : realFn .coth v = 1 / Real.tanh v := by
    show Real.cosh v / Real.sinh v = _
    rw [Real.tanh_eq_sinh_div_cosh, one_div_div]
  rw [e]
  have := ((hA.tanh x80 (Or.inr rfl) r v h.is (in_x80 hF h.isIn)).near m).inv (Or.inr rfl) m t0 (by norm_num [prec80])
  refine near_castfun rfl hF this m.inv ?_
  norm_num [prec80]

theorem good_arsinh : Good L .arsinh F r v := by
  refine good_of hL rfl (by decide) hF h Iff.rfl (fun _ => fixSinh_is (a := r)) rfl rfl fun hx => ?_
  rw [ev_direct (f := L.asinh) rfl rfl hF]
  exact ((hA.asinh F hF r v h.is h.isIn).near (mod_arsinh (h.mfl hF))).mono (four_le F)

theorem good_arcosh : Good L .arcosh F r v := by
  refine good_of hL rfl (by decide) hF h Iff.rfl (fun _ => fixInf_is (a := r)) rfl rfl fun hx => ?_
  rw [ev_direct (f := L.acosh) rfl rfl hF]
  have h0 : 1 ≤ v := not_lt.mp hx
  exact ((hA.acosh F hF r v h.is h.isIn h0).near (mod_arcosh (h.mfl hF) h0)).mono (four_le F)

theorem good_artanh : Good L .artanh F r v := by
  refine good_of hL rfl (by decide) hF h Iff.rfl (fun _ _ => rfl) rfl rfl fun hx => ?_
  rw [ev_direct (f := L.atanh) rfl rfl hF]
  have h0 : |v| < 1 := not_le.mp hx
  exact ((hA.atanh F hF r v h.is h.isIn h0).near (mod_artanh (h.mfl hF) h0)).mono (four_le F)

/-! ## Trigonometric functions -/

theorem good_sin : Good L .sin F r v := by
  refine good_of hL rfl (by decide) hF h Iff.rfl (fun _ _ => rfl) rfl rfl fun hx => ?_
  rw [ev_direct (f := L.sin) rfl rfl hF]
  exact ((hA.sin F hF r v h.is h.isIn).near (mod_sin (h.tfl hF))).mono (four_le F)

theorem good_cos : Good L .cos F r v := by
  refine good_of hL rfl (by decide) hF h Iff.rfl (fun _ _ => rfl) rfl rfl fun hx => ?_
  rw [ev_direct (f := L.cos) rfl rfl hF]
  exact ((hA.cos F hF r v h.is h.isIn).near (mod_cos (h.tfl hF))).mono (four_le F)

omit hL in
theorem good_tan : Good L .tan F r v := by
  refine ⟨v, argPert_nonneg _ v, Or.inr ⟨cos_ne (h.tfl hF), ?_⟩⟩
  show Res F _ _ (UFun.tan.ev L F r)
  rw [ev_direct (f := L.tan) rfl rfl hF]
  exact (((hA.tan F hF r v h.is h.isIn).near (mod_tan (h.tfl hF))).mono (four_le F)).res

omit hL hA h in
theorem div_zero_bad {u : UFun} (hu : CastFun u = true) (hf : u.fix = noFix) {y : Fl} (hy : y.Is 0) (e : u.evl L r = Fl.div x80 (.num 1) y) :
    (u.fix r (u.ev L F r)).isfinite = false := by
  rw [hf]
  apply ev_bad hu hF
  rw [e]
  rcases hy.cases with ⟨h, _⟩ | ⟨_, s, rfl⟩
  · exact absurd rfl h
  · rw [div1_zero]; rfl

omit hL in
theorem good_csc : Good L .csc F r v := by
  have ap := hA.sin x80 (Or.inr rfl) r v h.is (in_x80 hF h.isIn)
  refine ⟨v, argPert_nonneg _ v, ?_⟩
  by_cases hv : v = 0
  · have s0 : Real.sin v = 0 := by rw [hv]; simp
    exact Or.inl ⟨s0, div_zero_bad hF rfl rfl (ap.zero s0) rfl⟩
  · refine Or.inr ⟨sin_ne (h.tfl hF) hv, ?_⟩
    have m := mod_sin (h.tfl hF)
    have := (ap.near m).inv (Or.inr rfl) m (sin_ne (h.tfl hF) hv) (by norm_num [prec80])
    refine (near_castfun (u := .csc) rfl hF this m.inv ?_).res
    norm_num [prec80]

omit hL in
theorem good_sec : Good L .sec F r v := by
  have ap := hA.cos x80 (Or.inr rfl) r v h.is (in_x80 hF h.isIn)
  refine ⟨v, argPert_nonneg _ v, ?_⟩
  refine Or.inr ⟨cos_ne (h.tfl hF), ?_⟩
  have m := mod_cos (h.tfl hF)
  have := (ap.near m).inv (Or.inr rfl) m (cos_ne (h.tfl hF)) (by norm_num [prec80])
  refine (near_castfun (u := .sec) rfl hF this m.inv ?_).res
  norm_num [prec80]

omit hL in
theorem good_cot : Good L .cot F r v := by
  have ap := hA.tan x80 (Or.inr rfl) r v h.is (in_x80 hF h.isIn)
  refine ⟨v, argPert_nonneg _ v, ?_⟩
  by_cases hv : v = 0
  · have s0 : Real.sin v = 0 := by rw [hv]; simp
    exact Or.inl ⟨s0, div_zero_bad hF rfl rfl (ap.zero (by rw [hv]; simp)) rfl⟩
  · refine Or.inr ⟨sin_ne (h.tfl hF) hv, ?_⟩
    have m := mod_tan (h.tfl hF)
    have t0 : Real.tan v ≠ 0 := by
      rw [Real.tan_eq_sin_div_cos]; exact div_ne_zero (sin_ne (h.tfl hF) hv) (cos_ne (h.tfl hF))
    have := (ap.near m).inv (Or.inr rfl) m t0 (by norm_num [prec80])
    have e : realFn .cot v = 1 / Real.tan v := by
      show Real.cos v / Real.sin v = _
      rw [Real.tan_eq_sin_div_cos, one_div_div]
    rw [e]
    refine (near_castfun (u := .cot) rfl hF this m.inv ?_).res
    norm_num [prec80]

end

end Takum
