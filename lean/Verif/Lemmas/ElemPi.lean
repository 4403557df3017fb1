import Verif.Lemmas.ElemAcc
import Verif.Props.PiTimes

/-! # Accuracy of the trigonometric functions of multiples of π -/

namespace Takum
open Spec

section
variable {L : Libm} {w : W} {F : Fmt} (hF : F = b64 ∨ F = x80) {r : Fl} {v : ℚ} {x : ℝ} (h : Arg F w r v x)
include hF h

/-- `PI * f` is accurate. -/
theorem pi_mul (hv : v ≠ 0) (hl : |v| ≤ (2 : ℚ) ^ (258 : ℤ)) : ∃ p : ℚ, (Fl.mul x80 PI r).Is p ∧ Tfl p ∧ p ≠ 0 ∧
    |(p : ℝ) / Real.pi - v| ≤ 0.9 / 2 ^ 62 * |(v : ℝ)| := by
  obtain ⟨c, ec, c3, c4, hc⟩ := pi_near
  have pi3 := Real.pi_gt_three
  have pi4 := Real.pi_le_four
  have g := (Rat.cast_le (K := ℝ)).mpr (h.ge hv)
  have l := (Rat.cast_le (K := ℝ)).mpr hl
  rw [Rat.cast_zpow, Rat.cast_abs, Rat.cast_ofNat] at g l
  have vp : 0 < |(v : ℝ)| := lt_of_lt_of_le (by positivity) g
  have ga : (2 : ℝ) ^ (-300 : ℤ) ≤ |Real.pi * v| := by
    rw [abs_mul, abs_of_pos Real.pi_pos]; nlinarith
  have la : |Real.pi * v| ≤ (2 : ℝ) ^ (260 : ℤ) := by
    have e : (2 : ℝ) ^ (260 : ℤ) = 4 * (2 : ℝ) ^ (258 : ℤ) := by
      rw [show (260 : ℤ) = 2 + 258 by norm_num, zpow_add₀ (by norm_num)]; norm_num
    rw [abs_mul, abs_of_pos Real.pi_pos, e]
    exact mul_le_mul pi4 l vp.le (by norm_num)
  have hm : Mod (Real.pi * v) := mod_of (fun _ => (z_le (by norm_num)).trans ga) (la.trans (z_le (by norm_num)))
  have nv : Near x80 0 (v : ℝ) r := ⟨v, h.is, in_x80 hF h.isIn, by simp⟩
  obtain ⟨p, i, j, e⟩ := Near.mulc (by linarith : c ≠ 0) Real.pi_pos hc nv hm (by norm_num)
  rw [← ec] at i
  have e' : |(p : ℝ) - Real.pi * v| ≤ 2.3 / 2 ^ 64 * |Real.pi * (v : ℝ)| := by
    refine e.trans (mul_le_mul_of_nonneg_right ?_ (abs_nonneg _)); norm_num
  have pl : |Real.pi * (v : ℝ)| * (1 - 2.3 / 2 ^ 64) ≤ |(p : ℝ)| := by
    have := abs_add_le (Real.pi * v - (p : ℝ)) p
    rw [sub_add_cancel, abs_sub_comm] at this
    linarith
  have pu : |(p : ℝ)| ≤ |Real.pi * (v : ℝ)| * (1 + 2.3 / 2 ^ 64) := by
    have := abs_add_le ((p : ℝ) - Real.pi * v) (Real.pi * v)
    rw [sub_add_cancel] at this
    linarith
  have gp : (2 : ℝ) ^ (-300 : ℤ) ≤ |(p : ℝ)| := by
    refine le_trans ?_ pl
    rw [abs_mul, abs_of_pos Real.pi_pos]
    have : (1 : ℝ) ≤ Real.pi * (1 - 2.3 / 2 ^ 64) := by
      have := mul_le_mul_of_nonneg_right pi3.le (by norm_num : (0 : ℝ) ≤ 1 - 2.3 / 2 ^ 64)
      refine le_trans (by norm_num) this
    have := mul_le_mul_of_nonneg_left this vp.le
    calc _ ≤ |(v : ℝ)| := g
      _ = |(v : ℝ)| * 1 := by ring
      _ ≤ _ := this
      _ = _ := by ring
  refine ⟨p, i, ⟨j, fun _ => ?_, ?_⟩, ?_, ?_⟩
  · rw [← Rat.cast_le (K := ℝ), Rat.cast_zpow, Rat.cast_abs, Rat.cast_ofNat]; exact gp
  · rw [← Rat.cast_le (K := ℝ), Rat.cast_zpow, Rat.cast_abs, Rat.cast_ofNat]
    refine pu.trans ?_
    have e : (2 : ℝ) ^ (261 : ℤ) = (2 : ℝ) ^ (260 : ℤ) * 2 := by
      rw [show (261 : ℤ) = 260 + 1 by norm_num, zpow_add₀ (by norm_num)]; norm_num
    refine le_trans ?_ (z_le (show (261 : ℤ) ≤ 300 by norm_num))
    rw [e]
    exact mul_le_mul la (by norm_num) (by norm_num) (by positivity)
  · rintro rfl
    rw [Rat.cast_zero, abs_zero] at gp
    exact absurd gp (not_le.mpr (by positivity))
  · have e3 : (p : ℝ) / Real.pi - v = (p - Real.pi * v) / Real.pi := by field_simp
    rw [e3, abs_div, abs_of_pos Real.pi_pos, div_le_iff₀ Real.pi_pos]
    refine e'.trans ?_
    rw [abs_mul, abs_of_pos Real.pi_pos]
    have : (2.3 / 2 ^ 64 : ℝ) * (Real.pi * |(v : ℝ)|) ≤ 0.9 / 2 ^ 62 * (Real.pi * |(v : ℝ)|) :=
      mul_le_mul_of_nonneg_right (by norm_num) (by positivity)
    linarith

omit h in
theorem good_exact {u : UFun} (hu : CastFun u = true) (hf : u.fix = noFix) (hp : resPert F u = 8 / 2 ^ F.prec)
    (hs : ∀ y, errScale u y = |y|) {f : Fl} {c : ℚ} (e : u.evl L r = f) (hc : f.Is c) (hi : c = 0 ∨ c = 1 ∨ c = -1) (hr : realFn u v = c)
    (hU : ¬Undefined u (v : ℝ)) : Good L u F r v := by
  refine ⟨v, argPert_nonneg u v, Or.inr ⟨hU, ?_⟩⟩
  have one : x80.In 1 := one_in (F := x80) (by simp)
  have z1 : (2 : ℝ) ^ (-900 : ℤ) ≤ 1 := by have := z_le (show (-900 : ℤ) ≤ 0 by norm_num); simpa using this
  have m : x80.In c ∧ Mod (c : ℝ) := by
    rcases hi with rfl | rfl | rfl
    · exact ⟨⟨Fmt.Rep.zero _, by rw [abs_zero]; positivity⟩, Or.inl (by simp)⟩
    · exact ⟨one, mod_of (fun _ => by push_cast; norm_num [z1]; exact z1) (by push_cast; norm_num; exact le440.2.2)⟩
    · exact ⟨In_neg one, mod_of (fun _ => by push_cast; norm_num [z1]; exact z1) (by push_cast; norm_num; exact le440.2.2)⟩
  have n : Near x80 0 (c : ℝ) (u.evl L r) := by rw [e]; exact ⟨c, hc, m.1, by simp⟩
  rw [hf, hp, hs, hr]
  exact (near_castfun hu hF n m.2 (by norm_num)).res

omit h in
theorem good_pole {u : UFun} (hu : CastFun u = true) (hf : u.fix = noFix) (e : u.evl L r = .nan) (hU : Undefined u (v : ℝ)) : Good L u F r v := by
  refine ⟨v, argPert_nonneg u v, Or.inl ⟨hU, ?_⟩⟩
  rw [hf]
  exact ev_bad hu hF (by rw [e]; rfl)

end

theorem pi_cancel (p : ℝ) : Real.pi * (p / Real.pi) = p := by field_simp

theorem pi_two {v c : ℚ} {j : ℤ} (h : v - j * 2 = c) :
    Real.sin (Real.pi * v) = Real.sin (Real.pi * c) ∧ Real.cos (Real.pi * v) = Real.cos (Real.pi * c) := by
  have hv : v = c + j * 2 := by linarith
  have e : Real.pi * (v : ℝ) = Real.pi * c + j * (2 * Real.pi) := by rw [hv]; push_cast; ring
  rw [e, Real.sin_add_int_mul_two_pi, Real.cos_add_int_mul_two_pi]
  exact ⟨rfl, rfl⟩

theorem pi_vals : (Real.sin (Real.pi * ((0 : ℚ) : ℝ)) = 0 ∧ Real.cos (Real.pi * ((0 : ℚ) : ℝ)) = 1) ∧
    (Real.sin (Real.pi * ((1 / 2 : ℚ) : ℝ)) = 1 ∧ Real.cos (Real.pi * ((1 / 2 : ℚ) : ℝ)) = 0) ∧
    (Real.sin (Real.pi * ((1 : ℚ) : ℝ)) = 0 ∧ Real.cos (Real.pi * ((1 : ℚ) : ℝ)) = -1) ∧
    (Real.sin (Real.pi * ((3 / 2 : ℚ) : ℝ)) = -1 ∧ Real.cos (Real.pi * ((3 / 2 : ℚ) : ℝ)) = 0) := by
  have e1 : Real.pi * ((1 / 2 : ℚ) : ℝ) = Real.pi / 2 := by push_cast; ring
  have e3 : Real.pi * ((3 / 2 : ℚ) : ℝ) = Real.pi / 2 + Real.pi := by push_cast; ring
  rw [e1, e3, Real.sin_add_pi, Real.cos_add_pi]
  simp

theorem pi_one {v : ℚ} {j : ℤ} : (v - j * 1 = 0 → Real.sin (Real.pi * v) = 0) ∧ (v - j * 1 = 1 / 2 → Real.cos (Real.pi * v) = 0) := by
  constructor
  · intro h
    have hv : v = j := by linarith
    rw [hv, mul_comm]; push_cast; exact Real.sin_int_mul_pi j
  · intro h
    have hv : v = j + 1 / 2 := by linarith
    have e : Real.pi * (v : ℝ) = j * Real.pi + Real.pi / 2 := by rw [hv]; push_cast; ring
    rw [e, Real.cos_add_pi_div_two, Real.sin_int_mul_pi, neg_zero]

theorem sin_cos_one {x : ℝ} : (Real.sin x = 0 → Real.cos x ≠ 0) ∧ (Real.cos x = 0 → Real.sin x ≠ 0) := by
  have := Real.sin_sq_add_cos_sq x
  constructor <;> intro h h' <;> rw [h, h'] at this <;> norm_num at this

section
variable {L : Libm} (hA : L.Approximates) {w : W} {F : Fmt} (hF : F = b64 ∨ F = x80) {r : Fl} {v : ℚ} {x : ℝ} (h : Arg F w r v x) (hl : |v| ≤ (2 : ℚ) ^ (258 : ℤ))
include hA hF h hl

omit hA hF hl in
theorem fm {m : ℚ} {f : Fl} {c : ℚ} (hc : f.Is c) : Fl.eq (Fl.fmod r (.num m)) f = true ↔ v - Fl.trunc (v / m) * m = c :=
  Fl.eq_iff (fmod_is h.is) hc

omit hA hF hl in
theorem fm_ne_zero {m : ℚ} (h0 : ¬Fl.eq (Fl.fmod r (.num m)) (.zero false) = true) : v ≠ 0 := by
  rintro rfl
  rw [fm h (Fl.Is.zero false)] at h0
  apply h0
  have : Fl.trunc ((0 : ℚ) / m) = 0 := by rw [zero_div]; exact_mod_cast Fl.trunc_int 0
  rw [this]; simp

theorem good_sin_pi_times : Good L .sin_pi_times F r v := by
  have ex : ∀ {f : Fl} {c : ℚ}, sinpil L r = f → f.Is c → (c = 0 ∨ c = 1 ∨ c = -1) → Real.sin (Real.pi * v) = c → Good L .sin_pi_times F r v :=
    fun e hc hi hr => good_exact hF rfl rfl rfl (fun _ => rfl) e hc hi hr id
  obtain ⟨⟨s0, c0⟩, ⟨s1, c1⟩, ⟨s2, c2⟩, s3, c3⟩ := pi_vals
  have n : ∀ q : ℚ, q ≠ 0 → (Fl.num q).Is q := fun q hq => Fl.Is.num hq
  by_cases h0 : Fl.eq (Fl.fmod r (.num 2)) (.zero false) = true
  · exact ex (by unfold sinpil; simp only [h0, if_true]) (Fl.Is.zero false) (Or.inl rfl)
      (by rw [(pi_two ((fm h (Fl.Is.zero false)).mp h0)).1, s0]; simp)
  by_cases h1 : Fl.eq (Fl.fmod r (.num 2)) (.num (1 / 2)) = true
  · exact ex (by unfold sinpil; simp only [h0, h1, if_true, if_false, Bool.false_eq_true]) (n 1 (by norm_num)) (Or.inr (Or.inl rfl))
      (by rw [(pi_two ((fm h (n _ (by norm_num))).mp h1)).1, s1]; simp)
  by_cases h2 : Fl.eq (Fl.fmod r (.num 2)) (.num 1) = true
  · exact ex (by unfold sinpil; simp only [h0, h1, h2, if_true, if_false, Bool.false_eq_true]) (Fl.Is.zero false) (Or.inl rfl)
      (by rw [(pi_two ((fm h (n _ (by norm_num))).mp h2)).1, s2]; simp)
  by_cases h3 : Fl.eq (Fl.fmod r (.num 2)) (.num (3 / 2)) = true
  · exact ex (by unfold sinpil; simp only [h0, h1, h2, h3, if_true, if_false, Bool.false_eq_true]) (n (-1) (by norm_num)) (Or.inr (Or.inr rfl))
      (by rw [(pi_two ((fm h (n _ (by norm_num))).mp h3)).1, s3]; simp)
  obtain ⟨p, i, t, p0, b⟩ := pi_mul hF h (fm_ne_zero h h0) hl
  refine ⟨_, b, Or.inr ⟨id, ?_⟩⟩
  have e : realFn .sin_pi_times (p / Real.pi) = Real.sin p := by show Real.sin (Real.pi * (p / Real.pi)) = _; rw [pi_cancel]
  have ev : UFun.sin_pi_times.evl L r = L.sin x80 (Fl.mul x80 PI r) := by
    show sinpil L r = _; unfold sinpil; simp only [h0, h1, h2, h3, if_false, Bool.false_eq_true]
  rw [e]
  refine (near_castfun (u := .sin_pi_times) rfl hF (ε := 4 / 2 ^ x80.prec) ?_ (mod_sin t) (by norm_num [prec80])).res
  rw [ev]
  exact (hA.sin x80 (Or.inr rfl) _ p i t.rep).near (mod_sin t)

theorem good_cos_pi_times : Good L .cos_pi_times F r v := by
  have ex : ∀ {f : Fl} {c : ℚ}, cospil L r = f → f.Is c → (c = 0 ∨ c = 1 ∨ c = -1) → Real.cos (Real.pi * v) = c → Good L .cos_pi_times F r v :=
    fun e hc hi hr => good_exact hF rfl rfl rfl (fun _ => rfl) e hc hi hr id
  obtain ⟨⟨s0, c0⟩, ⟨s1, c1⟩, ⟨s2, c2⟩, s3, c3⟩ := pi_vals
  have n : ∀ q : ℚ, q ≠ 0 → (Fl.num q).Is q := fun q hq => Fl.Is.num hq
  by_cases h0 : Fl.eq (Fl.fmod r (.num 2)) (.zero false) = true
  · exact ex (by unfold cospil; simp only [h0, if_true]) (n 1 (by norm_num)) (Or.inr (Or.inl rfl))
      (by rw [(pi_two ((fm h (Fl.Is.zero false)).mp h0)).2, c0]; simp)
  by_cases h1 : Fl.eq (Fl.fmod r (.num 2)) (.num (1 / 2)) = true
  · exact ex (by unfold cospil; simp only [h0, h1, if_true, if_false, Bool.false_eq_true]) (Fl.Is.zero false) (Or.inl rfl)
      (by rw [(pi_two ((fm h (n _ (by norm_num))).mp h1)).2, c1]; simp)
  by_cases h2 : Fl.eq (Fl.fmod r (.num 2)) (.num 1) = true
  · exact ex (by unfold cospil; simp only [h0, h1, h2, if_true, if_false, Bool.false_eq_true]) (n (-1) (by norm_num)) (Or.inr (Or.inr rfl))
      (by rw [(pi_two ((fm h (n _ (by norm_num))).mp h2)).2, c2]; simp)
  by_cases h3 : Fl.eq (Fl.fmod r (.num 2)) (.num (3 / 2)) = true
  · exact ex (by unfold cospil; simp only [h0, h1, h2, h3, if_true, if_false, Bool.false_eq_true]) (Fl.Is.zero false) (Or.inl rfl)
      (by rw [(pi_two ((fm h (n _ (by norm_num))).mp h3)).2, c3]; simp)
  obtain ⟨p, i, t, p0, b⟩ := pi_mul hF h (fm_ne_zero h h0) hl
  refine ⟨_, b, Or.inr ⟨id, ?_⟩⟩
  have e : realFn .cos_pi_times (p / Real.pi) = Real.cos p := by show Real.cos (Real.pi * (p / Real.pi)) = _; rw [pi_cancel]
  have ev : UFun.cos_pi_times.evl L r = L.cos x80 (Fl.mul x80 PI r) := by
    show cospil L r = _; unfold cospil; simp only [h0, h1, h2, h3, if_false, Bool.false_eq_true]
  rw [e]
  refine (near_castfun (u := .cos_pi_times) rfl hF (ε := 4 / 2 ^ x80.prec) ?_ (mod_cos t) (by norm_num [prec80])).res
  rw [ev]
  exact (hA.cos x80 (Or.inr rfl) _ p i t.rep).near (mod_cos t)

theorem good_tan_pi_times : Good L .tan_pi_times F r v := by
  have n : ∀ q : ℚ, q ≠ 0 → (Fl.num q).Is q := fun q hq => Fl.Is.num hq
  by_cases h0 : Fl.eq (Fl.fmod r (.num 1)) (.zero false) = true
  · have s := pi_one.1 ((fm h (Fl.Is.zero false)).mp h0)
    refine good_exact hF (u := .tan_pi_times) rfl rfl rfl (fun _ => rfl) (f := .zero false) (c := 0) ?_ (Fl.Is.zero false) (Or.inl rfl) ?_ (sin_cos_one.1 s)
    · show tanpil L r = _; unfold tanpil; simp only [h0, if_true]
    · show Real.tan (Real.pi * v) = _; rw [Real.tan_eq_sin_div_cos, s]; simp
  by_cases h1 : Fl.eq (Fl.fmod r (.num 1)) (.num (1 / 2)) = true
  · refine good_pole hF rfl rfl ?_ (pi_one.2 ((fm h (n _ (by norm_num))).mp h1))
    show tanpil L r = _; unfold tanpil; simp only [h0, h1, if_true, if_false, Bool.false_eq_true]
  obtain ⟨p, i, t, p0, b⟩ := pi_mul hF h (fm_ne_zero h h0) hl
  refine ⟨_, b, Or.inr ⟨?_, ?_⟩⟩
  · show ¬Real.cos (Real.pi * (p / Real.pi)) = 0; rw [pi_cancel]; exact cos_ne t
  have e : realFn .tan_pi_times (p / Real.pi) = Real.tan p := by show Real.tan (Real.pi * (p / Real.pi)) = _; rw [pi_cancel]
  have ev : UFun.tan_pi_times.evl L r = L.tan x80 (Fl.mul x80 PI r) := by
    show tanpil L r = _; unfold tanpil; simp only [h0, h1, if_false, Bool.false_eq_true]
  rw [e]
  refine (near_castfun (u := .tan_pi_times) rfl hF (ε := 4 / 2 ^ x80.prec) ?_ (mod_tan t) (by norm_num [prec80])).res
  rw [ev]
  exact (hA.tan x80 (Or.inr rfl) _ p i t.rep).near (mod_tan t)

theorem good_csc_pi_times : Good L .csc_pi_times F r v := by
  have ex : ∀ {f : Fl} {c : ℚ}, cscPiTimesl L r = f → f.Is c → (c = 1 ∨ c = -1) → Real.sin (Real.pi * v) = c → Good L .csc_pi_times F r v := by
    intro f c e hc hi hr
    refine good_exact hF rfl rfl rfl (fun _ => rfl) e hc (Or.inr hi) ?_ ?_
    · show 1 / Real.sin (Real.pi * v) = c
      rw [hr]; rcases hi with rfl | rfl <;> norm_num
    · show ¬Real.sin (Real.pi * v) = 0
      rw [hr]; rcases hi with rfl | rfl <;> norm_num
  obtain ⟨⟨s0, c0⟩, ⟨s1, c1⟩, ⟨s2, c2⟩, s3, c3⟩ := pi_vals
  have n : ∀ q : ℚ, q ≠ 0 → (Fl.num q).Is q := fun q hq => Fl.Is.num hq
  by_cases h0 : Fl.eq (Fl.fmod r (.num 2)) (.zero false) = true
  · refine good_pole hF (u := .csc_pi_times) rfl rfl (by show cscPiTimesl L r = _; unfold cscPiTimesl; simp only [h0, if_true]) ?_
    show Real.sin (Real.pi * v) = 0
    rw [(pi_two ((fm h (Fl.Is.zero false)).mp h0)).1, s0]
  by_cases h1 : Fl.eq (Fl.fmod r (.num 2)) (.num (1 / 2)) = true
  · exact ex (by unfold cscPiTimesl; simp only [h0, h1, if_true, if_false, Bool.false_eq_true]) (n 1 (by norm_num)) (Or.inl rfl)
      (by rw [(pi_two ((fm h (n _ (by norm_num))).mp h1)).1, s1]; simp)
  by_cases h2 : Fl.eq (Fl.fmod r (.num 2)) (.num 1) = true
  · refine good_pole hF (u := .csc_pi_times) rfl rfl
      (by show cscPiTimesl L r = _; unfold cscPiTimesl; simp only [h0, h1, h2, if_true, if_false, Bool.false_eq_true]) ?_
    show Real.sin (Real.pi * v) = 0
    rw [(pi_two ((fm h (n _ (by norm_num))).mp h2)).1, s2]
  by_cases h3 : Fl.eq (Fl.fmod r (.num 2)) (.num (3 / 2)) = true
  · exact ex (by unfold cscPiTimesl; simp only [h0, h1, h2, h3, if_true, if_false, Bool.false_eq_true]) (n (-1) (by norm_num)) (Or.inr rfl)
      (by rw [(pi_two ((fm h (n _ (by norm_num))).mp h3)).1, s3]; simp)
  obtain ⟨p, i, t, p0, b⟩ := pi_mul hF h (fm_ne_zero h h0) hl
  refine ⟨_, b, Or.inr ⟨?_, ?_⟩⟩
  · show ¬Real.sin (Real.pi * (p / Real.pi)) = 0; rw [pi_cancel]; exact sin_ne t p0
  have e : realFn .csc_pi_times (p / Real.pi) = 1 / Real.sin p := by show 1 / Real.sin (Real.pi * (p / Real.pi)) = _; rw [pi_cancel]
  have ev : UFun.csc_pi_times.evl L r = cscl L (Fl.mul x80 PI r) := by
    show cscPiTimesl L r = _; unfold cscPiTimesl; simp only [h0, h1, h2, h3, if_false, Bool.false_eq_true]
  rw [e]
  have m := mod_sin t
  refine (near_castfun (u := .csc_pi_times) rfl hF (ε := 4 / 2 ^ x80.prec * (1 + 1 / 2 ^ 30) + 1.25 / 2 ^ x80.prec) ?_ m.inv (by norm_num [prec80])).res
  rw [ev]
  exact ((hA.sin x80 (Or.inr rfl) _ p i t.rep).near m).inv (Or.inr rfl) m (sin_ne t p0) (by norm_num [prec80])

theorem good_sec_pi_times : Good L .sec_pi_times F r v := by
  have ex : ∀ {f : Fl} {c : ℚ}, secPiTimesl L r = f → f.Is c → (c = 1 ∨ c = -1) → Real.cos (Real.pi * v) = c → Good L .sec_pi_times F r v := by
    intro f c e hc hi hr
    refine good_exact hF rfl rfl rfl (fun _ => rfl) e hc (Or.inr hi) ?_ ?_
    · show 1 / Real.cos (Real.pi * v) = c
      rw [hr]; rcases hi with rfl | rfl <;> norm_num
    · show ¬Real.cos (Real.pi * v) = 0
      rw [hr]; rcases hi with rfl | rfl <;> norm_num
  obtain ⟨⟨s0, c0⟩, ⟨s1, c1⟩, ⟨s2, c2⟩, s3, c3⟩ := pi_vals
  have n : ∀ q : ℚ, q ≠ 0 → (Fl.num q).Is q := fun q hq => Fl.Is.num hq
  by_cases h0 : Fl.eq (Fl.fmod r (.num 2)) (.zero false) = true
  · exact ex (by unfold secPiTimesl; simp only [h0, if_true]) (n 1 (by norm_num)) (Or.inl rfl)
      (by rw [(pi_two ((fm h (Fl.Is.zero false)).mp h0)).2, c0]; simp)
  by_cases h1 : Fl.eq (Fl.fmod r (.num 2)) (.num (1 / 2)) = true
  · refine good_pole hF (u := .sec_pi_times) rfl rfl
      (by show secPiTimesl L r = _; unfold secPiTimesl; simp only [h0, h1, if_true, if_false, Bool.false_eq_true]) ?_
    show Real.cos (Real.pi * v) = 0
    rw [(pi_two ((fm h (n _ (by norm_num))).mp h1)).2, c1]
  by_cases h2 : Fl.eq (Fl.fmod r (.num 2)) (.num 1) = true
  · exact ex (by unfold secPiTimesl; simp only [h0, h1, h2, if_true, if_false, Bool.false_eq_true]) (n (-1) (by norm_num)) (Or.inr rfl)
      (by rw [(pi_two ((fm h (n _ (by norm_num))).mp h2)).2, c2]; simp)
  by_cases h3 : Fl.eq (Fl.fmod r (.num 2)) (.num (3 / 2)) = true
  · refine good_pole hF (u := .sec_pi_times) rfl rfl
      (by show secPiTimesl L r = _; unfold secPiTimesl; simp only [h0, h1, h2, h3, if_true, if_false, Bool.false_eq_true]) ?_
    show Real.cos (Real.pi * v) = 0
    rw [(pi_two ((fm h (n _ (by norm_num))).mp h3)).2, c3]
  obtain ⟨p, i, t, p0, b⟩ := pi_mul hF h (fm_ne_zero h h0) hl
  refine ⟨_, b, Or.inr ⟨?_, ?_⟩⟩
  · show ¬Real.cos (Real.pi * (p / Real.pi)) = 0; rw [pi_cancel]; exact cos_ne t
  have e : realFn .sec_pi_times (p / Real.pi) = 1 / Real.cos p := by show 1 / Real.cos (Real.pi * (p / Real.pi)) = _; rw [pi_cancel]
  have ev : UFun.sec_pi_times.evl L r = secl L (Fl.mul x80 PI r) := by
    show secPiTimesl L r = _; unfold secPiTimesl; simp only [h0, h1, h2, h3, if_false, Bool.false_eq_true]
  rw [e]
  have m := mod_cos t
  refine (near_castfun (u := .sec_pi_times) rfl hF (ε := 4 / 2 ^ x80.prec * (1 + 1 / 2 ^ 30) + 1.25 / 2 ^ x80.prec) ?_ m.inv (by norm_num [prec80])).res
  rw [ev]
  exact ((hA.cos x80 (Or.inr rfl) _ p i t.rep).near m).inv (Or.inr rfl) m (cos_ne t) (by norm_num [prec80])

theorem good_cot_pi_times : Good L .cot_pi_times F r v := by
  have n : ∀ q : ℚ, q ≠ 0 → (Fl.num q).Is q := fun q hq => Fl.Is.num hq
  by_cases h0 : Fl.eq (Fl.fmod r (.num 1)) (.zero false) = true
  · refine good_pole hF rfl rfl ?_ (pi_one.1 ((fm h (Fl.Is.zero false)).mp h0))
    show cotPiTimesl L r = _; unfold cotPiTimesl; simp only [h0, if_true]
  by_cases h1 : Fl.eq (Fl.fmod r (.num 1)) (.num (1 / 2)) = true
  · have s := pi_one.2 ((fm h (n _ (by norm_num))).mp h1)
    refine good_exact hF (u := .cot_pi_times) rfl rfl rfl (fun _ => rfl) (f := .zero false) (c := 0) ?_ (Fl.Is.zero false) (Or.inl rfl) ?_ (sin_cos_one.2 s)
    · show cotPiTimesl L r = _; unfold cotPiTimesl; simp only [h0, h1, if_true, if_false, Bool.false_eq_true]
    · show Real.cos (Real.pi * v) / _ = _; rw [s]; simp
  obtain ⟨p, i, t, p0, b⟩ := pi_mul hF h (fm_ne_zero h h0) hl
  have s0 := sin_ne t p0
  refine ⟨_, b, Or.inr ⟨?_, ?_⟩⟩
  · show ¬Real.sin (Real.pi * (p / Real.pi)) = 0; rw [pi_cancel]; exact s0
  have t0 : Real.tan p ≠ 0 := by rw [Real.tan_eq_sin_div_cos]; exact div_ne_zero s0 (cos_ne t)
  have e : realFn .cot_pi_times (p / Real.pi) = 1 / Real.tan p := by
    show Real.cos (Real.pi * (p / Real.pi)) / Real.sin (Real.pi * (p / Real.pi)) = _
    rw [pi_cancel, Real.tan_eq_sin_div_cos, one_div_div]
  have ev : UFun.cot_pi_times.evl L r = cotl L (Fl.mul x80 PI r) := by
    show cotPiTimesl L r = _; unfold cotPiTimesl; simp only [h0, h1, if_false, Bool.false_eq_true]
  rw [e]
  have m := mod_tan t
  refine (near_castfun (u := .cot_pi_times) rfl hF (ε := 4 / 2 ^ x80.prec * (1 + 1 / 2 ^ 30) + 1.25 / 2 ^ x80.prec) ?_ m.inv (by norm_num [prec80])).res
  rw [ev]
  exact ((hA.tan x80 (Or.inr rfl) _ p i t.rep).near m).inv (Or.inr rfl) m t0 (by norm_num [prec80])

end

end Takum
