import Verif.Lemmas.LinFrom

/-!
# Conversions between floats and linear takums (C04–C12)

`linTo A w`, `linFrom A w` are the twelve functions `takum_linearN_to_X` and the twelve functions
`takum_linearN_from_X`, `X` (`A : Src`) being one of float32, float64, extended_float.
`f.In A.fmt` says that `f` is a value of that floating type (NaN, infinities, zeros, subnormals
included).
-/

namespace Takum
open Spec

/-- The float to be returned for a takum: NaN for NaR, `+0` for 0, the number otherwise. -/
def exactFl (v : Option ℚ) : Fl :=
  match v with
  | none => .nan
  | some v => if v = 0 then .zero false else .num v

/-- The same rounded to the nearest value of a format (ties to even, overflow to infinity). -/
def roundFl (F : Fmt) (v : Option ℚ) : Fl :=
  match v with
  | none => .nan
  | some v => Fl.round F false v

theorem linVal_cases {w : W} (t : T w) : (t = nar w.n ∧ linVal t = none) ∨ (t = 0#w.n ∧ linVal t = some 0) ∨
    (Regular t ∧ linVal t = some (lv t)) := by
  have h8 := w.n_pos
  by_cases h1 : t = nar w.n
  · exact Or.inl ⟨h1, by unfold linVal; rw [if_pos h1]⟩
  · by_cases h0 : t = 0#w.n
    · exact Or.inr (Or.inl ⟨h0, by unfold linVal; rw [if_neg h1, if_pos h0]⟩)
    · exact Or.inr (Or.inr ⟨⟨h0, h1⟩, linVal_lv (by omega) ⟨h0, h1⟩⟩)

theorem Fl.Is.exact {r : Fl} {v : ℚ} (h : r.Is v) (hv : v ≠ 0) : r = exactFl (some v) := by
  rw [h.eq_num hv]; unfold exactFl; simp only; rw [if_neg hv]

/-- C04: conversion of a linear takum to `long double`, and for 8, 16, 32 bits to `double`, is
exact: the number is a value of the floating type and is what is returned. -/
theorem lin_to_exact (w : W) (t : T w) :
    (linToExtended w t = .ok (exactFl (linVal t)) ∧ ∀ v, linVal t = some v → x80.In v) ∧
    (w ≠ .w64 → linToFloat64 w t = .ok (exactFl (linVal t)) ∧ ∀ v, linVal t = some v → b64.In v) := by
  have in0 : ∀ F : Fmt, F.In 0 := fun F => ⟨Fmt.Rep.zero F, by rw [abs_zero]; exact zpow_pos (by norm_num) _⟩
  rcases linVal_cases t with ⟨h, e⟩ | ⟨h, e⟩ | ⟨h, e⟩
  · rw [e]
    refine ⟨⟨?_, by simp⟩, fun _ => ⟨?_, by simp⟩⟩
    · rw [h, linToExtended_nar]; rfl
    · rw [h, linToFloat64_nar]; rfl
  · rw [e]
    refine ⟨⟨?_, ?_⟩, fun _ => ⟨?_, ?_⟩⟩
    · rw [h, linToExtended_zero]; simp [exactFl]
    · rintro v ⟨⟩; exact in0 _
    · rw [h, linToFloat64_zero]; simp [exactFl]
    · rintro v ⟨⟩; exact in0 _
  · rw [e]
    refine ⟨⟨?_, ?_⟩, fun hw => ⟨?_, ?_⟩⟩
    · obtain ⟨r, h1, h2⟩ := linToExtended_regular h
      rw [h1, h2.exact (lv_ne t)]
    · rintro v ⟨⟩; exact lv_in t (by cases w <;> decide) (by decide) (by decide)
    · obtain ⟨r, h1, h2⟩ := linToFloat64_regular h
      rw [b64.rq_of_rep (lv_b64 hw t).1] at h2
      rw [h1, h2.exact (lv_ne t)]
    · rintro v ⟨⟩; exact lv_b64 hw t

example : linToExtended .w64 0x4400000000000001#64 = .ok (.num (3 / 2 + 1 / 2 ^ 59)) ∧
    linToFloat64 .w16 0xbc00#16 = .ok (.num (-3 / 2)) := by decide +kernel

/-- C04: the remaining conversions to floats round to nearest, once (`takum_linear64_to_float64`,
`takum_linearN_to_float32` for 8, 16, 32 bits) or twice (`takum_linear64_to_float32`). -/
theorem lin_to_rounded (w : W) (t : T w) :
    linToFloat64 w t = .ok (roundFl b64 (linVal t)) ∧
    (w ≠ .w64 → linToFloat32 w t = .ok (roundFl b32 (linVal t))) ∧
    linToFloat32 w t = .ok (Fl.cast b32 (roundFl b64 (linVal t))) ∧
    (t ≠ nar w.n → (roundFl b64 (linVal t)).isfinite = true) := by
  have h32 : ∀ r, linToFloat64 w t = .ok r → linToFloat32 w t = .ok (Fl.cast b32 r) := by
    intro r hr
    unfold linToFloat64 at hr
    unfold linToFloat32
    obtain ⟨l, hl⟩ : ∃ l, toL w t = .ok l := by
      rcases toL_cases w t with ⟨_, h⟩ | ⟨_, h⟩ | ⟨_, x, h, _⟩ <;> exact ⟨_, h⟩
    rw [hl] at hr ⊢
    simp only [ok_bind] at hr ⊢
    rw [hr]; rfl
  rcases linVal_cases t with ⟨h, e⟩ | ⟨h, e⟩ | ⟨h, e⟩
  · have h64 : linToFloat64 w t = .ok .nan := by rw [h, linToFloat64_nar]
    rw [e]
    exact ⟨h64, fun _ => h32 _ h64, h32 _ h64, fun hn => absurd h hn⟩
  · have h64 : linToFloat64 w t = .ok (.zero false) := by rw [h, linToFloat64_zero]
    rw [e]
    have r0 : ∀ F, roundFl F (some 0) = .zero false := fun F => by simp [roundFl, Fl.round]
    rw [r0, r0]
    exact ⟨h64, fun _ => h32 _ h64, h32 _ h64, fun _ => rfl⟩
  · obtain ⟨l, r, h1, h2, h3⟩ := linTo_regular h
    have h64 : linToFloat64 w t = .ok (roundFl b64 (some (lv t))) := by
      unfold linToFloat64 sAndLinearLToFloat64
      rw [h1]; simp only [ok_bind]; rw [h2, h3.eq_num (lv_ne t)]; rfl
    have hb := b64_small t
    have hi : (roundFl b64 (some (lv t))).Is (b64.rq (lv t)) := Fl.Is.round false hb
    rw [e]
    refine ⟨h64, fun hw => ?_, h32 _ h64, fun _ => hi.isfinite⟩
    rw [b64.rq_of_rep (lv_b64 hw t).1] at hi
    rw [h32 _ h64, hi.eq_num (lv_ne t)]; rfl

example : linVal (0x4400000000000001#64 : BitVec 64) = some (3 / 2 + 1 / 2 ^ 59) ∧
    linToFloat64 .w64 0x4400000000000001#64 = .ok (.num (3 / 2)) ∧
    linToFloat32 .w16 0x7fff#16 = .ok (.inf false) := by decide +kernel

/-- C05: the trip through `long double` is the identity for all widths, that through `double` for 8,
16 and 32 bits. -/
theorem lin_roundtrip (w : W) (t : T w) :
    (do linFromExtended w (← linToExtended w t)) = .ok t ∧
    (w ≠ .w64 → (do linFromFloat64 w (← linToFloat64 w t)) = .ok t) := by
  rcases linVal_cases t with ⟨h, -⟩ | ⟨h, -⟩ | ⟨h, -⟩
  · constructor
    · rw [h, linToExtended_nar]; exact linFrom_nan .ext w
    · intro _; rw [h, linToFloat64_nar]; exact linFrom_nan .f64 w
  · constructor
    · rw [h, linToExtended_zero]; exact linFrom_zero .ext w false
    · intro _; rw [h, linToFloat64_zero]; exact linFrom_zero .f64 w false
  · constructor
    · obtain ⟨r, h1, h2⟩ := linToExtended_regular h
      rw [h1]
      exact linFrom_lv .ext h h2 (lv_in t (by cases w <;> decide) (by decide) (by decide))
    · intro hw
      obtain ⟨r, h1, h2⟩ := linToFloat64_regular h
      rw [b64.rq_of_rep (lv_b64 hw t).1] at h2
      rw [h1]
      exact linFrom_lv .f64 h h2 (lv_b64 hw t)

example : (do linFromExtended .w64 (← linToExtended .w64 0x8123456789abcdef#64)) = .ok 0x8123456789abcdef#64 ∧
    (do linFromFloat64 .w64 (← linToFloat64 .w64 0x4400000000000001#64)) = .ok 0x4400000000000000#64 := by
  decide +kernel

theorem Fl.In.finite {F : Fmt} {f : Fl} (h : f.In F) (hf : f.isfinite = true) : ∃ v, f.Is v ∧ F.In v ∧ f.toQ = v := by
  cases f with
  | nan => cases hf
  | inf s => cases hf
  | zero s => exact ⟨0, Fl.Is.zero s, ⟨Fmt.Rep.zero F, by rw [abs_zero]; exact zpow_pos (by norm_num) _⟩, rfl⟩
  | num q => exact ⟨q, Fl.Is.num h.1, h.2, rfl⟩

theorem lamInv_zpow (k : ℤ) : lamInv ((2 : ℚ) ^ k) = k := by
  have : lam (k : ℚ) = (2 : ℚ) ^ k := by unfold lam; simp
  rw [← this, lamInv_lam]

theorem linFrom64_exact (A : Src) (hA : A ≠ .ext) {f : Fl} {v : ℚ} (hf : f.Is v) (hv : v ≠ 0) (h : A.fmt.In v)
    (h1 : (2 : ℚ) ^ (-255 : ℤ) < |v|) (h2 : |v| < (2 : ℚ) ^ (255 : ℤ)) :
    ∃ t : T .w64, linFrom A .w64 f = .ok t ∧ Regular t ∧ lv t = v := by
  obtain ⟨l, e, hl⟩ := linFrom_spec A .w64 hf hv h
  have hp : 0 < |v| := abs_pos.mpr hv
  have hr := rho_rep A .w64 hv h
  have hid : rho A .w64 (lamInv |v|) = lamInv |v| := by cases A <;> first | rfl | contradiction
  rw [hid] at hl hr
  have hg : ∃ j : ℤ, lamInv |v| * 2 ^ 52 = j := by
    cases A
    · obtain ⟨j, hj⟩ := lamInv_grid hv h.1 (by decide)
      refine ⟨j * 2 ^ 29, ?_⟩
      push_cast; rw [← hj]
      have : (2 : ℚ) ^ 52 = 2 ^ (Src.f32.fmt.prec - 1) * 2 ^ 29 := by rw [← pow_add]; rfl
      rw [this]; ring
    · exact lamInv_grid hv h.1 (by decide)
    · contradiction
  obtain ⟨j, hj⟩ := hg
  have hb : |lamInv (|v|)| < 255 := by
    rw [abs_lt]
    have a1 := (lamInv_lt_iff (zpow_pos (by norm_num) _) hp).mpr h1
    have a2 := (lamInv_lt_iff hp (zpow_pos (by norm_num) _)).mpr h2
    rw [lamInv_zpow] at a1 a2
    push_cast at a1 a2
    exact ⟨a1, a2⟩
  obtain ⟨t, e1, e2, e3, e4⟩ := enc64_exact (decide (v < 0)) hl hr hj hb
  refine ⟨t, by rw [e, e1], e2, ?_⟩
  unfold lv
  rw [e3, e4, lam_lamInv hp, sg_decide_abs]

/-- C06: a `double` in the range of the takums survives the trip through `takum_linear64`. -/
theorem float64_roundtrip (f : Fl) (hf : f.In b64) (hfin : f.isfinite = true)
    (h1 : (2 : ℚ) ^ (-255 : ℤ) < |f.toQ|) (h2 : |f.toQ| < (2 : ℚ) ^ (255 : ℤ)) :
    (do linToFloat64 .w64 (← linFromFloat64 .w64 f)) = .ok f := by
  obtain ⟨v, hv, hin, e⟩ := hf.finite hfin
  rw [e] at h1 h2
  have h0 : v ≠ 0 := by
    rintro rfl; rw [abs_zero] at h1; exact absurd h1 (not_lt.mpr (zpow_nonneg (by norm_num) _))
  obtain ⟨t, e1, e2, e3⟩ := linFrom64_exact .f64 (by decide) hv h0 hin h1 h2
  obtain ⟨r, r1, r2⟩ := linToFloat64_regular e2
  rw [e3, b64.rq_of_rep hin.1] at r2
  have e1' : linFromFloat64 .w64 f = .ok t := e1
  rw [e1', ok_bind, r1, r2.eq_num h0, hv.eq_num h0]

example : (Fl.num (-(3 : ℚ) / 2 ^ 200)).In b64 ∧ (2 : ℚ) ^ (-255 : ℤ) < |(Fl.num (-(3 : ℚ) / 2 ^ 200)).toQ| := by
  refine ⟨⟨by norm_num, ⟨⟨-3, -200, ?_, by decide, by decide⟩, ?_⟩⟩, ?_⟩ <;> decide +kernel

/-- C06: every finite `float` survives the trip through `takum_linear64` (a negative zero comes back
as zero without sign). -/
theorem float32_roundtrip (f : Fl) (hf : f.In b32) (hfin : f.isfinite = true) :
    ∃ g, (do linToFloat32 .w64 (← linFromFloat32 .w64 f)) = .ok g ∧ Fl.eq g f = true ∧ (f ≠ .zero true → g = f) := by
  obtain ⟨v, hv, hin, -⟩ := hf.finite hfin
  by_cases h0 : v = 0
  · subst h0
    rcases hv.cases with ⟨h, _⟩ | ⟨_, s, hz⟩
    · exact absurd rfl h
    have e1 : linFromFloat32 .w64 f = .ok 0#64 := by rw [hz]; exact linFrom_zero .f32 .w64 s
    refine ⟨.zero false, ?_, ?_, ?_⟩
    · rw [e1, ok_bind]; decide +kernel
    · rw [Fl.eq_iff (Fl.Is.zero _) hv]
    · rw [hz]; cases s
      · intro _; rfl
      · intro h; exact absurd rfl h
  · obtain ⟨l1, l2⟩ := log_of_in h0 hin
    obtain ⟨b1, b2⟩ := log_two_bounds (abs_pos.mpr h0)
    obtain ⟨t, e1, e2, e3⟩ := linFrom64_exact .f32 (by decide) hv h0 hin
      (lt_of_lt_of_le (zpow_lt_zpow_right₀ (by norm_num) (by simp only [b32] at l1; omega)) b1)
      (lt_of_lt_of_le b2 (zpow_le_zpow_right₀ (by norm_num) (by simp only [b32] at l2; omega)))
    refine ⟨f, ?_, by rw [Fl.eq_iff hv hv], fun _ => rfl⟩
    have h := (lin_to_rounded .w64 t).2.2.1
    have e1' : linFromFloat32 .w64 f = .ok t := e1
    rw [e1', ok_bind, h, linVal_lv (by decide) e2, e3]
    have i1 : (roundFl b64 (some v)).Is v := by
      unfold roundFl
      exact Is.round_in (Fmt.b32_b64 hin) (fun hb => Fl.Is.round false hb)
    have i2 : (Fl.cast b32 (roundFl b64 (some v))).Is v := Is.round_in hin (fun hb => i1.cast hb)
    rw [i2.eq_num h0, hv.eq_num h0]

example : (Fl.num ((1 : ℚ) / 2 ^ 149)).In b32 ∧
    (do linToFloat32 .w64 (← linFromFloat32 .w64 (.num (1 / 2 ^ 149)))) = .ok (.num (1 / 2 ^ 149)) := by
  refine ⟨⟨by norm_num, ⟨⟨1, -149, ?_, by decide, by decide⟩, ?_⟩⟩, ?_⟩ <;> decide +kernel

/-- C07: special values, sign and saturation, for all twelve functions. -/
theorem lin_from_total (A : Src) (w : W) (f : Fl) (hf : f.In A.fmt) :
    ∃ t : T w, linFrom A w f = .ok t ∧ (t = 0#w.n ↔ ∃ s, f = .zero s) ∧ (t = nar w.n ↔ f.isfinite = false) ∧
      (f.isfinite = true → (∀ s, f ≠ .zero s) → (t.toInt < 0 ↔ f.sgn = true)) := by
  have h8 := w.n_pos
  cases f with
  | nan =>
    exact ⟨_, linFrom_nan A w, by simp [nar_ne_zero (by omega : 1 ≤ w.n)], by simp [Fl.isfinite], by simp [Fl.isfinite]⟩
  | inf s =>
    exact ⟨_, linFrom_inf A w s, by simp [nar_ne_zero (by omega : 1 ≤ w.n)], by simp [Fl.isfinite], by simp [Fl.isfinite]⟩
  | zero s =>
    refine ⟨_, linFrom_zero A w s, by simp, ?_, by simp⟩
    simp only [Fl.isfinite, Bool.true_eq_false, iff_false]
    exact (nar_ne_zero (by omega)).symm
  | num q =>
    obtain ⟨t, e, rt, st, -⟩ := linFrom_faithful A w (Fl.Is.num hf.1) hf.1 hf.2
    refine ⟨t, e, by simp [rt.1], by simp [rt.2, Fl.isfinite], fun _ _ => ?_⟩
    rw [toInt_neg_iff (by omega) rt, st]; rfl

example : (Fl.num ((1 : ℚ) / 2 ^ 16445)).In x80 ∧ linFrom .ext .w8 (.num (1 / 2 ^ 16445)) = .ok 1#8 := by
  refine ⟨⟨by positivity, ⟨⟨1, -16445, ?_, by decide, by decide⟩, ?_⟩⟩, ?_⟩ <;> decide +kernel

/-- C08: the conversions are monotone. -/
theorem lin_from_monotone (A : Src) (w : W) (f g : Fl) (hf : f.In A.fmt) (hg : g.In A.fmt)
    (h1 : f.isfinite = true) (h2 : g.isfinite = true) (h : Fl.le f g = true) :
    ∃ t t' : T w, linFrom A w f = .ok t ∧ linFrom A w g = .ok t' ∧ t.toInt ≤ t'.toInt := by
  obtain ⟨v, i1, n1, -⟩ := hf.finite h1
  obtain ⟨u, i2, n2, -⟩ := hg.finite h2
  refine linFrom_mono A w i1 i2 n1 n2 ?_
  unfold Fl.le at h
  rw [Bool.or_eq_true, Fl.lt_iff i1 i2, Fl.eq_iff i1 i2] at h
  exact le_iff_lt_or_eq.mpr h

example : Fl.le (.num (-3)) (.num (1 / 4)) = true ∧
    linFrom .f64 .w16 (.num (-3)) = .ok 0xb600#16 ∧ linFrom .f64 .w16 (.num (1 / 4)) = .ok 0x3400#16 := by
  decide +kernel

/-- C09: conversions of `float` and `double` to 32- and 64-bit linear takums are correctly rounded. -/
theorem lin_from_nearest (A : Src) (w : W) (hA : A = .f32 ∨ A = .f64) (hw : w = .w32 ∨ w = .w64) (v : ℚ)
    (hv : v ≠ 0) (h : A.fmt.In v) : ∃ t : T w, linFrom A w (.num v) = .ok t ∧ NearestLin v t := by
  refine linFrom_nearestLin A w (by rcases hw with rfl | rfl <;> decide) (Fl.Is.num hv) hv h ?_ ?_
  · rcases hA with rfl | rfl <;> rcases hw with rfl | rfl <;> rfl
  · apply onGrid_lamInv hv h.1
    · rcases hA with rfl | rfl <;> decide
    · rcases hA with rfl | rfl <;> rcases hw with rfl | rfl <;> decide

example : b64.In (1 + 1 / 2 ^ 28 : ℚ) ∧ linFrom .f64 .w32 (.num (1 + 1 / 2 ^ 28)) = .ok 0x40000000#32 ∧
    linFrom .f64 .w32 (.num (1 + 3 / 2 ^ 28)) = .ok 0x40000002#32 := by
  refine ⟨⟨⟨2 ^ 28 + 1, -28, ?_, by decide, by decide⟩, ?_⟩, ?_⟩ <;> decide +kernel

/-- C10: all twelve conversions are faithful. -/
theorem lin_from_faithful (A : Src) (w : W) (v : ℚ) (hv : v ≠ 0) (h : A.fmt.In v) :
    ∃ t : T w, linFrom A w (.num v) = .ok t ∧ FaithfulLin v t := by
  have h8 := w.n_pos
  obtain ⟨t, e, rt, st, hf⟩ := linFrom_faithful A w (Fl.Is.num hv) hv h
  refine ⟨t, e, rt, by rw [st]; simp, ?_⟩
  intro t' x rt' hx
  rw [linVal_lv (by omega) rt', Option.some.injEq] at hx
  subst hx
  exact_mod_cast hf t' rt'

example : x80.In (-(2 : ℚ) / 2 ^ 60) := by
  refine ⟨⟨-2, -60, ?_, by decide, by decide⟩, ?_⟩ <;> decide +kernel

/-- C11: for the functions other than `takum_linear16_from_extended_float` the conversion is odd.
Missing: that function, for which the claim is false (`lin_from_odd_refuted`). -/
theorem lin_from_odd_partial (A : Src) (w : W) (hx : ¬ (A = .ext ∧ w = .w16)) (f : Fl) (hf : f.In A.fmt) :
    ∃ t : T w, linFrom A w f = .ok t ∧ linFrom A w f.neg = .ok (-t) := by
  have h8 := w.n_pos
  have hn : -(nar w.n) = nar w.n := (neg_value (by omega) (nar w.n)).2.2.mpr (Or.inr rfl)
  cases f with
  | nan => exact ⟨_, linFrom_nan A w, by rw [hn]; exact linFrom_nan A w⟩
  | inf s => exact ⟨_, linFrom_inf A w s, by rw [hn]; exact linFrom_inf A w _⟩
  | zero s => exact ⟨_, linFrom_zero A w s, by rw [BitVec.neg_zero]; exact linFrom_zero A w _⟩
  | num q => exact linFrom_neg A w hx (Fl.Is.num hf.1) hf.1 hf.2

example : linFrom .f64 .w16 (.num (1 + 1 / 2 ^ 12 + 1 / 2 ^ 52)) = .ok 0x4001#16 ∧
    linFrom .f64 .w16 (.num (-(1 + 1 / 2 ^ 12 + 1 / 2 ^ 52))) = .ok (-0x4001#16) := by decide +kernel

/-- C11 is false for `takum_linear16_from_extended_float`: for a negative argument `1 - g` is
rounded to `double` and becomes a tie. -/
theorem lin_from_odd_refuted : ∃ v : ℚ, x80.In v ∧ linFromExtended .w16 (.num v) = .ok 0x4001#16 ∧
    linFromExtended .w16 (Fl.neg (.num v)) = .ok (-0x4000#16) := by
  refine ⟨1 + 1 / 2 ^ 12 + 1 / 2 ^ 63, ⟨⟨2 ^ 63 + 2 ^ 51 + 1, -63, ?_, by decide, by decide⟩, ?_⟩, ?_⟩ <;>
    decide +kernel

/-- Numbers with a significand of 16 bits, in the range of the takums. -/
def short : Fmt := ⟨16, -256, 256⟩

theorem short_facts {A : Src} {w : W} {v : ℚ} (hv : v ≠ 0) (h : short.In v) :
    rho A w (lamInv |v|) = lamInv |v| ∧ OnGrid w (lamInv |v|) := by
  have r1 : b32.Rep (lamInv |v|) :=
    lamInv_rep hv h (by decide) (k := 8) (by decide) (by decide) (by decide) (by decide)
  have e1 := b32.rq_of_rep r1
  have e2 := b64.rq_of_rep (r1.mono (by decide) (by decide))
  have e3 := x80.rq_of_rep (r1.mono (by decide) (by decide))
  refine ⟨?_, onGrid_lamInv hv h.1 (by decide) (by cases w <;> decide)⟩
  cases A <;> cases w <;> simp only [rho, e1, e2, e3, id]

/-- C12, restricted to arguments with at most 16 significant bits: the conversions to 16, 32 and 64
bits are correctly rounded.  Missing: arguments with more significant bits, for which the claim is
false (`lin_from_nearest_refuted`). -/
theorem lin_from_nearest_partial (A : Src) (w : W) (hw : w ≠ .w8) (v : ℚ) (hv : v ≠ 0) (h : A.fmt.In v)
    (hs : short.In v) : ∃ t : T w, linFrom A w (.num v) = .ok t ∧ NearestLin v t := by
  obtain ⟨h1, h2⟩ := short_facts (A := A) (w := w) hv hs
  exact linFrom_nearestLin A w (by cases w <;> first | decide | contradiction) (Fl.Is.num hv) hv h h1 h2

example : short.In (-3 / 2 ^ 100 : ℚ) := by
  refine ⟨⟨-3, -100, ?_, by decide, by decide⟩, ?_⟩ <;> decide +kernel

/-- C12, restricted to arguments with at most 16 significant bits: the conversions to 8 bits return
the nearest takum on the logarithmic-linear scale of the format (`x` is the position of the
argument: `|v| = (1 + frac x)·2^⌊x⌋`).  Missing: nearest in value, which is false
(`lin8_from_nearest_refuted`). -/
theorem lin8_from_nearest_partial (A : Src) (v : ℚ) (hv : v ≠ 0) (h : A.fmt.In v) (hs : short.In v) :
    ∃ t : T .w8, ∃ x : ℚ, linFrom A .w8 (.num v) = .ok t ∧ |v| = (1 + Int.fract x) * (2 : ℚ) ^ ⌊x⌋ ∧
      NearestEll (decide (v < 0)) x t := by
  obtain ⟨h1, h2⟩ := short_facts (A := A) (w := .w8) hv hs
  obtain ⟨t, e, hn⟩ := linFrom_nearestEll A .w8 (Fl.Is.num hv) hv h h1 h2
  exact ⟨t, _, e, (lam_lamInv (abs_pos.mpr hv)).symm, hn⟩

example : short.In (5 * 2 ^ 100 : ℚ) ∧ linFrom .f32 .w8 (.num (5 * 2 ^ 100)) = .ok 0x75#8 := by
  refine ⟨⟨⟨5, 100, ?_, by decide, by decide⟩, ?_⟩, ?_⟩ <;> decide +kernel

theorem not_nearestLin {n : ℕ} {v : ℚ} {t : BitVec n} (t' : BitVec n) (a b : ℚ) (h : linVal t = some a ∧ linVal t' = some b ∧
    t' ≠ 0#n ∧ t' ≠ nar n ∧ t'.msb = t.msb ∧ |b - v| < |a - v|) : ¬ NearestLin v t := by
  rintro ⟨-, -, hn⟩
  obtain ⟨h1, h2, h3, h3', h4, h5⟩ := h
  rcases hn t' ⟨h3, h3'⟩ h4 a b h1 h2 with h | ⟨h, -⟩ <;> linarith

/-- C12 is false for `takum_linear16_from_*` and `takum_linear32/64_from_extended_float`: the
position of the argument is rounded to a floating type before it is rounded to a takum. -/
theorem lin_from_nearest_refuted :
    (∀ A : Src, ∃ (v : ℚ) (t : T .w16), A.fmt.In v ∧ linFrom A .w16 (.num v) = .ok t ∧ ¬ NearestLin v t) ∧
    (∀ w : W, w = .w32 ∨ w = .w64 →
      ∃ (v : ℚ) (t : T w), x80.In v ∧ linFrom .ext w (.num v) = .ok t ∧ ¬ NearestLin v t) := by
  constructor
  · rintro (_ | _ | _)
    · refine ⟨2 ^ 64 * (1 + 1 / 2 ^ 6 + 1 / 2 ^ 23), 28704#16,
        ⟨⟨2 ^ 23 + 2 ^ 17 + 1, 41, ?_, by decide, by decide⟩, ?_⟩, ?_,
        not_nearestLin 28705#16 (2 ^ 64) 19023204826012975104 ?_⟩ <;> decide +kernel
    · refine ⟨2 ^ 64 * (1 + 1 / 2 ^ 6 + 1 / 2 ^ 52), 28704#16,
        ⟨⟨2 ^ 52 + 2 ^ 46 + 1, 12, ?_, by decide, by decide⟩, ?_⟩, ?_,
        not_nearestLin 28705#16 (2 ^ 64) 19023204826012975104 ?_⟩ <;> decide +kernel
    · refine ⟨2 ^ 64 * (1 + 1 / 2 ^ 6 + 1 / 2 ^ 63), 28704#16,
        ⟨⟨2 ^ 63 + 2 ^ 57 + 1, 1, ?_, by decide, by decide⟩, ?_⟩, ?_,
        not_nearestLin 28705#16 (2 ^ 64) 19023204826012975104 ?_⟩ <;> decide +kernel
  · rintro w (rfl | rfl)
    · refine ⟨2 ^ 64 * (1 + 1 / 2 ^ 22 + 1 / 2 ^ 63), 1881145344#32,
        ⟨⟨2 ^ 63 + 2 ^ 41 + 1, 1, ?_, by decide, by decide⟩, ?_⟩, ?_,
        not_nearestLin (n := 32) 1881145345#32 (2 ^ 64) 18446752869802573824 ?_⟩ <;> decide +kernel
    · refine ⟨2 ^ 4 * (1 + 1 / 2 ^ 58 + 1 / 2 ^ 63), 5908722711110090752#64,
        ⟨⟨2 ^ 63 + 2 ^ 5 + 1, -59, ?_, by decide, by decide⟩, ?_⟩, ?_,
        not_nearestLin (n := 64) 5908722711110090753#64 16 (144115188075855873 / 9007199254740992) ?_⟩ <;> decide +kernel

/-- C12 is false for `takum_linear8_from_*`: where the exponent bits do not fit, the nearest takum
is taken on the scale of the exponents, not of the numbers. -/
theorem lin8_from_nearest_refuted (A : Src) : linFrom A .w8 (.num (2 ^ 18)) = .ok 98#8 ∧ A.fmt.In (2 ^ 18) ∧
    ¬ NearestLin (2 ^ 18) 98#8 := by
  refine ⟨?_, ⟨⟨1, 18, ?_, ?_, ?_⟩, ?_⟩, not_nearestLin 97#8 (2 ^ 19) (2 ^ 17) ?_⟩ <;> cases A <;> decide +kernel

end Takum
