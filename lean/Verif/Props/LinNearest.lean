import Verif.Lemmas.LinExact

/-! # Correct rounding of 8- and 16-bit linear arithmetic (C37) and linear inversion (C35) -/

namespace Takum
open Spec

theorem sum_nearest' {w : W} (hw : w = .w8 ∨ w = .w16) {a b : T w} (ha : a ≠ nar w.n) (hb : b ≠ nar w.n)
    (h0 : qv a + qv b ≠ 0) :
    NearestEll (decide (qv a + qv b < 0)) (lamInv |qv a + qv b|) (linEnc w (w.src.fmt.rq (qv a + qv b))) := by
  have single : ∀ t : T w, Regular t → NearestEll (decide (qv t < 0)) (lamInv |qv t|) (linEnc w (w.src.fmt.rq (qv t))) := by
    intro t ht
    rw [rq_qv, linEnc_qv ht.2, qv_regular ht, lv_abs, lamInv_lam]
    have : decide (lv t < 0) = t.msb := by rw [Bool.eq_iff_iff, decide_eq_true_iff, lv_neg_iff]
    rw [this]
    exact near_close (by have := w.n_pos; omega) ht (by simp)
  by_cases a0 : a = 0#w.n
  · subst a0
    rw [qv_zero, zero_add] at h0 ⊢
    exact single b ⟨fun e => h0 (by rw [e, qv_zero]), hb⟩
  by_cases b0 : b = 0#w.n
  · subst b0
    rw [qv_zero, add_zero] at h0 ⊢
    exact single a ⟨fun e => h0 (by rw [e, qv_zero]), ha⟩
  have hra : Regular a := ⟨a0, ha⟩
  have hrb : Regular b := ⟨b0, hb⟩
  rw [qv_regular hra, qv_regular hrb] at h0 ⊢
  rcases le_total |lv b| |lv a| with h | h
  · exact sum_nearest hw hra h h0
  · rw [add_comm] at h0 ⊢
    exact sum_nearest hw hrb h h0

theorem prod_nearest {w : W} (hw : w = .w8 ∨ w = .w16) {a b : T w} (ha : Regular a) (hb : Regular b) :
    NearestEll (decide (qv a * qv b < 0)) (lamInv |qv a * qv b|) (linEnc w (w.src.fmt.rq (qv a * qv b))) := by
  have h0 : lv a * lv b ≠ 0 := mul_ne_zero (lv_ne a) (lv_ne b)
  rw [qv_regular ha, qv_regular hb]
  obtain ⟨i1, i2⟩ := exact_facts hw h0 (prod_in hw a b)
  rw [w.src.fmt.rq_of_rep i1.1]; exact i2

/-- From the position scale to the values. -/
theorem nearestLin16 {v : ℚ} (hv : v ≠ 0) {t : T .w16} (h : NearestEll (decide (v < 0)) (lamInv |v|) t) : NearestLin v t := by
  have := nearestLin_of_ell (by decide) h
  rwa [lam_lamInv (abs_pos.mpr hv), sg_decide_abs] at this

/-- C37, 16 bits: the sum, difference and product are the takum nearest to the exact result, ties to the
even bit pattern, saturating. -/
theorem lin16_arith_nearest (a b : T .w16) (x y : ℚ) (ha : linVal a = some x) (hb : linVal b = some y) :
    (x + y ≠ 0 → ∃ t, linAddition .w16 a b = .ok t ∧ NearestLin (x + y) t) ∧
    (x - y ≠ 0 → ∃ t, linSubtraction .w16 a b = .ok t ∧ NearestLin (x - y) t) ∧
    (x * y ≠ 0 → ∃ t, linMultiplication .w16 a b = .ok t ∧ NearestLin (x * y) t) := by
  have han : a ≠ nar 16 := by rintro rfl; simp [linVal] at ha
  have hbn : b ≠ nar 16 := by rintro rfl; simp [linVal] at hb
  rw [linVal_qv (w := .w16) han] at ha
  rw [linVal_qv (w := .w16) hbn] at hb
  simp only [Option.some.injEq] at ha hb
  subst ha hb
  refine ⟨fun h => ?_, fun h => ?_, fun h => ?_⟩
  · exact ⟨_, linAddition_eq han hbn, nearestLin16 h (sum_nearest' (Or.inr rfl) han hbn h)⟩
  · refine ⟨_, linSubtraction_eq han hbn, nearestLin16 h ?_⟩
    rw [sub_eq_add_neg, ← qv_neg (w := .w16) hbn] at h ⊢
    exact sum_nearest' (Or.inr rfl) han (neg_ne_nar (w := .w16) hbn) h
  · have h1 : Regular a := ⟨fun e => h (by rw [e, qv_zero, zero_mul]), han⟩
    have h2 : Regular b := ⟨fun e => h (by rw [e, qv_zero, mul_zero]), hbn⟩
    exact ⟨_, linMultiplication_eq han hbn, nearestLin16 h (prod_nearest (Or.inr rfl) h1 h2)⟩

/-- C37, 8 bits: the sum, difference and product are the takum nearest to the exact result on the
logarithmic-linear scale of the format (`p` is the position of the exact result). -/
theorem lin8_arith_nearest (a b : T .w8) (x y : ℚ) (ha : linVal a = some x) (hb : linVal b = some y) :
    (x + y ≠ 0 → ∃ t p, linAddition .w8 a b = .ok t ∧ |x + y| = (1 + Int.fract p) * (2 : ℚ) ^ ⌊p⌋ ∧
      NearestEll (decide (x + y < 0)) p t) ∧
    (x - y ≠ 0 → ∃ t p, linSubtraction .w8 a b = .ok t ∧ |x - y| = (1 + Int.fract p) * (2 : ℚ) ^ ⌊p⌋ ∧
      NearestEll (decide (x - y < 0)) p t) ∧
    (x * y ≠ 0 → ∃ t p, linMultiplication .w8 a b = .ok t ∧ |x * y| = (1 + Int.fract p) * (2 : ℚ) ^ ⌊p⌋ ∧
      NearestEll (decide (x * y < 0)) p t) := by
  have han : a ≠ nar 8 := by rintro rfl; simp [linVal] at ha
  have hbn : b ≠ nar 8 := by rintro rfl; simp [linVal] at hb
  rw [linVal_qv (w := .w8) han] at ha
  rw [linVal_qv (w := .w8) hbn] at hb
  simp only [Option.some.injEq] at ha hb
  subst ha hb
  have hp : ∀ v : ℚ, v ≠ 0 → |v| = (1 + Int.fract (lamInv |v|)) * (2 : ℚ) ^ ⌊lamInv (|v|)⌋ :=
    fun v hv => (lam_lamInv (abs_pos.mpr hv)).symm
  refine ⟨fun h => ?_, fun h => ?_, fun h => ?_⟩
  · exact ⟨_, _, linAddition_eq han hbn, hp _ h, sum_nearest' (Or.inl rfl) han hbn h⟩
  · refine ⟨_, _, linSubtraction_eq han hbn, hp _ h, ?_⟩
    rw [sub_eq_add_neg, ← qv_neg (w := .w8) hbn] at h ⊢
    exact sum_nearest' (Or.inl rfl) han (neg_ne_nar (w := .w8) hbn) h
  · have h1 : Regular a := ⟨fun e => h (by rw [e, qv_zero, zero_mul]), han⟩
    have h2 : Regular b := ⟨fun e => h (by rw [e, qv_zero, mul_zero]), hbn⟩
    exact ⟨_, _, linMultiplication_eq han hbn, hp _ h, prod_nearest (Or.inl rfl) h1 h2⟩

/-- A sum with summands so far apart that it is not a `double`, and one that is a tie. -/
example : linVal (0x7f00#16 : T .w16) = some (2 ^ 239) ∧ linVal (0x0100#16 : T .w16) = some (1 / 2 ^ 239) := by decide +kernel
example : linVal (0x45#8 : T .w8) = some (13 / 8) ∧ linVal (0x30#8 : T .w8) = some (1 / 8) ∧
    linAddition .w8 0x45#8 0x30#8 = .ok 0x46#8 := by decide +kernel

/-! ### C35: inversion -/

theorem linInversion_eq {w : W} {t : T w} (ht : Regular t) :
    linInversion w t = .ok (linEnc w (w.src.fmt.rq (x80.rq (1 / qv t)))) ∧
      w.src.fmt.In (w.src.fmt.rq (x80.rq (1 / qv t))) ∧ (2 : ℚ) ^ (-600 : ℤ) ≤ |x80.rq (1 / qv t)| := by
  obtain ⟨x, h1, h2⟩ := linTo_src w ht.2
  have hone := (ONE_facts w).2.2.1
  have hq := quot_le (qv_lt (ONE w)) ht
  have hq' := quot_big hone ht
  rw [qv_one] at hq hq'
  have r1 : x80.Rep ((2 : ℚ) ^ (600 : ℤ)) := Fmt.Rep.zpow (by decide) (by decide)
  have r2 : x80.Rep ((2 : ℚ) ^ (-600 : ℤ)) := Fmt.Rep.zpow (by decide) (by decide)
  have b1 : |x80.rq (1 / qv t)| ≤ (2 : ℚ) ^ (600 : ℤ) := x80.abs_rq_le (by decide) r1 hq
  have b2 : (2 : ℚ) ^ (-600 : ℤ) ≤ |x80.rq (1 / qv t)| := by rw [← Fmt.abs_rq]; exact x80.le_rq (by decide) r2 hq'
  refine ⟨?_, rq_src_in b1, b2⟩
  unfold linInversion
  rw [unaryLin_eq h1]
  unfold noFix invFn
  apply linFrom_enc _ (rq_src_in b1)
  apply Fl.Is.cast _ (rq_src b1)
  exact (Fl.Is.num one_ne_zero).div h2 (qv_ne ht)
    (lt_of_le_of_lt b1 (zpow_lt_zpow_right₀ (by norm_num) (by decide)))

theorem linInversion_special (w : W) : linInversion w 0#w.n = .ok (nar w.n) ∧ linInversion w (nar w.n) = .ok (nar w.n) := by
  have h3 : linTo w.src w 0#w.n = .ok (.zero false) := by
    cases w
    · exact linToFloat64_zero _
    · exact linToFloat64_zero _
    · exact linToFloat64_zero _
    · exact linToExtended_zero _
  constructor
  · unfold linInversion; rw [unaryLin_eq h3]; exact linFrom_inf _ _ _
  · unfold linInversion; rw [unaryLin_eq (linTo_src_nar w)]; exact linFrom_nan _ _

/-- C35. Inversion is NaR exactly for `0` and NaR, never `0`, and exact whenever the inverse is a takum. -/
theorem lin_inversion_special (w : W) (t : T w) :
    ∃ r : T w, linInversion w t = .ok r ∧ r ≠ 0#w.n ∧ (r = nar w.n ↔ t = 0#w.n ∨ t = nar w.n) ∧
      ∀ (t' : T w) (x : ℚ), Regular t → linVal t = some x → linVal t' = some x⁻¹ → r = t' := by
  have nz := zero_ne_nar w
  by_cases h0 : t = 0#w.n
  · subst h0
    exact ⟨_, (linInversion_special w).1, nz.symm, by simp, fun _ _ h => absurd rfl h.1⟩
  by_cases hn : t = nar w.n
  · subst hn
    exact ⟨_, (linInversion_special w).2, nz.symm, by simp, fun _ _ h => absurd rfl h.2⟩
  have ht : Regular t := ⟨h0, hn⟩
  obtain ⟨e, hin, hb⟩ := linInversion_eq ht
  obtain ⟨f1, f2, -⟩ := linEnc_facts hin
  refine ⟨_, e, fun h => rq_src_ne (w := w) hb (f2.mpr h), ?_, ?_⟩
  · exact iff_of_false f1 (by simp [h0, hn])
  · intro t' x _ hx hx'
    have hn' : t' ≠ nar w.n := by rintro rfl; simp [linVal] at hx'
    rw [linVal_qv hn] at hx
    rw [linVal_qv hn'] at hx'
    simp only [Option.some.injEq] at hx hx'
    rw [hx, one_div, ← hx']
    have : x80.In (qv t') := by
      have h := qv_src (w := w) (t := t')
      cases w
      · exact Fmt.b64_x80 h
      · exact Fmt.b64_x80 h
      · exact Fmt.b64_x80 h
      · exact h
    rw [x80.rq_of_rep this.1, rq_qv, linEnc_qv hn']

/-- C35. Powers of two are inverted exactly (the inverse of `±2^k` is a takum of the same width). -/
theorem lin_inversion_pow2 (w : W) (t : T w) (x : ℚ) (k : ℤ) (h : linVal t = some x) (hx : |x| = (2 : ℚ) ^ k) :
    ∃ r : T w, linInversion w t = .ok r ∧ linVal r = some x⁻¹ := by
  have h8 := w.n_pos
  have hn : t ≠ nar w.n := by rintro rfl; simp [linVal] at h
  rw [linVal_qv hn] at h
  simp only [Option.some.injEq] at h
  subst h
  have h0 : t ≠ 0#w.n := by
    rintro rfl
    rw [qv_zero, abs_zero] at hx
    exact absurd hx (zpow_pos (by norm_num) k).ne
  have ht : Regular t := ⟨h0, hn⟩
  obtain ⟨r, e, -, -, hr⟩ := lin_inversion_special w t
  obtain ⟨i1, i2, i3, i4⟩ := inversion_facts ht
  have hell : ell t = k := by
    rw [qv_regular ht, lv_abs] at hx
    rw [← lamInv_lam (ell t), hx, lamInv_zpow]
  have hv : linVal (inversion w t) = some (qv t)⁻¹ := by
    rw [linVal_qv i3.2, qv_regular i3, qv_regular ht]
    unfold lv
    rw [i1, i4, hell]
    have l1 : ∀ j : ℤ, lam (j : ℚ) = (2 : ℚ) ^ j := by intro j; unfold lam; simp
    rw [← Int.cast_neg, l1, l1, mul_inv, zpow_neg]
    congr 2
    cases t.msb <;> simp [sg]
  refine ⟨r, e, ?_⟩
  rw [hr (inversion w t) (qv t) ht (linVal_qv hn) hv, hv]

example : linVal (0x30#8 : T .w8) = some (1 / 8) ∧ |(1 / 8 : ℚ)| = (2 : ℚ) ^ (-3 : ℤ) := by decide +kernel

/-- C35, for 64 bits: inversion is the division of `1`. -/
theorem lin_inversion_division_64 (t : T .w64) : linInversion .w64 t = linDivision .w64 (ONE .w64) t := by
  have hone := (ONE_facts .w64).2.2.1
  by_cases h0 : t = 0#64
  · subst h0; rw [(linInversion_special .w64).1]; exact (linDivision_zero _).symm
  by_cases hn : t = nar 64
  · subst hn; rw [(linInversion_special .w64).2]
    exact (binaryLin_nar (w := .w64) (fn := Fl.div) (fun _ _ => rfl) div_nan _).2.symm
  have ht : Regular t := ⟨h0, hn⟩
  have e := x80.rq_of_rep (x80.rq_rep (by decide) (1 / qv t))
  have e1 := (linInversion_eq (w := .w64) ht).1
  have e2 := linDivision_eq (w := .w64) hone.2 ht
  rw [show (W.src .w64).fmt = x80 from rfl] at e1 e2
  rw [e] at e1
  rw [qv_one] at e2
  rw [e1, e2]

end Takum
