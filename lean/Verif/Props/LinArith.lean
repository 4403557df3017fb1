import Verif.Lemmas.LinArith
import Verif.Lemmas.SqrtReal
import Verif.Lemmas.FlReal

/-!
# Arithmetic on linear takums (C22, C33–C36, C38, C58)

Every `= .ok` also says that the function has defined behaviour on the argument.
-/

namespace Takum
open Spec

theorem rq_qv {w : W} (t : T w) : w.src.fmt.rq (qv t) = qv t := w.src.fmt.rq_of_rep qv_src.1

theorem src_prec (w : W) : 1 ≤ w.src.fmt.prec := by have := (src_facts w).1; omega

theorem ne_nar_of_toInt {w : W} {a b : T w} (ha : a ≠ nar w.n) (h : a.toInt ≤ b.toInt) : b ≠ nar w.n := by
  rintro rfl
  have := nar_lt (by have := w.n_pos; omega) ha
  omega

/-- NaR is passed on by every operation that passes NaN on. -/
theorem binaryLin_nar {w : W} {fn : Fmt → Fl → Fl → Fl} (hl : ∀ F x, fn F .nan x = .nan) (hr : ∀ F x, fn F x .nan = .nan)
    (t : T w) : binaryLin fn noFix2 w (nar w.n) t = .ok (nar w.n) ∧ binaryLin fn noFix2 w t (nar w.n) = .ok (nar w.n) := by
  have hN := linTo_src_nar w
  obtain ⟨x, hx⟩ : ∃ x, linTo w.src w t = .ok x := by
    by_cases h : t = nar w.n
    · exact ⟨_, h ▸ hN⟩
    · obtain ⟨x, h1, -⟩ := linTo_src w h; exact ⟨x, h1⟩
  rw [binaryLin_eq hN hx, binaryLin_eq hx hN]
  unfold noFix2
  rw [hl, hr]
  exact ⟨linFrom_nan _ _, linFrom_nan _ _⟩

theorem add_nan (F : Fmt) (x : Fl) : Fl.add F x .nan = .nan := by cases x <;> rfl
theorem mul_nan (F : Fmt) (x : Fl) : Fl.mul F x .nan = .nan := by cases x <;> rfl
theorem div_nan (F : Fmt) (x : Fl) : Fl.div F x .nan = .nan := by cases x <;> rfl

theorem lv_multiple {w : W} (t : T w) : ∃ k : ℤ, lv t = k * (2 : ℚ) ^ (-400 : ℤ) := by
  obtain ⟨j, hj⟩ := ell_pow t
  have hl : 5 ≤ len w.n ∧ len w.n ≤ 64 := by cases w <;> decide
  have hr : (⟨64, -400, 400⟩ : Fmt).In (lv t) := lv_in t (by simp; omega) (by decide) (by decide)
  obtain ⟨m, e, h1, -, h3⟩ := hr.1
  simp only at h3
  obtain ⟨d, hd⟩ := Int.eq_ofNat_of_zero_le (show 0 ≤ e - (-400) by omega)
  refine ⟨m * 2 ^ d, ?_⟩
  rw [h1, show e = -400 + d by omega, zpow_add₀ (by norm_num), zpow_natCast]; push_cast; ring

theorem qv_multiple {w : W} (t : T w) : ∃ k : ℤ, qv t = k * (2 : ℚ) ^ (-400 : ℤ) := by
  unfold qv val
  split
  · exact ⟨0, by simp⟩
  · exact lv_multiple t

theorem sum_big {w : W} {a b : T w} (h : qv a + qv b ≠ 0) : (2 : ℚ) ^ (-600 : ℤ) ≤ |qv a + qv b| := by
  obtain ⟨j, hj⟩ := qv_multiple a
  obtain ⟨k, hk⟩ := qv_multiple b
  have e : qv a + qv b = ((j + k : ℤ) : ℚ) * (2 : ℚ) ^ (-400 : ℤ) := by rw [hj, hk]; push_cast; ring
  have hne : j + k ≠ 0 := by rintro h0; rw [h0] at e; simp at e; exact h e
  have h1 : (1 : ℚ) ≤ |((j + k : ℤ) : ℚ)| := by
    have := Int.one_le_abs hne
    exact_mod_cast this
  rw [e, abs_mul, abs_of_pos (show (0 : ℚ) < (2 : ℚ) ^ (-400 : ℤ) by positivity)]
  calc (2 : ℚ) ^ (-600 : ℤ) ≤ 1 * (2 : ℚ) ^ (-400 : ℤ) := by
        rw [one_mul]; exact zpow_le_zpow_right₀ (by norm_num) (by norm_num)
    _ ≤ _ := by apply mul_le_mul_of_nonneg_right h1; positivity

/-! ### C33 -/

/-- C33. Addition: commutative, `0` neutral, NaR absorbing, opposite elements cancel, odd. -/
theorem lin_addition_laws (w : W) (a b : T w) :
    linAddition w a b = linAddition w b a ∧
    linAddition w a 0#w.n = .ok a ∧
    linAddition w a (nar w.n) = .ok (nar w.n) ∧
    (a ≠ nar w.n → linAddition w a (-a) = .ok 0#w.n) ∧
    ∃ s : T w, linAddition w a b = .ok s ∧ linAddition w (-a) (-b) = .ok (-s) := by
  have nn : -nar w.n = nar w.n := by cases w <;> decide
  have N := fun t : T w => binaryLin_nar (w := w) (fn := Fl.add) (fun _ _ => rfl) add_nan t
  by_cases ha : a = nar w.n
  · subst ha
    refine ⟨?_, (N _).1, (N _).1, fun h => absurd rfl h, ⟨_, (N _).1, ?_⟩⟩
    · unfold linAddition; rw [(N b).1, (N b).2]
    · rw [nn]; exact (N _).1
  refine ⟨?_, ?_, (N a).2, ?_, ?_⟩
  · by_cases hb : b = nar w.n
    · subst hb; unfold linAddition; rw [(N a).1, (N a).2]
    · rw [linAddition_eq ha hb, linAddition_eq hb ha, add_comm]
  · rw [linAddition_eq ha (zero_ne_nar w), qv_zero, add_zero, rq_qv, linEnc_qv ha]
  · intro _
    rw [linAddition_eq ha (neg_ne_nar ha), qv_neg ha, add_neg_cancel, w.src.fmt.rq_of_rep (Fmt.Rep.zero _), linEnc_zero]
  · by_cases hb : b = nar w.n
    · subst hb
      refine ⟨_, (N a).2, ?_⟩
      rw [nn]; exact (N _).2
    · refine ⟨_, linAddition_eq ha hb, ?_⟩
      rw [linAddition_eq (neg_ne_nar ha) (neg_ne_nar hb), qv_neg ha, qv_neg hb, ← neg_add, Fmt.rq_neg,
        linEnc_neg (rq_src_in (sum_le (qv_lt a) (qv_lt b)))]

/-- C33. The sum of takums other than NaR is not NaR, and `0` only for opposite arguments. -/
theorem lin_addition_regular (w : W) (a b : T w) (ha : a ≠ nar w.n) (hb : b ≠ nar w.n) :
    ∃ s : T w, linAddition w a b = .ok s ∧ s ≠ nar w.n ∧ (s = 0#w.n ↔ b = -a) := by
  have hs := rq_src_in (w := w) (sum_le (qv_lt a) (qv_lt b))
  obtain ⟨h1, h2, -⟩ := linEnc_facts hs
  refine ⟨_, linAddition_eq ha hb, h1, ?_⟩
  rw [← h2]
  constructor
  · intro h
    by_contra hne
    apply rq_src_ne (w := w) (sum_big (a := a) (b := b) ?_) h
    intro h0
    apply hne
    apply qv_inj hb (neg_ne_nar ha)
    rw [qv_neg ha]; linarith
  · rintro rfl
    rw [qv_neg ha, add_neg_cancel, w.src.fmt.rq_of_rep (Fmt.Rep.zero _)]

/-- C33. Subtraction is the addition of the opposite; `a - a = 0`. -/
theorem lin_subtraction_laws (w : W) (a b : T w) :
    linSubtraction w a b = linAddition w a (-b) ∧ (a ≠ nar w.n → linSubtraction w a a = .ok 0#w.n) := by
  have nn : -nar w.n = nar w.n := by cases w <;> decide
  have N := fun t : T w => binaryLin_nar (w := w) (fn := Fl.add) (fun _ _ => rfl) add_nan t
  have M := fun t : T w => binaryLin_nar (w := w) (fn := Fl.sub) (fun _ _ => rfl) (fun F x => add_nan F x) t
  constructor
  · by_cases ha : a = nar w.n
    · subst ha; unfold linSubtraction linAddition; rw [(N _).1, (M _).1]
    by_cases hb : b = nar w.n
    · subst hb; unfold linSubtraction linAddition; rw [nn, (N _).2, (M _).2]
    rw [linSubtraction_eq ha hb, linAddition_eq ha (neg_ne_nar hb), qv_neg hb, sub_eq_add_neg]
  · intro ha
    rw [linSubtraction_eq ha ha, sub_self, w.src.fmt.rq_of_rep (Fmt.Rep.zero _), linEnc_zero]

/-- Hypotheses of the theorems above are met by takums that differ in sign and size; the sum is rounded. -/
example : (0x7f01#16 : T .w16) ≠ nar 16 ∧ linAddition .w16 0x4100#16 0xbf05#16 = .ok 0x2640#16 := by decide +kernel

/-! ### C34 -/

theorem prod_big {w : W} {a b : T w} (ha : Regular a) (hb : Regular b) : (2 : ℚ) ^ (-600 : ℤ) ≤ |qv a * qv b| := by
  rw [abs_mul, qv_regular ha, qv_regular hb]
  calc (2 : ℚ) ^ (-600 : ℤ) ≤ (2 : ℚ) ^ (-255 : ℤ) * (2 : ℚ) ^ (-255 : ℤ) := by decide +kernel
    _ ≤ _ := mul_le_mul (lv_bounds a).1 (lv_bounds b).1 (by positivity) (abs_nonneg _)

/-- C34. Multiplication: commutative, `1` neutral, `0` and NaR absorbing, odd in each argument. -/
theorem lin_multiplication_laws (w : W) (a b : T w) :
    linMultiplication w a b = linMultiplication w b a ∧
    linMultiplication w a (ONE w) = .ok a ∧
    (a ≠ nar w.n → linMultiplication w a 0#w.n = .ok 0#w.n) ∧
    linMultiplication w a (nar w.n) = .ok (nar w.n) ∧
    ∃ p : T w, linMultiplication w a b = .ok p ∧ linMultiplication w (-a) b = .ok (-p) := by
  have nn : -nar w.n = nar w.n := by cases w <;> decide
  have N := fun t : T w => binaryLin_nar (w := w) (fn := Fl.mul) (fun _ _ => rfl) mul_nan t
  have hone : ONE w ≠ nar w.n := (ONE_facts w).2.2.1.2
  by_cases ha : a = nar w.n
  · subst ha
    refine ⟨?_, (N _).1, fun h => absurd rfl h, (N _).1, ⟨_, (N _).1, ?_⟩⟩
    · unfold linMultiplication; rw [(N b).1, (N b).2]
    · rw [nn]; exact (N _).1
  refine ⟨?_, ?_, ?_, (N a).2, ?_⟩
  · by_cases hb : b = nar w.n
    · subst hb; unfold linMultiplication; rw [(N a).1, (N a).2]
    · rw [linMultiplication_eq ha hb, linMultiplication_eq hb ha, mul_comm]
  · rw [linMultiplication_eq ha hone, qv_one, mul_one, rq_qv, linEnc_qv ha]
  · intro _
    rw [linMultiplication_eq ha (zero_ne_nar w), qv_zero, mul_zero, w.src.fmt.rq_of_rep (Fmt.Rep.zero _), linEnc_zero]
  · by_cases hb : b = nar w.n
    · subst hb
      refine ⟨_, (N a).2, ?_⟩
      rw [nn]; exact (N _).2
    · refine ⟨_, linMultiplication_eq ha hb, ?_⟩
      rw [linMultiplication_eq (neg_ne_nar ha) hb, qv_neg ha, neg_mul, Fmt.rq_neg,
        linEnc_neg (rq_src_in (prod_le (qv_lt a) (qv_lt b)))]

theorem rq_sign {w : W} {q : ℚ} (h1 : (2 : ℚ) ^ (-600 : ℤ) ≤ |q|) : (w.src.fmt.rq q < 0 ↔ q < 0) := by
  have hne := rq_src_ne (w := w) h1
  constructor
  · intro h
    by_contra hq
    exact absurd (w.src.fmt.rq_nonneg (not_lt.mp hq)) (not_le.mpr h)
  · intro h
    exact lt_of_le_of_ne (rq_nonpos' _ h.le) hne

/-- C34. A product of regular takums is regular and has the sign of the product. -/
theorem lin_multiplication_regular (w : W) (a b : T w) (ha : Regular a) (hb : Regular b) :
    ∃ p : T w, linMultiplication w a b = .ok p ∧ Regular p ∧ (p.toInt < 0 ↔ (a.toInt < 0 ↔ ¬ b.toInt < 0)) := by
  have h8 := w.n_pos
  have hs := rq_src_in (w := w) (prod_le (qv_lt a) (qv_lt b))
  obtain ⟨h1, h2, h3, -⟩ := linEnc_facts hs
  have hne := rq_src_ne (w := w) (prod_big ha hb)
  refine ⟨_, linMultiplication_eq ha.2 hb.2, ⟨fun h => hne (h2.mpr h), h1⟩, ?_⟩
  rw [← h3, rq_sign (prod_big ha hb), toInt_neg_iff (by omega) ha, toInt_neg_iff (by omega) hb, qv_regular ha, qv_regular hb,
    ← lv_neg_iff, ← lv_neg_iff, mul_neg_iff]
  have ea := lv_ne a
  have eb := lv_ne b
  rcases lt_or_gt_of_ne ea with h | h <;> rcases lt_or_gt_of_ne eb with h' | h' <;>
    simp [h, h', h.le, h'.le, not_lt.mpr]

example : Regular (0x7f01#16 : T .w16) ∧ linMultiplication .w16 0x7f01#16 0xbf05#16 = .ok 0x80fd#16 := by
  unfold Regular; decide +kernel

/-- C22. `sign(t) * absolute(t)` multiplies back to `t` for linear takums as well. -/
theorem lin_sign_mul_absolute (w : W) (t : T w) (h : t ≠ nar w.n) :
    ∃ v : T w, absolute w t = .ok v ∧ linMultiplication w (sign w t) v = .ok t := by
  obtain ⟨v, e, -, hv, hpos⟩ := absolute_value_partial w t h
  have hsv := (sign_value w t).2
  refine ⟨v, e, ?_⟩
  have hvn : v ≠ nar w.n := by
    rintro rfl
    rw [nar_toInt (by have := w.n_pos; omega)] at hpos
    have : (0 : ℤ) < 2 ^ (w.n - 1) := by positivity
    omega
  rw [linVal_qv h] at hv hsv
  have hsn : sign w t ≠ nar w.n := by
    intro e; rw [e] at hsv
    simp [linVal] at hsv
  rw [linVal_qv hvn] at hv
  rw [linVal_qv hsn] at hsv
  simp only [Option.map_some, Option.some.injEq] at hv hsv
  rw [linMultiplication_eq hsn hvn, hsv, hv]
  rw [sign_mul_abs, rq_qv, linEnc_qv h]

example : (0xbf05#16 : T .w16) ≠ nar 16 := by decide

/-! ### C35 -/

theorem quot_big {w : W} {a b : T w} (ha : Regular a) (hb : Regular b) : (2 : ℚ) ^ (-600 : ℤ) ≤ |qv a / qv b| := by
  rw [abs_div, qv_regular ha, qv_regular hb]
  have h1 := (lv_bounds b).1
  have h2 : (0 : ℚ) < (2 : ℚ) ^ (-255 : ℤ) := by positivity
  rw [le_div_iff₀ (by linarith)]
  calc (2 : ℚ) ^ (-600 : ℤ) * |lv b| ≤ (2 : ℚ) ^ (-600 : ℤ) * (2 : ℚ) ^ (256 : ℤ) :=
        mul_le_mul_of_nonneg_left (lv_bounds b).2.le (by positivity)
    _ ≤ (2 : ℚ) ^ (-255 : ℤ) := by decide +kernel
    _ ≤ _ := (lv_bounds a).1

theorem linDivision_zero {w : W} (a : T w) : linDivision w a 0#w.n = .ok (nar w.n) := by
  by_cases ha : a = nar w.n
  · subst ha; exact (binaryLin_nar (w := w) (fn := Fl.div) (fun _ _ => rfl) div_nan _).1
  obtain ⟨x, h1, h2⟩ := linTo_src w ha
  have h3 : linTo w.src w 0#w.n = .ok (.zero false) := by
    cases w
    · exact linToFloat64_zero _
    · exact linToFloat64_zero _
    · exact linToFloat64_zero _
    · exact linToExtended_zero _
  unfold linDivision
  rw [binaryLin_eq h1 h3]
  unfold noFix2
  rcases h2.cases with ⟨_, h⟩ | ⟨_, s, h⟩
  · rw [h]; exact linFrom_inf _ _ _
  · rw [h]; exact linFrom_nan _ _

/-- C35. Division: by `0` and with NaR, `0 / b`, by `1`, `a / a`, odd in each argument. -/
theorem lin_division_laws (w : W) (a b : T w) :
    linDivision w a 0#w.n = .ok (nar w.n) ∧
    linDivision w a (nar w.n) = .ok (nar w.n) ∧ linDivision w (nar w.n) b = .ok (nar w.n) ∧
    (Regular b → linDivision w 0#w.n b = .ok 0#w.n) ∧
    linDivision w a (ONE w) = .ok a ∧
    (Regular a → linDivision w a a = .ok (ONE w)) ∧
    ∃ q : T w, linDivision w a b = .ok q ∧ linDivision w (-a) b = .ok (-q) ∧ linDivision w a (-b) = .ok (-q) := by
  have nn : -nar w.n = nar w.n := by cases w <;> decide
  have n0 : -(0#w.n) = 0#w.n := by simp
  have N := fun t : T w => binaryLin_nar (w := w) (fn := Fl.div) (fun _ _ => rfl) div_nan t
  have hone := (ONE_facts w).2.2.1
  refine ⟨linDivision_zero a, (N a).2, (N b).1, ?_, ?_, ?_, ?_⟩
  · intro hb
    rw [linDivision_eq (zero_ne_nar w) hb, qv_zero, zero_div, w.src.fmt.rq_of_rep (Fmt.Rep.zero _), linEnc_zero]
  · by_cases ha : a = nar w.n
    · subst ha; exact (N _).1
    · rw [linDivision_eq ha hone, qv_one, div_one, rq_qv, linEnc_qv ha]
  · intro ha
    rw [linDivision_eq ha.2 ha, div_self (qv_ne ha), ← qv_one w, rq_qv, linEnc_qv hone.2]
  · by_cases ha : a = nar w.n
    · subst ha; rw [nn]; exact ⟨_, (N _).1, by rw [nn]; exact (N _).1, by rw [nn]; exact (N _).1⟩
    by_cases hb : b = nar w.n
    · subst hb; rw [nn]; exact ⟨_, (N _).2, by rw [nn]; exact (N _).2, by rw [nn]; exact (N _).2⟩
    by_cases hb0 : b = 0#w.n
    · subst hb0; rw [n0]; exact ⟨_, linDivision_zero _, by rw [nn]; exact linDivision_zero _, by rw [nn]; exact linDivision_zero _⟩
    have hr : Regular b := ⟨hb0, hb⟩
    have hr' := (regular_neg (by have := w.n_pos; omega) hr).2.2.1
    refine ⟨_, linDivision_eq ha hr, ?_, ?_⟩
    · rw [linDivision_eq (neg_ne_nar ha) hr, qv_neg ha, neg_div, Fmt.rq_neg, linEnc_neg (rq_src_in (quot_le (qv_lt a) hr))]
    · rw [linDivision_eq ha hr', qv_neg hb, div_neg, Fmt.rq_neg, linEnc_neg (rq_src_in (quot_le (qv_lt a) hr))]

/-- C35. A quotient of regular takums is regular and has the sign of the quotient. -/
theorem lin_division_regular (w : W) (a b : T w) (ha : Regular a) (hb : Regular b) :
    ∃ q : T w, linDivision w a b = .ok q ∧ Regular q ∧ (q.toInt < 0 ↔ (a.toInt < 0 ↔ ¬ b.toInt < 0)) := by
  have h8 := w.n_pos
  have hs := rq_src_in (w := w) (quot_le (qv_lt a) hb)
  obtain ⟨h1, h2, h3, -⟩ := linEnc_facts hs
  have hne := rq_src_ne (w := w) (quot_big ha hb)
  refine ⟨_, linDivision_eq ha.2 hb, ⟨fun h => hne (h2.mpr h), h1⟩, ?_⟩
  rw [← h3, rq_sign (quot_big ha hb), toInt_neg_iff (by omega) ha, toInt_neg_iff (by omega) hb, qv_regular ha, qv_regular hb,
    ← lv_neg_iff, ← lv_neg_iff, div_neg_iff]
  have ea := lv_ne a
  have eb := lv_ne b
  rcases lt_or_gt_of_ne ea with h | h <;> rcases lt_or_gt_of_ne eb with h' | h' <;>
    simp [h, h', h.le, h'.le, not_lt.mpr]

example : Regular (0x7f01#16 : T .w16) ∧ linDivision .w16 0x7f01#16 0xbf05#16 = .ok 0x8102#16 := by
  unfold Regular; decide +kernel

/-! ### C36 -/

/-- C36. Addition, multiplication and division are monotone in the first argument. -/
theorem lin_monotone (w : W) (a b c : T w) (ha : a ≠ nar w.n) (hb : b ≠ nar w.n) (hc : c ≠ nar w.n) (h : a.toInt ≤ b.toInt) :
    (∃ x y : T w, linAddition w a c = .ok x ∧ linAddition w b c = .ok y ∧ x.toInt ≤ y.toInt) ∧
    (0 < c.toInt → ∃ x y : T w, linMultiplication w a c = .ok x ∧ linMultiplication w b c = .ok y ∧ x.toInt ≤ y.toInt) ∧
    (0 < c.toInt → ∃ x y : T w, linDivision w a c = .ok x ∧ linDivision w b c = .ok y ∧ x.toInt ≤ y.toInt) := by
  have h8 := w.n_pos
  have hq := (qv_le_iff ha hb).mpr h
  have cpos : 0 < c.toInt → Regular c ∧ 0 < qv c := by
    intro h0
    have c0 : c ≠ 0#w.n := by rintro rfl; simp at h0
    have hr : Regular c := ⟨c0, hc⟩
    refine ⟨hr, ?_⟩
    rw [qv_regular hr]
    have := (toInt_pos_iff (by omega) hr).mp h0
    rcases lt_or_gt_of_ne (lv_ne c) with hh | hh
    · rw [lv_neg_iff] at hh; simp [hh] at this
    · exact hh
  refine ⟨?_, ?_, ?_⟩
  · refine ⟨_, _, linAddition_eq ha hc, linAddition_eq hb hc, ?_⟩
    exact linEnc_mono (rq_src_in (sum_le (qv_lt a) (qv_lt c))) (rq_src_in (sum_le (qv_lt b) (qv_lt c)))
      (Fmt.rq_mono _ (src_prec w) (by linarith))
  · intro h0
    obtain ⟨hr, hp⟩ := cpos h0
    refine ⟨_, _, linMultiplication_eq ha hc, linMultiplication_eq hb hc, ?_⟩
    exact linEnc_mono (rq_src_in (prod_le (qv_lt a) (qv_lt c))) (rq_src_in (prod_le (qv_lt b) (qv_lt c)))
      (Fmt.rq_mono _ (src_prec w) (mul_le_mul_of_nonneg_right hq hp.le))
  · intro h0
    obtain ⟨hr, hp⟩ := cpos h0
    refine ⟨_, _, linDivision_eq ha hr, linDivision_eq hb hr, ?_⟩
    exact linEnc_mono (rq_src_in (quot_le (qv_lt a) hr)) (rq_src_in (quot_le (qv_lt b) hr))
      (Fmt.rq_mono _ (src_prec w) (div_le_div_of_nonneg_right hq hp.le))

example : (0xbf05#16 : T .w16).toInt ≤ (0x4100#16).toInt ∧ 0 < (0x3000#16).toInt := by decide

/-! ### C58 -/

theorem linEnc_faithfulLin {w : W} {v : ℚ} (hv : (2 : ℚ) ^ (-600 : ℤ) ≤ |v|) (hv' : |v| ≤ (2 : ℚ) ^ (600 : ℤ)) :
    FaithfulLin (v : ℝ) (linEnc w (w.src.fmt.rq v)) := by
  have hs := rq_src_in (w := w) hv'
  obtain ⟨h1, h2, h3, -⟩ := linEnc_facts hs
  have hne := rq_src_ne (w := w) hv
  have hr : Regular (linEnc w (w.src.fmt.rq v)) := ⟨fun h => hne (h2.mpr h), h1⟩
  refine ⟨hr, ?_, ?_⟩
  · rw [← toInt_neg_iff (by have := w.n_pos; omega) hr, ← h3, rq_sign hv]
    exact (Rat.cast_lt_zero (K := ℝ)).symm
  · intro t' x ht' hx
    rw [linVal_qv ht'.2] at hx
    simp only [Option.some.injEq] at hx
    subst hx
    obtain ⟨f1, f2⟩ := linEnc_faithful hs ht'.2
    constructor
    · intro h
      have h : qv t' ≤ v := by exact_mod_cast h
      apply f1
      have := Fmt.rq_mono w.src.fmt (src_prec w) h
      rwa [rq_qv] at this
    · intro h
      have h : v ≤ qv t' := by exact_mod_cast h
      apply f2
      have := Fmt.rq_mono w.src.fmt (src_prec w) h
      rwa [rq_qv] at this

/-- C58. Sum, difference, product and quotient of linear takums are faithful in every width. -/
theorem lin_arith_faithful (w : W) (a b : T w) (x y : ℚ) (ha : linVal a = some x) (hb : linVal b = some y) :
    (x + y ≠ 0 → ∃ t, linAddition w a b = .ok t ∧ FaithfulLin ((x + y : ℚ) : ℝ) t) ∧
    (x - y ≠ 0 → ∃ t, linSubtraction w a b = .ok t ∧ FaithfulLin ((x - y : ℚ) : ℝ) t) ∧
    (x * y ≠ 0 → ∃ t, linMultiplication w a b = .ok t ∧ FaithfulLin ((x * y : ℚ) : ℝ) t) ∧
    (x / y ≠ 0 → ∃ t, linDivision w a b = .ok t ∧ FaithfulLin ((x / y : ℚ) : ℝ) t) := by
  have han : a ≠ nar w.n := by rintro rfl; simp [linVal] at ha
  have hbn : b ≠ nar w.n := by rintro rfl; simp [linVal] at hb
  rw [linVal_qv han] at ha
  rw [linVal_qv hbn] at hb
  simp only [Option.some.injEq] at ha hb
  subst ha hb
  refine ⟨?_, ?_, ?_, ?_⟩
  · intro h
    exact ⟨_, linAddition_eq han hbn, linEnc_faithfulLin (sum_big h) (sum_le (qv_lt a) (qv_lt b))⟩
  · intro h
    rw [sub_eq_add_neg, ← qv_neg hbn] at h
    refine ⟨_, linSubtraction_eq han hbn, ?_⟩
    rw [sub_eq_add_neg, ← qv_neg hbn]
    exact linEnc_faithfulLin (sum_big h) (sum_le (qv_lt a) (qv_lt (-b)))
  · intro h
    have h1 : Regular a := ⟨fun e => h (by rw [e, qv_zero, zero_mul]), han⟩
    have h2 : Regular b := ⟨fun e => h (by rw [e, qv_zero, mul_zero]), hbn⟩
    exact ⟨_, linMultiplication_eq han hbn, linEnc_faithfulLin (prod_big h1 h2) (prod_le (qv_lt a) (qv_lt b))⟩
  · intro h
    have h1 : Regular a := ⟨fun e => h (by rw [e, qv_zero, zero_div]), han⟩
    have h2 : Regular b := ⟨fun e => h (by rw [e, qv_zero, div_zero]), hbn⟩
    exact ⟨_, linDivision_eq han h2, linEnc_faithfulLin (quot_big h1 h2) (quot_le (qv_lt a) h2)⟩

example : linVal (0x4200#16 : T .w16) = some (5 / 4) ∧ linVal (0x3000#16 : T .w16) = some (1 / 8) ∧
    (5 / 4 : ℚ) + 1 / 8 ≠ 0 := by decide +kernel

/-- C58. If the exact sum, difference, product or quotient is the number of a takum, zero included, that takum is the
result. -/
theorem lin_arith_exact (w : W) (a b t : T w) (x y z : ℚ) (ha : linVal a = some x) (hb : linVal b = some y)
    (ht : linVal t = some z) :
    (x + y = z → linAddition w a b = .ok t) ∧ (x - y = z → linSubtraction w a b = .ok t) ∧
    (x * y = z → linMultiplication w a b = .ok t) ∧ (y ≠ 0 → x / y = z → linDivision w a b = .ok t) := by
  have han : a ≠ nar w.n := by rintro rfl; simp [linVal] at ha
  have hbn : b ≠ nar w.n := by rintro rfl; simp [linVal] at hb
  have htn : t ≠ nar w.n := by rintro rfl; simp [linVal] at ht
  rw [linVal_qv han] at ha
  rw [linVal_qv hbn] at hb
  rw [linVal_qv htn] at ht
  simp only [Option.some.injEq] at ha hb ht
  subst ha hb ht
  refine ⟨fun h => ?_, fun h => ?_, fun h => ?_, fun h0 h => ?_⟩
  · rw [linAddition_eq han hbn, h, rq_qv, linEnc_qv htn]
  · rw [linSubtraction_eq han hbn, h, rq_qv, linEnc_qv htn]
  · rw [linMultiplication_eq han hbn, h, rq_qv, linEnc_qv htn]
  · have hr : Regular b := ⟨fun e => h0 (by rw [e, qv_zero]), hbn⟩
    rw [linDivision_eq han hr, h, rq_qv, linEnc_qv htn]

example : linVal (0x4200#16 : T .w16) = some (5 / 4) ∧ linVal (0x3000#16 : T .w16) = some (1 / 8) ∧
    linVal (0x4300#16 : T .w16) = some (11 / 8) ∧ (5 / 4 : ℚ) + 1 / 8 = 11 / 8 := by decide +kernel

/-! ### C38 -/

theorem linSquareRoot_pos {w : W} {t : T w} (ht : Regular t) (hp : 0 < qv t) :
    linSquareRoot w t = .ok (linEnc w (w.src.fmt.rq (Real.sqrt (qv t)))) ∧
      w.src.fmt.In (w.src.fmt.rq (Real.sqrt (qv t))) ∧ 0 < w.src.fmt.rq (Real.sqrt (qv t)) := by
  obtain ⟨x, h1, h2⟩ := linTo_src w ht.2
  obtain ⟨F1, F2, F3⟩ := src_facts w
  have e := w.src.fmt.sqrtQ_eq hp
  have hr := w.src.fmt.rq_real_rep (src_prec w) (Real.sqrt (qv t))
  have hq1 := (lv_bounds t).1
  have hq2 := (lv_bounds t).2
  rw [← qv_regular ht, abs_of_pos hp] at hq1 hq2
  have b1 : w.src.fmt.rq (Real.sqrt (qv t)) ≤ (2 : ℚ) ^ (128 : ℤ) := by
    apply Fmt.rq_real_le _ (src_prec w) (Fmt.Rep.zpow (src_prec w) (by omega))
    rw [Real.sqrt_le_left (by positivity)]
    have : qv t ≤ ((2 : ℚ) ^ (128 : ℤ)) ^ 2 := hq2.le.trans (by decide +kernel)
    exact_mod_cast this
  have b2 : (2 : ℚ) ^ (-128 : ℤ) ≤ w.src.fmt.rq (Real.sqrt (qv t)) := by
    apply Fmt.le_rq_real _ (src_prec w) (Fmt.Rep.zpow (src_prec w) (by omega))
    apply Real.le_sqrt_of_sq_le
    have : ((2 : ℚ) ^ (-128 : ℤ)) ^ 2 ≤ qv t := le_trans (by decide +kernel) hq1
    exact_mod_cast this
  have pos : 0 < w.src.fmt.rq (Real.sqrt (qv t)) := lt_of_lt_of_le (by positivity) b2
  have hin : w.src.fmt.In (w.src.fmt.rq (Real.sqrt (qv t))) := by
    refine ⟨hr, ?_⟩
    rw [abs_of_pos pos]
    exact lt_of_le_of_lt b1 (zpow_lt_zpow_right₀ (by norm_num) (by omega))
  refine ⟨?_, hin, pos⟩
  unfold linSquareRoot
  rw [unaryLin_eq h1]
  unfold noFix
  apply linFrom_enc _ hin
  rw [h2.eq_num hp.ne']
  unfold Fl.sqrt
  simp only [not_lt.mpr hp.le, if_false]
  rw [e]; exact Fl.Is.num pos.ne'

/-- C38. The square root: NaR exactly for negative arguments and NaR, `0` for `0`, otherwise positive
and faithful. -/
theorem lin_squareRoot_special (w : W) (t : T w) :
    (∃ r : T w, linSquareRoot w t = .ok r ∧ (r = nar w.n ↔ t.toInt < 0) ∧ (r = 0#w.n ↔ t = 0#w.n)) ∧
    ∀ x : ℚ, linVal t = some x → 0 < x →
      ∃ r : T w, linSquareRoot w t = .ok r ∧ FaithfulLin (Real.sqrt x) r := by
  have h8 := w.n_pos
  have nz : nar w.n ≠ 0#w.n := (zero_ne_nar w).symm
  by_cases hn : t = nar w.n
  · subst hn
    constructor
    · refine ⟨nar w.n, ?_, ?_, ?_⟩
      · unfold linSquareRoot; rw [unaryLin_eq (linTo_src_nar w)]; exact linFrom_nan _ _
      · rw [nar_toInt (by omega)]; simp
      · simp
    · intro x hx; simp [linVal] at hx
  by_cases h0 : t = 0#w.n
  · subst h0
    have h3 : linTo w.src w 0#w.n = .ok (.zero false) := by
      cases w
      · exact linToFloat64_zero _
      · exact linToFloat64_zero _
      · exact linToFloat64_zero _
      · exact linToExtended_zero _
    constructor
    · refine ⟨0#w.n, ?_, ?_, by simp⟩
      · unfold linSquareRoot; rw [unaryLin_eq h3]; exact linFrom_zero _ _ _
      · simp [nz.symm]
    · intro x hx hp
      rw [linVal_qv hn, qv_zero] at hx
      simp only [Option.some.injEq] at hx
      exact absurd hp (by rw [← hx]; exact lt_irrefl _)
  have hr : Regular t := ⟨h0, hn⟩
  rcases lt_or_gt_of_ne (qv_ne hr) with hneg | hpos
  · constructor
    · obtain ⟨x, h1, h2⟩ := linTo_src w hn
      refine ⟨nar w.n, ?_, ?_, ?_⟩
      · unfold linSquareRoot; rw [unaryLin_eq h1]
        rw [h2.eq_num hneg.ne]
        unfold noFix Fl.sqrt
        simp only [hneg, if_true]
        exact linFrom_nan _ _
      · simp only [true_iff]
        rw [toInt_neg_iff (by omega) hr, ← lv_neg_iff, ← qv_regular hr]; exact hneg
      · simp [nz, h0]
    · intro x hx hp
      rw [linVal_qv hn] at hx
      simp only [Option.some.injEq] at hx
      rw [hx] at hneg; exact absurd hp (not_lt.mpr hneg.le)
  · obtain ⟨e1, e2, e3⟩ := linSquareRoot_pos hr hpos
    obtain ⟨f1, f2, f3, f4⟩ := linEnc_facts e2
    have tpos : ¬ t.toInt < 0 := by
      rw [toInt_neg_iff (by omega) hr, ← lv_neg_iff, ← qv_regular hr]; exact not_lt.mpr hpos.le
    constructor
    · refine ⟨_, e1, ?_, ?_⟩
      · simp [f1, tpos]
      · rw [← f2]; simp [e3.ne', h0]
    · intro x hx _
      rw [linVal_qv hn] at hx
      simp only [Option.some.injEq] at hx
      subst hx
      have hreg : Regular (linEnc w (w.src.fmt.rq (Real.sqrt (qv t)))) := ⟨fun h => e3.ne' (f2.mpr h), f1⟩
      refine ⟨_, e1, hreg, ?_, ?_⟩
      · rw [← toInt_neg_iff (by omega) hreg, ← f3]
        simp [not_lt.mpr e3.le, not_lt.mpr (Real.sqrt_nonneg _)]
      · intro t' y ht' hy
        rw [linVal_qv ht'.2] at hy
        simp only [Option.some.injEq] at hy
        subst hy
        obtain ⟨g1, g2⟩ := linEnc_faithful e2 ht'.2
        exact ⟨fun h => g1 (Fmt.le_rq_real _ (src_prec w) qv_src.1 h), fun h => g2 (Fmt.rq_real_le _ (src_prec w) qv_src.1 h)⟩

/-- C38. The square root is monotone. -/
theorem lin_squareRoot_monotone (w : W) (a b : T w) (ha : 0 ≤ a.toInt) (h : a.toInt ≤ b.toInt) :
    ∃ x y : T w, linSquareRoot w a = .ok x ∧ linSquareRoot w b = .ok y ∧ x.toInt ≤ y.toInt := by
  have h8 := w.n_pos
  have npos : ∀ t : T w, 0 ≤ t.toInt → t ≠ nar w.n := by
    rintro t ht rfl
    rw [nar_toInt (by omega)] at ht
    have : (0 : ℤ) < 2 ^ (w.n - 1) := by positivity
    omega
  have hna := npos a ha
  have hnb := npos b (ha.trans h)
  obtain ⟨⟨rb, eb, nb, zb⟩, -⟩ := lin_squareRoot_special w b
  have rb0 : 0 ≤ rb.toInt := by
    by_cases h0 : b = 0#w.n
    · rw [zb.mpr h0]; simp
    · have hr : Regular b := ⟨h0, hnb⟩
      have hpos : 0 < qv b := by
        rcases lt_or_gt_of_ne (qv_ne hr) with hh | hh
        · rw [qv_regular hr, lv_neg_iff, ← toInt_neg_iff (by omega) hr] at hh; omega
        · exact hh
      obtain ⟨e1, e2, e3⟩ := linSquareRoot_pos hr hpos
      rw [eb] at e1
      rw [Except.ok.inj e1]
      exact ((linEnc_facts e2).2.2.2.mp e3).le
  by_cases h0 : a = 0#w.n
  · obtain ⟨⟨ra, ea, na, za⟩, -⟩ := lin_squareRoot_special w a
    refine ⟨ra, rb, ea, eb, ?_⟩
    rw [za.mpr h0]; simpa using rb0
  · have hr : Regular a := ⟨h0, hna⟩
    have hpos : 0 < qv a := by
      rcases lt_or_gt_of_ne (qv_ne hr) with hh | hh
      · rw [qv_regular hr, lv_neg_iff, ← toInt_neg_iff (by omega) hr] at hh; omega
      · exact hh
    have hle := (qv_le_iff hna hnb).mpr h
    have hposb : 0 < qv b := lt_of_lt_of_le hpos hle
    have hrb : Regular b := ⟨fun e => by rw [e, qv_zero] at hposb; exact lt_irrefl _ hposb, hnb⟩
    obtain ⟨e1, e2, e3⟩ := linSquareRoot_pos hr hpos
    obtain ⟨e1', e2', e3'⟩ := linSquareRoot_pos hrb hposb
    refine ⟨_, _, e1, e1', linEnc_mono e2 e2' (Fmt.rq_mono _ (src_prec w) (Real.sqrt_le_sqrt (by exact_mod_cast hle)))⟩

example : linVal (0x5000#16 : T .w16) = some 8 ∧ (0 : ℤ) ≤ (0x5000#16).toInt := by decide +kernel

end Takum
