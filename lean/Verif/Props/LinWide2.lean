import Verif.Props.LinWide
import Verif.Props.LinNearest

/-!
# C99 for 32 and 64 bits: the square root and the inversion of linear takums are nearest up to a small part of the exact result

Division is in `lin_arith_almost_partial`.
-/

namespace Takum
open Spec

/-- A number of the intermediate format that is off by a part `η` of the exact value `v`. -/
theorem wide_real {w : W} (hw : w = .w32 ∨ w = .w64) {q : ℚ} (hin : w.src.fmt.In q) (q0 : q ≠ 0) {v η : ℝ}
    (h : |(q : ℝ) - v| ≤ η * |v|) : Regular (linEnc w q) ∧ ((linEnc w q).msb = true ↔ q < 0) ∧
      ∀ t' : T w, Regular t' → t'.msb = (linEnc w q).msb → ∀ a b : ℚ, linVal (linEnc w q) = some a → linVal t' = some b →
        |(a : ℝ) - v| ≤ |(b : ℝ) - v| + (2 * η + slack w.src w * (1 + η)) * |v| := by
  obtain ⟨t, e, r, s, hn⟩ := lin_from_almost_partial w.src w (by rcases hw with rfl | rfl <;> decide) _ q0 hin
  rw [linFrom_enc (Fl.Is.num q0) hin] at e
  rw [Except.ok.inj e]
  refine ⟨r, s, fun t' r' s' a b ha hb => ?_⟩
  have h1 : |(a : ℝ) - q| ≤ |(b : ℝ) - q| + slack w.src w * |(q : ℝ)| := by
    have := (Rat.cast_le (K := ℝ)).mpr (hn t' r' s' a b ha hb)
    push_cast at this; exact this
  have t1 := abs_sub_le (a : ℝ) q v
  have t2 := abs_sub_le (b : ℝ) v q
  have t3 : |(q : ℝ)| ≤ |v| + |(q : ℝ) - v| := by have := abs_add_le v ((q : ℝ) - v); rwa [add_sub_cancel] at this
  rw [abs_sub_comm v q] at t2
  have s0 : (0 : ℝ) ≤ slack w.src w := by
    rcases hw with rfl | rfl
    · have : slack (W.src .w32) .w32 = 0 := rfl
      rw [this]; simp
    · have : slack (W.src .w64) .w64 = 1 / 2 ^ 54 := rfl
      rw [this]; norm_num
  have := mul_le_mul_of_nonneg_left (t3.trans (add_le_add_right h _)) s0
  linarith

/-- C99 for the square root of 32 and 64 bits, with the nearest takum replaced by one that is at most `wideSlack` of the
exact root farther away.  Missing: no more than that; `lin_squareRoot_nearest_refuted` shows that the results are not always the
nearest takums. -/
theorem lin_squareRoot_almost_partial (w : W) (hw : w = .w32 ∨ w = .w64) (a : T w) (x : ℚ) (hx : linVal a = some x) (x0 : 0 < x) :
    ∃ (t : T w) (r : ℚ), linSquareRoot w a = .ok t ∧ linVal t = some r ∧ 0 < r ∧
      ∀ (t' : T w) (r' : ℚ), linVal t' = some r' → 0 < r' →
        |(r : ℝ) - Real.sqrt x| ≤ |(r' : ℝ) - Real.sqrt x| + wideSlack w * Real.sqrt x := by
  have han : a ≠ nar w.n := by rintro rfl; simp [linVal] at hx
  rw [linVal_qv han, Option.some.injEq] at hx
  subst hx
  have ra : Regular a := ⟨fun e => by rw [e, qv_zero] at x0; exact lt_irrefl _ x0, han⟩
  obtain ⟨e, hin, pos⟩ := linSquareRoot_pos ra x0
  have hq1 := (lv_bounds a).1
  rw [← qv_regular ra, abs_of_pos x0] at hq1
  have sp : 0 < Real.sqrt (qv a) := Real.sqrt_pos.mpr (by exact_mod_cast x0)
  have b2 : (2 : ℝ) ^ (-128 : ℤ) ≤ |Real.sqrt (qv a)| := by
    rw [abs_of_pos sp]
    apply Real.le_sqrt_of_sq_le
    have : ((2 : ℚ) ^ (-128 : ℤ)) ^ 2 ≤ qv a := le_trans (by decide +kernel) hq1
    have := (Rat.cast_le (K := ℝ)).mpr this
    rw [Rat.cast_pow, Rat.cast_zpow] at this
    exact this
  have hp : w.src.fmt.emin + w.src.fmt.prec ≤ -128 := by rcases hw with rfl | rfl <;> decide
  have herr := rq_real_err (F := w.src.fmt) ((zpow_le_zpow_right₀ (by norm_num) hp).trans b2)
  obtain ⟨r, s, h⟩ := wide_real hw hin pos.ne' (v := Real.sqrt (qv a)) (η := 1 / 2 ^ w.src.fmt.prec) (by
    rw [one_div, inv_mul_eq_div]; exact herr)
  have hs : ∀ u : T w, Regular u → (u.msb = true ↔ qv u < 0) := fun u ru => by rw [qv_regular ru]; exact (lv_neg_iff u).symm
  have hm : (linEnc w (w.src.fmt.rq (Real.sqrt (qv a)))).msb = false := by
    rw [← Bool.not_eq_true, s]; exact not_lt.mpr pos.le
  refine ⟨_, _, e, linVal_qv r.2, ?_, ?_⟩
  · have n : ¬ qv _ < 0 := (hs _ r).not.mp (by rw [hm]; decide)
    refine lt_of_le_of_ne (not_lt.mp n) ?_
    rw [qv_regular r]; exact (lv_ne _).symm
  · intro t' r' hr' r0'
    have hn' : t' ≠ nar w.n := by rintro rfl; simp [linVal] at hr'
    have hr'' := hr'
    rw [linVal_qv hn', Option.some.injEq] at hr''
    have rt' : Regular t' := ⟨fun e => by rw [e, qv_zero] at hr''; linarith, hn'⟩
    have hm' : t'.msb = false := by rw [← Bool.not_eq_true, hs _ rt', hr'']; exact not_lt.mpr r0'.le
    refine (h t' rt' (by rw [hm', hm]) _ _ (linVal_qv r.2) hr').trans ?_
    rw [abs_of_pos sp]
    refine add_le_add_right (mul_le_mul_of_nonneg_right ?_ sp.le) _
    rcases hw with rfl | rfl
    · have e1 : slack (W.src .w32) .w32 = 0 := rfl
      have e2 : wideSlack .w32 = 1 / 2 ^ 52 := rfl
      rw [e1, e2, show (W.src .w32).fmt.prec = 53 from rfl]; norm_num
    · have e1 : slack (W.src .w64) .w64 = 1 / 2 ^ 54 := rfl
      have e2 : wideSlack .w64 = 1 / 2 ^ 53 := rfl
      rw [e1, e2, show (W.src .w64).fmt.prec = 64 from rfl]; norm_num

/-- C99 for the inversion of 32 and 64 bits, likewise; the quotient is rounded to `long double` first. -/
theorem lin_inversion_almost_partial (w : W) (hw : w = .w32 ∨ w = .w64) (a : T w) (x : ℚ) (hx : linVal a = some x) (x0 : x ≠ 0) :
    ∃ t, linInversion w a = .ok t ∧ AlmostNearestLin (2 * wideSlack w) (1 / x) t := by
  have han : a ≠ nar w.n := by rintro rfl; simp [linVal] at hx
  rw [linVal_qv han, Option.some.injEq] at hx
  subst hx
  have ra : Regular a := ⟨fun e => by rw [e, qv_zero] at x0; exact x0 rfl, han⟩
  obtain ⟨e, hin, hb⟩ := linInversion_eq ra
  have hb0 : (2 : ℚ) ^ (-600 : ℤ) ≤ |1 / qv a| := by
    have := quot_big (ONE_facts w).2.2.1 ra
    have h1 : qv (ONE w) = 1 := by rcases hw with rfl | rfl <;> decide +kernel
    rwa [h1] at this
  have cast : ∀ {q : ℚ}, (2 : ℚ) ^ (-600 : ℤ) ≤ |q| → (2 : ℝ) ^ (-600 : ℤ) ≤ |(q : ℝ)| := fun {q} h => by
    have := (Rat.cast_le (K := ℝ)).mpr h
    rw [Rat.cast_zpow, Rat.cast_abs] at this; exact this
  have hp : w.src.fmt.emin + w.src.fmt.prec ≤ -600 := by rcases hw with rfl | rfl <;> decide
  have e1 := rq_real_err (F := x80) ((zpow_le_zpow_right₀ (by norm_num) (by decide : x80.emin + x80.prec ≤ -600)).trans (cast hb0))
  have e2 := rq_real_err (F := w.src.fmt) ((zpow_le_zpow_right₀ (by norm_num) hp).trans (cast hb))
  rw [Fmt.rq_cast] at e1 e2
  rw [show x80.prec = 64 from rfl] at e1
  set u := x80.rq (1 / qv a) with hu
  set v : ℝ := ((1 / qv a : ℚ) : ℝ) with hv
  have hne := rq_src_ne (w := w) hb
  have sgn : (w.src.fmt.rq u < 0 ↔ 1 / qv a < 0) := by
    rw [rq_sign hb]; exact rq_sign (w := .w64) hb0
  have t1 := abs_sub_le ((w.src.fmt.rq u : ℚ) : ℝ) u v
  have t3 : |(u : ℝ)| ≤ |v| + |(u : ℝ) - v| := by have := abs_add_le v ((u : ℝ) - v); rwa [add_sub_cancel] at this
  have vp := abs_nonneg v
  have fin : ∀ η : ℝ, |((w.src.fmt.rq u : ℚ) : ℝ) - v| ≤ η * |v| → 2 * η + (slack w.src w : ℝ) * (1 + η) ≤ 2 * wideSlack w →
      AlmostNearestLin (2 * wideSlack w) (1 / qv a) (linEnc w (w.src.fmt.rq u)) := by
    intro η h1 h2
    obtain ⟨r, s, h⟩ := wide_real hw hin hne h1
    refine ⟨r, s.trans sgn, fun t' r' s' p q hp hq => ?_⟩
    apply (Rat.cast_le (K := ℝ)).mp
    have := (h t' r' s' p q hp hq).trans (add_le_add_right (mul_le_mul_of_nonneg_right h2 vp) _)
    rw [hv] at this
    push_cast at this ⊢
    exact this
  refine ⟨_, e, ?_⟩
  rcases hw with rfl | rfl
  · have f1 : slack (W.src .w32) .w32 = 0 := rfl
    have f2 : wideSlack .w32 = 1 / 2 ^ 52 := rfl
    apply fin (1 / 2 ^ 52)
    · rw [show (W.src .w32).fmt.prec = 53 from rfl] at e2
      norm_num at e1 e2 ⊢
      linarith
    · rw [f1, f2]; norm_num
  · have f1 : slack (W.src .w64) .w64 = 1 / 2 ^ 54 := rfl
    have f2 : wideSlack .w64 = 1 / 2 ^ 53 := rfl
    apply fin (1 / 2 ^ 62)
    · rw [show (W.src .w64).fmt.prec = 64 from rfl] at e2
      norm_num at e1 e2 ⊢
      linarith
    · rw [f1, f2]; norm_num

/-- The root and the inverse of 2. -/
example : linVal (0x48000000#32 : T .w32) = some 2 ∧ linSquareRoot .w32 0x48000000#32 = .ok 0x43504f33#32 ∧
    linInversion .w32 0x48000000#32 = .ok 0x38000000#32 := by decide +kernel

/-- C99 is false for the inversion of 32 and 64 bits: the inverse of the takum below 2 is slightly more than halfway
between 1/2 and the next takum, and is rounded to the middle first. -/
theorem lin_inversion_nearest_refuted :
    (linInversion .w32 0x47ffffff#32 = .ok 0x38000000#32 ∧ ∃ x r r' : ℚ, linVal (0x47ffffff#32) = some x ∧
      linVal (0x38000000#32) = some r ∧ linVal (0x38000001#32) = some r' ∧ |r' - 1 / x| < |r - 1 / x|) ∧
    (linInversion .w64 0x47ffffffffffffff#64 = .ok 0x3800000000000000#64 ∧ ∃ x r r' : ℚ, linVal (0x47ffffffffffffff#64) = some x ∧
      linVal (0x3800000000000000#64) = some r ∧ linVal (0x3800000000000001#64) = some r' ∧ |r' - 1 / x| < |r - 1 / x|) := by
  have e : ∀ (w : W) (t : T w), t ≠ nar w.n → linVal t = some (qv t) := fun w t h => linVal_qv h
  refine ⟨⟨by decide +kernel, _, _, _, e .w32 _ (by decide), e .w32 _ (by decide), e .w32 _ (by decide), by decide +kernel⟩,
    ⟨by decide +kernel, _, _, _, e .w64 _ (by decide), e .w64 _ (by decide), e .w64 _ (by decide), by decide +kernel⟩⟩

end Takum
