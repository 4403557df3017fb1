import Verif.Lemmas.LinSum32
import Verif.Props.LinAlmost

/-!
# C101, C102: rounding of 32- and 64-bit linear arithmetic

Sums and differences of 32 bits are correctly rounded.  Products of 32 bits and sums and products of 64 bits are not
always, but the result is nearest up to a small part of the exact result.
-/

namespace Takum
open Spec

theorem sum32' {a b : T .w32} (ha : a ≠ nar 32) (hb : b ≠ nar 32) (h0 : qv a + qv b ≠ 0) :
    NearestLin (qv a + qv b) (linEnc .w32 (b64.rq (qv a + qv b))) := by
  have single : ∀ t : T .w32, Regular t → NearestLin (qv t) (linEnc .w32 (b64.rq (qv t))) := by
    intro t ht
    have e : b64.rq (qv t) = qv t := rq_qv (w := .w32) t
    rw [e, linEnc_qv (w := .w32) ht.2, qv_regular ht]
    refine ⟨ht, (lv_neg_iff t).symm, fun t' r' s' x y hx hy => ?_⟩
    rw [linVal_lv (by decide) ht, Option.some.injEq] at hx
    rw [linVal_lv (by decide) r', Option.some.injEq] at hy
    subst hx hy
    rw [sub_self, abs_zero]
    by_cases hne : t' = t
    · right; rw [hne, sub_self, abs_zero]; exact ⟨rfl, Or.inl rfl⟩
    · left
      rw [abs_pos, sub_ne_zero]
      intro e
      apply hne
      apply ell_inj (by decide) s'
      apply lam_strictMono.injective
      rw [← lv_abs, ← lv_abs, e]
  by_cases a0 : a = 0#32
  · subst a0
    rw [qv_zero, zero_add] at h0 ⊢
    exact single b ⟨fun e => h0 (by rw [e, qv_zero]), hb⟩
  by_cases b0 : b = 0#32
  · subst b0
    rw [qv_zero, add_zero] at h0 ⊢
    exact single a ⟨fun e => h0 (by rw [e, qv_zero]), ha⟩
  have hra : Regular a := ⟨a0, ha⟩
  have hrb : Regular b := ⟨b0, hb⟩
  rw [qv_regular hra, qv_regular hrb] at h0 ⊢
  rcases le_total |lv b| |lv a| with h | h
  · exact sum32 hra h h0
  · rw [add_comm] at h0 ⊢
    exact sum32 hrb h h0

/-- C101, addition and subtraction of 32 bits: the takum nearest to the exact sum or difference, ties to the even bit
pattern, saturating. -/
theorem lin32_sum_nearest (a b : T .w32) (x y : ℚ) (ha : linVal a = some x) (hb : linVal b = some y) :
    (x + y ≠ 0 → ∃ t, linAddition .w32 a b = .ok t ∧ NearestLin (x + y) t) ∧
    (x - y ≠ 0 → ∃ t, linSubtraction .w32 a b = .ok t ∧ NearestLin (x - y) t) := by
  have han : a ≠ nar 32 := by rintro rfl; simp [linVal] at ha
  have hbn : b ≠ nar 32 := by rintro rfl; simp [linVal] at hb
  rw [linVal_qv (w := .w32) han] at ha
  rw [linVal_qv (w := .w32) hbn] at hb
  simp only [Option.some.injEq] at ha hb
  subst ha hb
  refine ⟨fun h => ?_, fun h => ?_⟩
  · exact ⟨_, linAddition_eq han hbn, sum32' han hbn h⟩
  · refine ⟨_, linSubtraction_eq han hbn, ?_⟩
    rw [sub_eq_add_neg, ← qv_neg (w := .w32) hbn] at h ⊢
    exact sum32' han (neg_ne_nar (w := .w32) hbn) h

/-- A sum that is no `double`, `1 + 2^-102`, and one that is halfway between two takums, `1 + 2^-28`. -/
example : linVal (0x40000000#32 : T .w32) = some 1 ∧ linVal (0x0b200000#32 : T .w32) = some (1 / 2 ^ 102) ∧
    linAddition .w32 0x40000000#32 0x0b200000#32 = .ok 0x40000000#32 ∧
    linVal (0x19800000#32 : T .w32) = some (1 / 2 ^ 28) ∧ linVal (0x19800001#32 : T .w32) = some (1 / 2 ^ 28 + 1 / 2 ^ 51) ∧
    linAddition .w32 0x40000000#32 0x19800000#32 = .ok 0x40000000#32 ∧
    linAddition .w32 0x40000000#32 0x19800001#32 = .ok 0x40000001#32 := by decide +kernel

/-- What the rounding to the intermediate format and the conversion cost. -/
def wideSlack : W → ℚ
  | .w64 => 1 / 2 ^ 53
  | _ => 1 / 2 ^ 52

theorem wide_almost {w : W} (hw : w = .w32 ∨ w = .w64) {v : ℚ} (h1 : (2 : ℚ) ^ (-600 : ℤ) ≤ |v|) (h2 : |v| ≤ (2 : ℚ) ^ (600 : ℤ)) :
    AlmostNearestLin (wideSlack w) v (linEnc w (w.src.fmt.rq v)) := by
  have v0 : v ≠ 0 := abs_pos.mp (lt_of_lt_of_le (by positivity) h1)
  have hne := rq_src_ne (w := w) h1
  have hin := rq_src_in (w := w) h2
  obtain ⟨t, e, r, s, hn⟩ := lin_from_almost_partial w.src w (by rcases hw with rfl | rfl <;> decide) _ hne hin
  rw [linFrom_enc (Fl.Is.num hne) hin] at e
  rw [Except.ok.inj e]
  have herr : |w.src.fmt.rq v - v| ≤ |v| / 2 ^ w.src.fmt.prec := by
    have hp : w.src.fmt.emin + w.src.fmt.prec ≤ -600 := by rcases hw with rfl | rfl <;> decide
    have hr : ((2 : ℝ) ^ (-600 : ℤ)) ≤ |(v : ℝ)| := by
      have := (Rat.cast_le (K := ℝ)).mpr h1
      rw [Rat.cast_zpow, Rat.cast_abs] at this; exact this
    have := rq_real_err (F := w.src.fmt) ((zpow_le_zpow_right₀ (by norm_num) hp).trans hr)
    rw [Fmt.rq_cast] at this
    apply (Rat.cast_le (K := ℝ)).mp; push_cast; exact this
  refine ⟨r, by rw [s, rq_sign h1], fun t' r' s' a b ha hb => ?_⟩
  have h := hn t' r' s' a b ha hb
  set q := w.src.fmt.rq v with hq
  have t1 := abs_sub_le a q v
  have t2 := abs_sub_le b v q
  have t3 : |q| ≤ |v| + |q - v| := by have := abs_add_le v (q - v); rwa [add_sub_cancel] at this
  rw [abs_sub_comm v q] at t2
  have vp := abs_nonneg v
  rcases hw with rfl | rfl
  · have e1 : slack (W.src .w32) .w32 = 0 := rfl
    have e2 : wideSlack .w32 = 1 / 2 ^ 52 := rfl
    rw [e1] at h
    rw [e2]
    rw [show (W.src .w32).fmt.prec = 53 from rfl] at herr
    rw [div_eq_mul_inv] at herr
    norm_num at h herr ⊢
    linarith
  · have e1 : slack (W.src .w64) .w64 = 1 / 2 ^ 54 := rfl
    have e2 : wideSlack .w64 = 1 / 2 ^ 53 := rfl
    rw [e1] at h
    rw [e2]
    rw [show (W.src .w64).fmt.prec = 64 from rfl] at herr
    rw [div_eq_mul_inv] at herr
    norm_num at h herr ⊢
    linarith

/-- C102 for 32 and 64 bits, with the nearest takum replaced by one that is at most `wideSlack·|v|` farther away from
the exact result `v`.  Missing: nothing more than that, but `lin_arith_nearest_refuted` shows that the results are not
always nearest. -/
theorem lin_arith_almost_partial (w : W) (hw : w = .w32 ∨ w = .w64) (a b : T w) (x y : ℚ) (ha : linVal a = some x)
    (hb : linVal b = some y) :
    (x + y ≠ 0 → ∃ t, linAddition w a b = .ok t ∧ AlmostNearestLin (wideSlack w) (x + y) t) ∧
    (x - y ≠ 0 → ∃ t, linSubtraction w a b = .ok t ∧ AlmostNearestLin (wideSlack w) (x - y) t) ∧
    (x * y ≠ 0 → ∃ t, linMultiplication w a b = .ok t ∧ AlmostNearestLin (wideSlack w) (x * y) t) ∧
    (x / y ≠ 0 → ∃ t, linDivision w a b = .ok t ∧ AlmostNearestLin (wideSlack w) (x / y) t) := by
  have han : a ≠ nar w.n := by rintro rfl; simp [linVal] at ha
  have hbn : b ≠ nar w.n := by rintro rfl; simp [linVal] at hb
  rw [linVal_qv han] at ha
  rw [linVal_qv hbn] at hb
  simp only [Option.some.injEq] at ha hb
  subst ha hb
  refine ⟨fun h => ?_, fun h => ?_, fun h => ?_, fun h => ?_⟩
  · exact ⟨_, linAddition_eq han hbn, wide_almost hw (sum_big h) (sum_le (qv_lt a) (qv_lt b))⟩
  · refine ⟨_, linSubtraction_eq han hbn, ?_⟩
    rw [sub_eq_add_neg, ← qv_neg hbn] at h ⊢
    exact wide_almost hw (sum_big h) (sum_le (qv_lt a) (qv_lt _))
  · have h1 : Regular a := ⟨fun e => h (by rw [e, qv_zero, zero_mul]), han⟩
    have h2 : Regular b := ⟨fun e => h (by rw [e, qv_zero, mul_zero]), hbn⟩
    exact ⟨_, linMultiplication_eq han hbn, wide_almost hw (prod_big h1 h2) (prod_le (qv_lt a) (qv_lt b))⟩
  · have h1 : Regular a := ⟨fun e => h (by rw [e, qv_zero, zero_div]), han⟩
    have h2 : Regular b := ⟨fun e => h (by rw [e, qv_zero, div_zero]), hbn⟩
    exact ⟨_, linDivision_eq han h2, wide_almost hw (quot_big h1 h2) (quot_le (qv_lt a) h2)⟩

example : linVal (0x4000000000000000#64 : T .w64) = some 1 ∧ linVal (0x4a00000000000000#64 : T .w64) = some 3 ∧
    linDivision .w64 0x4000000000000000#64 0x4a00000000000000#64 = .ok 0x3555555555555555#64 := by decide +kernel

/-- C102 is false for the products of 32 bits and for the sums and products of 64 bits: the exact result is rounded to
a number of the intermediate format that is halfway between two takums, and then the wrong way. -/
theorem lin_arith_nearest_refuted :
    (linMultiplication .w32 0x42163637#32 0x4052a079#32 = .ok 0x427e6438#32 ∧
      ∃ x y r r' : ℚ, linVal (0x42163637#32) = some x ∧ linVal (0x4052a079#32) = some y ∧
        linVal (0x427e6438#32) = some r ∧ linVal (0x427e6437#32) = some r' ∧ |r' - x * y| < |r - x * y|) ∧
    (linMultiplication .w64 0x4035efa29b08923d#64 0x427c2fa784aeeaeb#64 = .ok 0x42c2e0766820e510#64 ∧
      ∃ x y r r' : ℚ, linVal (0x4035efa29b08923d#64) = some x ∧ linVal (0x427c2fa784aeeaeb#64) = some y ∧
        linVal (0x42c2e0766820e510#64) = some r ∧ linVal (0x42c2e0766820e50f#64) = some r' ∧ |r' - x * y| < |r - x * y|) ∧
    (linAddition .w64 0x4000000000000000#64 0x10c0000000000001#64 = .ok 0x4000000000000000#64 ∧
      linSubtraction .w64 0x4000000000000000#64 (-0x10c0000000000001#64) = .ok 0x4000000000000000#64 ∧
      ∃ x y r r' : ℚ, linVal (0x4000000000000000#64) = some x ∧ linVal (0x10c0000000000001#64) = some y ∧
        linVal (0x4000000000000000#64) = some r ∧ linVal (0x4000000000000001#64) = some r' ∧ |r' - (x + y)| < |r - (x + y)|) := by
  have e : ∀ (w : W) (t : T w), t ≠ nar w.n → linVal t = some (qv t) := fun w t h => linVal_qv h
  refine ⟨⟨by decide +kernel, _, _, _, _, e .w32 _ (by decide), e .w32 _ (by decide), e .w32 _ (by decide),
    e .w32 _ (by decide), by decide +kernel⟩, ⟨by decide +kernel, _, _, _, _, e .w64 _ (by decide), e .w64 _ (by decide),
    e .w64 _ (by decide), e .w64 _ (by decide), by decide +kernel⟩, ⟨by decide +kernel, by decide +kernel, _, _, _, _,
    e .w64 _ (by decide), e .w64 _ (by decide), e .w64 _ (by decide), e .w64 _ (by decide), by decide +kernel⟩⟩

end Takum
