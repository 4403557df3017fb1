import Verif.Lemmas.Sterbenz

/-!
# C103: the difference of two linear takums that are close to each other is exact

Sterbenz' lemma for the tapered precision of the format.
-/

namespace Takum
open Spec

/-- The claim for a pair of positive 8-bit patterns. -/
def sub8 (a b : T .w8) : Bool :=
  if qv a ≤ 2 * qv b ∧ qv (1#8) ≤ qv a - qv b then
    match linSubtraction .w8 a b with
    | .ok t => decide (t ≠ nar 8) && decide (qv t = qv a - qv b)
    | .error _ => false
  else true

theorem sub8_all : ∀ i < 128, ∀ j < i, 0 < j → sub8 (BitVec.ofNat 8 i) (BitVec.ofNat 8 j) = true := by decide +kernel

theorem diff_takum {w : W} {a b : T w} (ha : Regular a) (hb : Regular b) (b0 : 0 < qv b)
    (h1 : qv b < qv a) (h2 : qv a ≤ 2 * qv b) (h3 : qv (1#w.n) ≤ qv a - qv b) :
    ∃ t : T w, t ≠ nar w.n ∧ qv t = qv a - qv b := by
  by_cases hw : 12 ≤ w.n
  · have r1 : Regular (1#w.n : T w) := by cases w <;> exact ⟨by decide, by decide⟩
    have sa : ∀ t : T w, Regular t → 0 < qv t → t.msb = false := fun t rt h => by
      rw [qv_regular rt] at h
      by_contra hc
      have := (lv_neg_iff t).mpr (by simpa using hc)
      linarith
    have ma := sa a ha (by linarith)
    have mb := sa b hb b0
    rw [qv_regular ha, qv_regular hb] at *
    rw [qv_regular r1] at h3
    obtain ⟨t, rt, -, et⟩ := sterbenz_pos hw ha hb ma mb h1 h2 h3
    exact ⟨t, rt.2, by rw [qv_regular rt, et]⟩
  · obtain rfl : w = .w8 := by cases w <;> first | rfl | exact absurd (by decide) hw
    have e : ∀ t : T .w8, t = BitVec.ofNat 8 t.toNat := fun t => by simp
    have ub : b.toInt < a.toInt := by
      by_contra hc
      have := (qv_le_iff (w := .w8) ha.2 hb.2).mpr (not_lt.mp hc)
      linarith
    have pb : 0 < b.toInt := by
      by_contra hc
      have := (qv_le_iff (w := .w8) (a := b) (b := 0#8) hb.2 (by decide)).mpr (by simpa using hc)
      rw [qv_zero] at this
      linarith
    have ia : a.toInt < 128 := by have := BitVec.toInt_lt (x := a); simpa [W.n] using this
    have na : (a.toNat : ℤ) = a.toInt := by
      have := BitVec.toInt_eq_toNat_cond a
      have := a.isLt
      simp only [W.n] at *
      split at * <;> omega
    have nb : (b.toNat : ℤ) = b.toInt := by
      have := BitVec.toInt_eq_toNat_cond b
      have := b.isLt
      simp only [W.n] at *
      split at * <;> omega
    have h := sub8_all a.toNat (by omega) b.toNat (by omega) (by omega)
    rw [← e a, ← e b] at h
    unfold sub8 at h
    rw [if_pos ⟨h2, h3⟩] at h
    split at h
    · rename_i t _
      simp only [Bool.and_eq_true, decide_eq_true_eq] at h
      exact ⟨t, h.1, h.2⟩
    · exact absurd h (by decide)

/-- C103. Two linear takums of the same sign, neither more than twice the other: their difference is a takum and the
subtraction returns it, unless it is smaller than every takum. -/
theorem lin_sterbenz (w : W) (a b : T w) (x y s : ℚ) (ha : linVal a = some x) (hb : linVal b = some y)
    (hs : linVal (1#w.n) = some s) (hxy : 0 ≤ x * y) (h1 : |x| ≤ 2 * |y|) (h2 : |y| ≤ 2 * |x|) (h : x = y ∨ s ≤ |x - y|) :
    ∃ t, linSubtraction w a b = .ok t ∧ linVal t = some (x - y) := by
  have han : a ≠ nar w.n := by rintro rfl; simp [linVal] at ha
  have hbn : b ≠ nar w.n := by rintro rfl; simp [linVal] at hb
  have h1n : (1#w.n : T w) ≠ nar w.n := by cases w <;> decide
  rw [linVal_qv han] at ha
  rw [linVal_qv hbn] at hb
  rw [linVal_qv h1n] at hs
  simp only [Option.some.injEq] at ha hb hs
  subst ha hb hs
  suffices ∃ t : T w, t ≠ nar w.n ∧ qv t = qv a - qv b by
    obtain ⟨t, tn, et⟩ := this
    refine ⟨t, ?_, by rw [linVal_qv tn, et]⟩
    rw [linSubtraction_eq han hbn, ← et, rq_qv, linEnc_qv tn]
  rcases eq_or_ne (qv a) (qv b) with e | e
  · exact ⟨0#w.n, zero_ne_nar w, by rw [qv_zero, e, sub_self]⟩
  have h3 := h.resolve_left e
  have reg : ∀ t : T w, t ≠ nar w.n → qv t ≠ 0 → Regular t := fun t tn t0 => ⟨fun e => t0 (by rw [e, qv_zero]), tn⟩
  have a0 : qv a ≠ 0 := fun h0 => by
    rw [h0, abs_zero] at h2
    have : qv b = 0 := abs_eq_zero.mp (le_antisymm (by linarith) (abs_nonneg _))
    exact e (by rw [h0, this])
  have b0 : qv b ≠ 0 := fun h0 => by
    rw [h0, abs_zero] at h1
    exact a0 (abs_eq_zero.mp (le_antisymm (by linarith) (abs_nonneg _)))
  have na := qv_neg han
  have nb := qv_neg hbn
  have rna := reg (-a) (neg_ne_nar han) (by rw [na]; exact neg_ne_zero.mpr a0)
  have rnb := reg (-b) (neg_ne_nar hbn) (by rw [nb]; exact neg_ne_zero.mpr b0)
  have flip : ∀ {t : T w} {q : ℚ}, t ≠ nar w.n → qv t = -q → ∃ t' : T w, t' ≠ nar w.n ∧ qv t' = q := fun {t q} tn et =>
    ⟨-t, neg_ne_nar tn, by rw [qv_neg tn, et, neg_neg]⟩
  rcases lt_or_gt_of_ne a0 with an | ap
  · have bn : qv b < 0 := by
      rcases lt_or_gt_of_ne b0 with hh | hh
      · exact hh
      · nlinarith
    rw [abs_of_neg an, abs_of_neg bn] at h1 h2
    rcases lt_or_gt_of_ne e with hlt | hgt
    · rw [abs_of_neg (by linarith)] at h3
      obtain ⟨t, tn, et⟩ := diff_takum rna rnb (by rw [nb]; linarith) (by rw [na, nb]; linarith) (by rw [na, nb]; linarith)
        (by rw [na, nb]; linarith)
      exact flip tn (by rw [et, na, nb]; ring)
    · rw [abs_of_pos (by linarith)] at h3
      obtain ⟨t, tn, et⟩ := diff_takum rnb rna (by rw [na]; linarith) (by rw [na, nb]; linarith) (by rw [na, nb]; linarith)
        (by rw [na, nb]; linarith)
      exact ⟨t, tn, by rw [et, na, nb]; ring⟩
  · have bp : 0 < qv b := by
      rcases lt_or_gt_of_ne b0 with hh | hh
      · nlinarith
      · exact hh
    rw [abs_of_pos ap, abs_of_pos bp] at h1 h2
    rcases lt_or_gt_of_ne e with hlt | hgt
    · rw [abs_of_neg (by linarith)] at h3
      obtain ⟨t, tn, et⟩ := diff_takum (reg b hbn b0) (reg a han a0) ap hlt h2 (by linarith)
      exact flip tn (by rw [et]; ring)
    · rw [abs_of_pos (by linarith)] at h3
      exact diff_takum (reg a han a0) (reg b hbn b0) bp hgt h1 h3

/-- `1 + 2^-27` and `1`. -/
example : linVal (0x40000001#32 : T .w32) = some (1 + 1 / 2 ^ 27) ∧ linVal (0x40000000#32 : T .w32) = some 1 ∧
    linSubtraction .w32 0x40000001#32 0x40000000#32 = .ok 0x1a000000#32 ∧ linVal (0x1a000000#32 : T .w32) = some (1 / 2 ^ 27) := by
  decide +kernel

/-- Without the last hypothesis: the difference of the two smallest 16-bit takums is smaller than every takum, and the
result is the smallest one. -/
example : linVal (1#16 : T .w16) = some (17 / 16 / 2 ^ 255) ∧ linVal (2#16 : T .w16) = some (18 / 16 / 2 ^ 255) ∧
    linSubtraction .w16 2#16 1#16 = .ok 1#16 := by decide +kernel

end Takum
