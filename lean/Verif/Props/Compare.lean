import Verif.Props.LogAdd
import Verif.Props.LinArith
import Verif.Props.Monotone

/-!
# C108: the sign of a difference compares the numbers
-/

namespace Takum
open Spec

/-- C108, linear: the difference is negative, zero or positive exactly if the first number is smaller than, equal to or larger than
the second. -/
theorem lin_subtraction_order (w : W) (a b : T w) (x y : ℚ) (hx : linVal a = some x) (hy : linVal b = some y) :
    ∃ d : T w, linSubtraction w a b = .ok d ∧ d ≠ nar w.n ∧ (d.toInt < 0 ↔ x < y) ∧ (d = 0#w.n ↔ x = y) ∧ (0 < d.toInt ↔ y < x) := by
  have ha : a ≠ nar w.n := by rintro rfl; simp [linVal] at hx
  have hb : b ≠ nar w.n := by rintro rfl; simp [linVal] at hy
  rw [linVal_qv ha] at hx
  rw [linVal_qv hb] at hy
  obtain rfl := Option.some.inj hx
  obtain rfl := Option.some.inj hy
  have hs := rq_src_in (w := w) (sum_le (qv_lt a) (qv_lt (-b)))
  obtain ⟨h1, h2, h3, h4⟩ := linEnc_facts hs
  have hz : w.src.fmt.rq (0 : ℚ) = 0 := w.src.fmt.rq_of_rep (Fmt.Rep.zero _)
  have hne : qv a + qv (-b) ≠ 0 → w.src.fmt.rq (qv a + qv (-b)) ≠ 0 := fun h => rq_src_ne (w := w) (sum_big h)
  have hneg : qv a + qv (-b) < 0 → w.src.fmt.rq (qv a + qv (-b)) < 0 := fun h => (rq_sign (sum_big h.ne)).mpr h
  have hpos : 0 < qv a + qv (-b) → 0 < w.src.fmt.rq (qv a + qv (-b)) := by
    intro h
    rcases lt_trichotomy (w.src.fmt.rq (qv a + qv (-b))) 0 with h' | h' | h'
    · have := (rq_sign (sum_big h.ne')).mp h'; linarith
    · exact absurd h' (hne h.ne')
    · exact h'
  refine ⟨_, (lin_subtraction_laws w a b).1.trans (linAddition_eq ha (neg_ne_nar hb)), h1, ?_, ?_, ?_⟩
  all_goals
    rw [qv_neg hb] at *
    first | rw [← h3] | rw [← h2] | rw [← h4]
    rcases lt_trichotomy (qv a) (qv b) with h | h | h
    · have h5 := hneg (by linarith)
      constructor <;> intro <;> linarith
    · rw [h, add_neg_cancel, hz]; simp
    · have h5 := hpos (by linarith)
      constructor <;> intro <;> linarith

/-- C108, logarithmic. -/
theorem log_subtraction_order (L : Libm) (hL : L.Powers) (hA : L.Accurate) (hS : L.Specials) (hG : L.Logs) (w : W) (a b : T w)
    (x y : ℝ) (hx : logVal a = some x) (hy : logVal b = some y) :
    ∃ d : T w, subtraction L w a b = .ok d ∧ d ≠ nar w.n ∧ (d.toInt < 0 ↔ x < y) ∧ (d = 0#w.n ↔ x = y) ∧ (0 < d.toInt ↔ y < x) := by
  have h8 := w.n_pos
  have hyn : logVal (-b) = some (-y) := by rw [(neg_value (by omega) b).1, hy]; rfl
  obtain ⟨d, e, h1, h2, h3, h4⟩ := log_addition_sign L hL hA hS hG w a (-b) x (-y) hx hyn
  refine ⟨d, (log_addition_laws L hL hA hS w a b).2.2.2.1.trans e, h1, h3.trans ?_, h4.trans ?_, h2.trans ?_⟩ <;>
    constructor <;> intro <;> linarith

/-- The sum of two numbers that are not negative is not below either of them (C108, with C36 and C78). -/
theorem lin_addition_grows (w : W) (a b : T w) (ha : 0 ≤ a.toInt) (hb : 0 ≤ b.toInt) :
    ∃ s : T w, linAddition w a b = .ok s ∧ a.toInt ≤ s.toInt ∧ b.toInt ≤ s.toInt := by
  have zn := zero_ne_nar w
  have z0 : (0#w.n).toInt = 0 := by simp
  have an : a ≠ nar w.n := ne_nar_of_toInt zn (z0.trans_le ha)
  have bn : b ≠ nar w.n := ne_nar_of_toInt zn (z0.trans_le hb)
  obtain ⟨p, q, e1, e2, h⟩ := (lin_monotone w 0#w.n b a zn bn an (z0.trans_le hb)).1
  obtain ⟨p', q', e1', e2', h'⟩ := (lin_monotone w 0#w.n a b zn an bn (z0.trans_le ha)).1
  have c1 : linAddition w 0#w.n a = .ok a := by rw [(lin_addition_laws w 0#w.n a).1]; exact (lin_addition_laws w a b).2.1
  have c2 : linAddition w 0#w.n b = .ok b := by rw [(lin_addition_laws w 0#w.n b).1]; exact (lin_addition_laws w b a).2.1
  rw [c1] at e1; rw [c2] at e1'
  obtain rfl := Except.ok.inj e1
  obtain rfl := Except.ok.inj e1'
  rw [(lin_addition_laws w b a).1] at e2
  rw [e2'] at e2
  obtain rfl := Except.ok.inj e2
  exact ⟨_, e2', h, h'⟩

/-- The logarithmic version. -/
theorem log_addition_grows (L : Libm) (hL : L.Powers) (hA : L.Accurate) (hS : L.Specials) (hG : L.Logs) (hm : Increasing L.log) (w : W) (a b : T w)
    (ha : 0 ≤ a.toInt) (hb : 0 ≤ b.toInt) :
    ∃ s : T w, addition L w a b = .ok s ∧ a.toInt ≤ s.toInt ∧ b.toInt ≤ s.toInt := by
  have zn := zero_ne_nar w
  have z0 : (0#w.n).toInt = 0 := by simp
  have an : a ≠ nar w.n := ne_nar_of_toInt zn (z0.trans_le ha)
  have bn : b ≠ nar w.n := ne_nar_of_toInt zn (z0.trans_le hb)
  obtain ⟨p, q, e1, e2, h⟩ := (log_addition_monotone L hL hA hG hm w 0#w.n b a zn bn an (z0.trans_le hb)).1
  obtain ⟨p', q', e1', e2', h'⟩ := (log_addition_monotone L hL hA hG hm w 0#w.n a b zn an bn (z0.trans_le ha)).1
  rw [log_addition_comm, (log_addition_laws L hL hA hS w a b).1] at e1
  rw [log_addition_comm, (log_addition_laws L hL hA hS w b a).1] at e1'
  obtain rfl := Except.ok.inj e1
  obtain rfl := Except.ok.inj e1'
  rw [log_addition_comm] at e2
  rw [e2'] at e2
  obtain rfl := Except.ok.inj e2
  exact ⟨_, e2', h, h'⟩

/-- Two neighbours, and arguments that meet the hypotheses. -/
example : linVal (0x4001#16) = some (2049 / 2048) ∧ linVal (0x4000#16) = some 1 ∧ 0 ≤ (0x4001#16).toInt := by decide +kernel
example : ideal.Powers ∧ ideal.Accurate ∧ ideal.Specials ∧ ideal.Logs ∧ Increasing ideal.log ∧
    ∃ x y, logVal (0x4001#16) = some x ∧ logVal (0x4000#16) = some y :=
  ⟨ideal_powers, ideal_accurate, ideal_specials, ideal_logs, ideal_monotone.log, _, _, logVal_regular (by decide) (by unfold Regular; decide),
    logVal_regular (by decide) (by unfold Regular; decide)⟩

end Takum
