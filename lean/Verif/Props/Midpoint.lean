import Verif.Props.Ordered
import Verif.Props.Spacing
import Verif.Props.Accumulate

/-!
# C140: the midpoint of two linear takums

`a + (b - a) / 2` lies between `a` and `b`, `(a + b) / 2` need not: the numbers are not spaced evenly, so that twice a takum is not always a takum.
-/

namespace Takum
open Spec

/-- `a + (b - a) / 2`, computed with the operations of the library; `two` is the takum 2. -/
def midpoint (w : W) (two a b : T w) : C (T w) := do
  let d ← linSubtraction w b a
  let h ← linDivision w d two
  linAddition w a h

/-- `(a + b) / 2`. -/
def mean (w : W) (two a b : T w) : C (T w) := do
  let s ← linAddition w a b
  linDivision w s two

theorem lin_real_value {w : W} {t : T w} {x : ℚ} (h : linVal t = some x) : value .lin t = some (x : ℝ) := value_lin h

theorem qv_of {w : W} {t : T w} {x : ℚ} (h : linVal t = some x) : t ≠ nar w.n ∧ qv t = x := by
  have hn : t ≠ nar w.n := by rintro rfl; simp [linVal] at h
  exact ⟨hn, Option.some.inj ((linVal_qv hn).symm.trans h)⟩

/-- A positive takum other than the smallest one is at most twice the takum before it. -/
theorem pred_half {w : W} (hw : w ≠ .w8) {d : T w} (rd : Regular d) (hp : 0 < qv d) (h1 : d ≠ 1#w.n) :
    ∃ p : T w, Regular p ∧ 0 < qv p ∧ p.toInt < d.toInt ∧ qv d ≤ 2 * qv p := by
  have h8 := w.n_pos
  have dm : d.msb = false := by
    rw [qv_regular rd] at hp
    by_contra hc
    have := (lv_neg_iff d).mpr (by simpa using hc)
    linarith
  have d0 : d.toNat ≠ 0 := fun h => rd.1 (BitVec.eq_of_toNat_eq (by simpa using h))
  have o : (1#w.n : T w).toNat = 1 := by cases w <;> rfl
  have d1 : d.toNat ≠ 1 := fun h => h1 (BitVec.eq_of_toNat_eq (by rw [h, o]))
  have pn : (d - 1#w.n).toNat = d.toNat - 1 := by
    rw [BitVec.toNat_sub_of_le (by rw [BitVec.le_def, o]; omega), o]
  have di : d.toInt = d.toNat := BitVec.toInt_eq_toNat_of_msb dm
  have dl : 2 * d.toNat < 2 ^ w.n := by
    have := BitVec.msb_eq_false_iff_two_mul_lt.mp dm; simpa using this
  have pm : (d - 1#w.n).msb = false := BitVec.msb_eq_false_iff_two_mul_lt.mpr (by rw [pn]; omega)
  have pi : (d - 1#w.n).toInt = d.toNat - 1 := by
    rw [BitVec.toInt_eq_toNat_of_msb pm, pn]; omega
  have pr : Regular (d - 1#w.n) := by
    refine ⟨fun h => ?_, fun h => ?_⟩
    · have := congrArg BitVec.toNat h; rw [pn] at this; simp at this; omega
    · rw [h] at pm; revert pm; cases w <;> decide
  have pp : 0 < qv (d - 1#w.n) := by
    rw [qv_regular pr]
    by_contra hc
    have := (lv_neg_iff _).mp (lt_of_le_of_ne (not_lt.mp hc) (lv_ne _))
    rw [pm] at this; cases this
  have ad : d - 1#w.n + 1#w.n = d := BitVec.sub_add_cancel d 1#w.n
  obtain ⟨k, hk⟩ : ∃ k, precision w (d - 1#w.n) = .ok k := ⟨_, precision_spec ..⟩
  obtain ⟨e, -, e1, -, -, e2⟩ := precision_spacing_lin w (d - 1#w.n) k hk (Or.inl hw) _ _ (linVal_qv pr.2) (by rw [ad]; exact linVal_qv rd.2)
    (mul_pos pp hp)
  refine ⟨_, pr, pp, by rw [pi, di]; omega, ?_⟩
  rw [abs_of_pos pp] at e1
  rw [abs_of_pos hp, zpow_add₀ (by norm_num), zpow_one] at e2
  linarith

/-- C140: the midpoint is not outside of the two numbers, provided that they are equal or their difference is not below the smallest positive number. -/
theorem lin_midpoint_partial (w : W) (hw : w ≠ .w8) (two a b : T w) (x y s : ℚ) (h2 : linVal two = some 2) (ha : linVal a = some x)
    (hb : linVal b = some y) (hs : linVal (1#w.n : T w) = some s) (hxy : x ≤ y) (hd : y = x ∨ s ≤ y - x) :
    ∃ m, midpoint w two a b = .ok m ∧ m ≠ nar w.n ∧ a.toInt ≤ m.toInt ∧ m.toInt ≤ b.toInt := by
  have vz : value .lin (0#w.n : T w) = some 0 := value_zero .lin
  rcases hd with rfl | hd
  · have e1 := lin_operations_agree w (.sub b a) (.self 0#w.n) 0 (by have := LinOp.Exact.sub (lin_real_value hb) (lin_real_value ha); rwa [sub_self] at this) (.self vz)
    have e2 := lin_operations_agree w (.div 0#w.n two) (.self 0#w.n) 0 (by
      have := LinOp.Exact.div vz (lin_real_value h2) (by norm_num); rwa [zero_div] at this) (.self vz)
    have e3 := lin_operations_agree w (.add a 0#w.n) (.self a) y (by have := LinOp.Exact.add (lin_real_value ha) vz; rwa [add_zero] at this) (.self (lin_real_value ha))
    simp only [LinOp.run] at e1 e2 e3
    obtain ⟨na, qa⟩ := qv_of ha
    obtain ⟨nb, qb⟩ := qv_of hb
    refine ⟨a, ?_, na, le_rfl, ?_⟩
    · rw [midpoint, e1]
      show (linDivision w 0#w.n two >>= fun h => linAddition w a h) = .ok a
      rw [e2]
      exact e3
    · rw [← qv_le_iff na nb, qa, qb]
  · have s0 : 0 < s := by
      obtain ⟨-, r1, -⟩ := max_facts w
      obtain ⟨-, q1⟩ := qv_of hs
      rw [← q1, qv_regular r1]
      by_contra hc
      have := (lv_neg_iff _).mp (lt_of_le_of_ne (not_lt.mp hc) (lv_ne _))
      revert this; cases w <;> decide
    obtain ⟨d, ed, fd⟩ := (lin_arith_faithful w b a y x hb ha).2.1 (by linarith)
    have pos : ∀ {v : ℚ} {t : T w}, FaithfulLin (v : ℝ) t → 0 < v → 0 < qv t := by
      intro v t ft hv
      rw [qv_regular ft.1]
      by_contra hc
      have := ft.2.1.mp ((lv_neg_iff _).mp (lt_of_le_of_ne (not_lt.mp hc) (lv_ne _)))
      have : v < 0 := by exact_mod_cast this
      linarith
    have dp := pos fd (by linarith)
    obtain ⟨h, eh, fh⟩ := (lin_arith_faithful w d two _ 2 (linVal_qv fd.1.2) h2).2.2.2 (by positivity)
    have hp := pos fh (by positivity)
    have le : qv h ≤ y - x := by
      by_cases hc : qv d ≤ y - x
      · have := (fh.2.2 d _ fd.1 (linVal_qv fd.1.2)).2 (by exact_mod_cast (by linarith : qv d / 2 ≤ qv d))
        exact ((qv_le_iff fh.1.2 fd.1.2).mpr this).trans hc
      · obtain ⟨p, pr, pp, pl, p2⟩ := pred_half hw fd.1 dp (by
          rintro rfl
          rw [(qv_of hs).2] at hc
          exact hc hd)
        have p1 : qv p < y - x := by
          by_contra hn
          have := (fd.2.2 p _ pr (linVal_qv pr.2)).2 (by exact_mod_cast not_lt.mp hn)
          omega
        have := (fh.2.2 p _ pr (linVal_qv pr.2)).2 (by exact_mod_cast (by linarith : qv d / 2 ≤ qv p))
        exact ((qv_le_iff fh.1.2 pr.2).mpr this).trans p1.le
    have vh : value .lin h = some ((qv h : ℚ) : ℝ) := lin_real_value (linVal_qv fh.1.2)
    obtain ⟨u, m, hu, hm, h3⟩ := lin_operations_ordered w (.self a) (.add a h) x (x + qv h) (.self (lin_real_value ha)) (.add (lin_real_value ha) vh) (by
      have : (0 : ℝ) < qv h := by exact_mod_cast hp
      linarith)
    obtain ⟨m', v, hm', hv, h4⟩ := lin_operations_ordered w (.add a h) (.self b) (x + qv h) y (.add (lin_real_value ha) vh) (.self (lin_real_value hb)) (by
      have : ((qv h : ℚ) : ℝ) ≤ ((y - x : ℚ) : ℝ) := by exact_mod_cast le
      push_cast at this; linarith)
    cases hu
    cases hv
    rw [hm] at hm'
    cases hm'
    refine ⟨m, ?_, ne_nar_of_toInt (qv_of ha).1 h3, h3, h4⟩
    rw [midpoint, ed]
    show (linDivision w d two >>= fun h => linAddition w a h) = .ok m
    rw [eh]
    exact hm

/-- Non-vacuity: the numbers 1 and 2. -/
example : ∃ m, midpoint .w16 0x4800#16 0x4000#16 0x4800#16 = .ok m ∧ m ≠ nar 16 ∧ (0x4000#16 : T .w16).toInt ≤ m.toInt ∧
    m.toInt ≤ (0x4800#16 : T .w16).toInt :=
  lin_midpoint_partial .w16 (by decide) 0x4800#16 0x4000#16 0x4800#16 1 2 ((linVal (1#16 : T .w16)).getD 0) (by decide +kernel) (by decide +kernel)
    (by decide +kernel) (by decide +kernel) (by norm_num) (Or.inr (by decide +kernel))

/-- C140 fails where the difference is too small: it is replaced by the smallest positive number, and half of that again. -/
theorem midpoint_refuted : ¬ ∀ (w : W) (two a b m : T w) (x y : ℚ), linVal two = some 2 → linVal a = some x → linVal b = some y → x ≤ y →
    midpoint w two a b = .ok m → a.toInt ≤ m.toInt ∧ m.toInt ≤ b.toInt := by
  intro h
  have := (h .w16 0x4800#16 1#16 2#16 0x11#16 ((linVal (1#16 : T .w16)).getD 0) ((linVal (2#16 : T .w16)).getD 0) (by decide +kernel)
    (by decide +kernel) (by decide +kernel) (by decide +kernel) (by decide +kernel)).2
  exact absurd this (by decide)

/-- C140 fails with 8 bits for any difference: between the largest numbers there is more than a factor of two. -/
theorem midpoint_refuted_w8 : ¬ ∀ (two a b m : T .w8) (x y s : ℚ), linVal two = some 2 → linVal a = some x → linVal b = some y →
    linVal (1#8 : T .w8) = some s → x ≤ y → s ≤ y - x → midpoint .w8 two a b = .ok m → a.toInt ≤ m.toInt ∧ m.toInt ≤ b.toInt := by
  intro h
  have := (h 0x48#8 0x81#8 0x82#8 0#8 ((linVal (0x81#8 : T .w8)).getD 0) ((linVal (0x82#8 : T .w8)).getD 0) ((linVal (1#8 : T .w8)).getD 0)
    (by decide +kernel) (by decide +kernel) (by decide +kernel) (by decide +kernel) (by decide +kernel) (by decide +kernel) (by decide +kernel)).2
  exact absurd this (by decide)

/-- Sums are not NaR, and the quotient by 2 is ordered like the dividend. -/
theorem mean_eq {w : W} {two a b : T w} {x y : ℝ} (h2 : value .lin two = some 2) (ha : value .lin a = some x) (hb : value .lin b = some y) :
    ∃ s m : T w, ∃ z : ℝ, linAddition w a b = .ok s ∧ value .lin s = some z ∧ linDivision w s two = .ok m ∧ mean w two a b = .ok m := by
  obtain ⟨s, es, hs, -⟩ := lin_addition_regular w a b (value_ne ha) (value_ne hb)
  have vs : value .lin s = some ((qv s : ℚ) : ℝ) := lin_real_value (linVal_qv hs)
  obtain ⟨m, -, hm, -, -⟩ := lin_operations_ordered w (.div s two) (.div s two) _ _ (.div vs h2 (by norm_num)) (.div vs h2 (by norm_num)) le_rfl
  simp only [LinOp.run] at hm
  exact ⟨s, m, _, es, vs, hm, by rw [mean, es]; exact hm⟩

/-- C140: the mean lies between the means of each number with itself. -/
theorem lin_mean_partial (w : W) (two a b : T w) (x y : ℝ) (h2 : value .lin two = some 2) (ha : value .lin a = some x) (hb : value .lin b = some y)
    (h : x ≤ y) : ∃ l m u : T w, mean w two a a = .ok l ∧ mean w two a b = .ok m ∧ mean w two b b = .ok u ∧ l.toInt ≤ m.toInt ∧ m.toInt ≤ u.toInt := by
  have key : ∀ {p q r t : T w} {v₁ v₂ v₃ v₄ : ℝ}, value .lin p = some v₁ → value .lin q = some v₂ → value .lin r = some v₃ → value .lin t = some v₄ →
      v₁ + v₂ ≤ v₃ + v₄ → ∃ l m : T w, mean w two p q = .ok l ∧ mean w two r t = .ok m ∧ l.toInt ≤ m.toInt := by
    intro p q r t v₁ v₂ v₃ v₄ hp hq hr ht hv
    obtain ⟨s, l, z, es, vs, ds, el⟩ := mean_eq h2 hp hq
    obtain ⟨s', m, z', es', vs', ds', em⟩ := mean_eq h2 hr ht
    obtain ⟨c, c', ec, ec', hc⟩ := lin_operations_ordered w (.add p q) (.add r t) _ _ (.add hp hq) (.add hr ht) hv
    simp only [LinOp.run, es, es', Except.ok.injEq] at ec ec'
    subst ec ec'
    obtain ⟨ns, rfl⟩ := lin_qv vs
    obtain ⟨ns', rfl⟩ := lin_qv vs'
    obtain ⟨d, d', ed, ed', hd⟩ := lin_operations_ordered w (.div s two) (.div s' two) _ _ (.div vs h2 (by norm_num)) (.div vs' h2 (by norm_num)) (by
      have : ((qv s : ℚ) : ℝ) ≤ qv s' := by exact_mod_cast (qv_le_iff ns ns').mpr hc
      linarith)
    simp only [LinOp.run, ds, ds', Except.ok.injEq] at ed ed'
    subst ed ed'
    exact ⟨l, m, el, em, hd⟩
  obtain ⟨l, m, el, em, h1⟩ := key ha ha ha hb (by linarith)
  obtain ⟨m', u, em', eu, h3⟩ := key ha hb hb hb (by linarith)
  rw [em] at em'
  cases em'
  exact ⟨l, m, u, el, em, eu, h1, h3⟩

/-- Non-vacuity: the numbers 1 and 2. -/
example : ∃ l m u : T .w16, mean .w16 0x4800#16 0x4000#16 0x4000#16 = .ok l ∧ mean .w16 0x4800#16 0x4000#16 0x4800#16 = .ok m ∧
    mean .w16 0x4800#16 0x4800#16 0x4800#16 = .ok u ∧ l.toInt ≤ m.toInt ∧ m.toInt ≤ u.toInt :=
  lin_mean_partial .w16 0x4800#16 0x4000#16 0x4800#16 ((1 : ℚ) : ℝ) ((2 : ℚ) : ℝ) (by
    have := lin_real_value (w := .w16) (t := 0x4800#16) (x := 2) (by decide +kernel)
    exact_mod_cast this) (lin_real_value (w := .w16) (t := 0x4000#16) (x := 1) (by decide +kernel))
    (lin_real_value (w := .w16) (t := 0x4800#16) (x := 2) (by decide +kernel)) (by norm_num)

/-- C140 fails for `(a + b) / 2`, even if both numbers are the same. -/
theorem mean_refuted : ¬ ∀ (w : W) (two a m : T w), linVal two = some 2 → a ≠ nar w.n → mean w two a a = .ok m → m = a := by
  intro h
  have := h .w16 0x4800#16 0x4001#16 0x4000#16 (by decide +kernel) (by decide) (by decide +kernel)
  exact absurd this (by decide)

end Takum
