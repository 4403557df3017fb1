import Verif.Props.Ordered
import Verif.Props.Monotone
import Verif.Props.LogAdd
import Verif.Lemmas.SymmetryCall
import Verif.Lemmas.IdealMono
import Verif.Props.BitOps

/-!
# C130: absolute value and sign in calculations

`|ab| = |a| |b|`, `|a/b| = |a| / |b|`, `sign(ab) = sign(a) sign(b)`, `sign(a/b) = sign(a) / sign(b)` bit for bit; the triangle inequalities hold
after rounding.
-/

namespace Takum
open Spec

/-- `takumN_multiplication` and `takum_linearN_multiplication` (`src/multiplication.c`). -/
def mulCall : Kind → (w : W) → T w → T w → C (T w)
  | .log => multiplication
  | .lin => linMultiplication

/-- `takumN_division` and `takum_linearN_division` (`src/division.c`). -/
def divCall : Kind → (w : W) → T w → T w → C (T w)
  | .log => division
  | .lin => linDivision

theorem nar_neg (w : W) : -nar w.n = nar w.n := by cases w <;> decide

theorem mulCall_comm (k : Kind) (w : W) (a b : T w) : mulCall k w a b = mulCall k w b a := by
  cases k
  · exact multiplication_comm w a b
  · exact (lin_multiplication_laws w a b).1

theorem mulCall_special (k : Kind) (w : W) (a : T w) :
    mulCall k w a (nar w.n) = .ok (nar w.n) ∧ (a ≠ nar w.n → mulCall k w a 0#w.n = .ok 0#w.n) ∧ mulCall k w a (ONE w) = .ok a := by
  cases k
  · exact ⟨(multiplication_special w a).1, (multiplication_special w a).2, multiplication_one w a⟩
  · obtain ⟨-, h1, h2, h3, -⟩ := lin_multiplication_laws w a a
    exact ⟨h3, h2, h1⟩

theorem mulCall_neg (k : Kind) (w : W) (a b : T w) : ∃ v : T w, mulCall k w a b = .ok v ∧ mulCall k w (-a) b = .ok (-v) := by
  cases k
  · have e0 : -(0#w.n) = 0#w.n := by simp
    by_cases hb : b = nar w.n
    · subst hb; exact ⟨_, (mulCall_special .log w a).1, by rw [nar_neg]; exact (mulCall_special .log w _).1⟩
    by_cases ha : a = nar w.n
    · subst ha
      refine ⟨nar w.n, by rw [mulCall_comm]; exact (mulCall_special .log w b).1, ?_⟩
      rw [nar_neg, mulCall_comm]; exact (mulCall_special .log w b).1
    by_cases hb0 : b = 0#w.n
    · subst hb0
      exact ⟨_, (mulCall_special .log w a).2.1 ha, by rw [e0]; exact (mulCall_special .log w _).2.1 (neg_ne_nar ha)⟩
    by_cases ha0 : a = 0#w.n
    · subst ha0
      refine ⟨0#w.n, by rw [mulCall_comm]; exact (mulCall_special .log w b).2.1 hb, ?_⟩
      rw [e0, mulCall_comm]; exact (mulCall_special .log w b).2.1 hb
    exact (multiplication_neg_left w a b ⟨ha0, ha⟩ ⟨hb0, hb⟩).1
  · exact (lin_multiplication_laws w a b).2.2.2.2

/-- The product is neither NaR nor 0 and obeys the rule of signs. -/
theorem mulCall_regular (k : Kind) (w : W) {a b : T w} (ha : Regular a) (hb : Regular b) :
    ∃ v : T w, mulCall k w a b = .ok v ∧ Regular v ∧ v.msb = (a.msb ^^ b.msb) := by
  have h8 := w.n_pos
  have key : ∀ v : T w, Regular v → (v.toInt < 0 ↔ (a.toInt < 0 ↔ ¬ b.toInt < 0)) → v.msb = (a.msb ^^ b.msb) := by
    intro v hv h
    rw [isNeg_iff, isNeg_iff, isNeg_iff] at h
    revert h
    cases v.msb <;> cases a.msb <;> cases b.msb <;> simp
  cases k
  · obtain ⟨v, e, r, h⟩ := multiplication_sign w a b ha hb
    refine ⟨v, e, r, key v r (h.trans ?_)⟩
    have : b.toInt ≠ 0 := fun h => hb.1 (BitVec.eq_of_toInt_eq (by rw [h]; simp))
    constructor <;> intro h <;> rw [h] <;> omega
  · obtain ⟨v, e, r, h⟩ := lin_multiplication_regular w a b ha hb
    exact ⟨v, e, r, key v r h⟩

theorem divCall_neg (k : Kind) (w : W) (a b : T w) :
    ∃ v : T w, divCall k w a b = .ok v ∧ divCall k w (-a) b = .ok (-v) ∧ divCall k w a (-b) = .ok (-v) := by
  have h8 := w.n_pos
  cases k
  · obtain ⟨v, e1, e2⟩ := mulCall_neg .log w a (inversion w b)
    refine ⟨v, (division_eq w a b).trans e1, (division_eq w (-a) b).trans e2, (division_eq w a (-b)).trans ?_⟩
    obtain ⟨v', e1', e2'⟩ := mulCall_neg .log w (inversion w b) a
    rw [mulCall_comm, e1] at e1'
    obtain rfl := Except.ok.inj e1'
    have : inversion w (-b) = -inversion w b := by
      by_cases h0 : b = 0#w.n
      · subst h0; rw [show -(0#w.n) = 0#w.n by simp, inversion_zero, nar_neg]
      by_cases h1 : b = nar w.n
      · subst h1; rw [nar_neg, inversion_nar, nar_neg]
      exact (inversion_exact b ⟨h0, h1⟩).2.2.2.2
    rw [this]
    exact (mulCall_comm .log w a _).trans e2'
  · exact (lin_division_laws w a b).2.2.2.2.2.2

/-- What `sign` returns, by cases. -/
theorem sign_cases (w : W) (t : T w) :
    (t = nar w.n → sign w t = nar w.n) ∧ (t = 0#w.n → sign w t = 0#w.n) ∧ (Regular t → sign w t = if t.msb then -ONE w else ONE w) := by
  have h8 := w.n_pos
  unfold sign
  rw [NAR_eq (by omega), isNeg_eq, isPos_eq]
  refine ⟨fun h => if_pos h, ?_, fun h => ?_⟩
  · rintro rfl; rw [if_neg (zero_ne_nar w)]; simp
  · rw [if_neg h.2]
    have hz : (t != 0#w.n) = true := by simpa using h.1
    rw [hz]; cases t.msb <;> simp


theorem absolute_cases {w : W} {t : T w} (h : t ≠ nar w.n) : absolute w t = .ok t ∧ t.msb = false ∨ absolute w t = .ok (-t) ∧ t.msb = true := by
  have := absolute_spec h
  cases hm : t.msb <;> rw [hm] at this
  · exact .inl ⟨this, rfl⟩
  · exact .inr ⟨this, rfl⟩

theorem absolute_even {w : W} {t : T w} (h : t ≠ nar w.n) : absolute w (-t) = absolute w t := by
  have h8 := w.n_pos
  by_cases h0 : t = 0#w.n
  · subst h0; simp
  obtain ⟨m1, -, m3, -⟩ := regular_neg (by omega) ⟨h0, h⟩
  rw [absolute_spec h, absolute_spec m3.2, m1]
  cases t.msb <;> simp

/-- C130: the absolute value of a product is the product of the absolute values, bit for bit. -/
theorem absolute_multiplication (k : Kind) (w : W) (a b : T w) (ha : a ≠ nar w.n) (hb : b ≠ nar w.n) :
    ∃ a' b' v v' : T w, absolute w a = .ok a' ∧ absolute w b = .ok b' ∧ mulCall k w a b = .ok v ∧ absolute w v = .ok v' ∧
      mulCall k w a' b' = .ok v' := by
  have h8 := w.n_pos
  have e0 : -(0#w.n) = 0#w.n := by simp
  have ab0 : absolute w 0#w.n = .ok 0#w.n := by rw [absolute_spec (zero_ne_nar w)]; simp
  have np : ∀ {t t' : T w}, t ≠ nar w.n → absolute w t = .ok t' → t' ≠ nar w.n := fun {t t'} ht e => by
    rcases absolute_cases ht with ⟨h, -⟩ | ⟨h, -⟩ <;> rw [h] at e <;> obtain rfl := Except.ok.inj e
    · exact ht
    · exact neg_ne_nar ht
  obtain ⟨a', ea⟩ : ∃ a', absolute w a = .ok a' := ⟨_, absolute_spec ha⟩
  obtain ⟨b', eb⟩ : ∃ b', absolute w b = .ok b' := ⟨_, absolute_spec hb⟩
  by_cases ha0 : a = 0#w.n
  · subst ha0
    obtain rfl := Except.ok.inj (ab0.symm.trans ea)
    refine ⟨_, _, _, _, ab0, eb, by rw [mulCall_comm]; exact (mulCall_special k w b).2.1 hb, ab0, ?_⟩
    rw [mulCall_comm]; exact (mulCall_special k w b').2.1 (np hb eb)
  by_cases hb0 : b = 0#w.n
  · subst hb0
    obtain rfl := Except.ok.inj (ab0.symm.trans eb)
    exact ⟨_, _, _, _, ea, ab0, (mulCall_special k w a).2.1 ha, ab0, (mulCall_special k w a').2.1 (np ha ea)⟩
  obtain ⟨v, ev, rv, sv⟩ := mulCall_regular k w ⟨ha0, ha⟩ ⟨hb0, hb⟩
  obtain ⟨v', ev', n1⟩ := mulCall_neg k w a b
  obtain rfl := Except.ok.inj (ev.symm.trans ev')
  have n2 : mulCall k w a (-b) = .ok (-v) := by
    obtain ⟨u, e1, e2⟩ := mulCall_neg k w b a
    rw [mulCall_comm, ev] at e1
    obtain rfl := Except.ok.inj e1
    rw [mulCall_comm]; exact e2
  have n3 : mulCall k w (-a) (-b) = .ok v := by
    obtain ⟨u, e1, e2⟩ := mulCall_neg k w b (-a)
    rw [mulCall_comm, n1] at e1
    obtain rfl := Except.ok.inj e1
    rw [mulCall_comm, e2, BitVec.neg_neg]
  refine ⟨a', b', v, _, ea, eb, ev, absolute_spec rv.2, ?_⟩
  rcases absolute_cases ha with ⟨h, hm⟩ | ⟨h, hm⟩ <;> rcases absolute_cases hb with ⟨h', hm'⟩ | ⟨h', hm'⟩ <;>
    obtain rfl := Except.ok.inj (h.symm.trans ea) <;> obtain rfl := Except.ok.inj (h'.symm.trans eb) <;> rw [sv, hm, hm']
  · exact ev
  · exact n2
  · exact n1
  · exact n3

/-- C130: the absolute value of a quotient is the quotient of the absolute values, bit for bit. -/
theorem absolute_division (k : Kind) (w : W) (a b : T w) (ha : a ≠ nar w.n) (hb : b ≠ nar w.n) (hb0 : b ≠ 0#w.n) :
    ∃ a' b' v v' : T w, absolute w a = .ok a' ∧ absolute w b = .ok b' ∧ divCall k w a b = .ok v ∧ absolute w v = .ok v' ∧
      divCall k w a' b' = .ok v' := by
  have h8 := w.n_pos
  obtain ⟨v, ev, n1, n2⟩ := divCall_neg k w a b
  obtain ⟨v', ev', -, n3⟩ := divCall_neg k w (-a) b
  obtain rfl := Except.ok.inj (n1.symm.trans ev')
  rw [BitVec.neg_neg] at n3
  -- the quotient of positive numbers is not negative
  have pos : ∃ a' b' u : T w, absolute w a = .ok a' ∧ absolute w b = .ok b' ∧ divCall k w a' b' = .ok u ∧ u ≠ nar w.n ∧ u.msb = false := by
    have abs_ok : ∀ {t : T w}, t ≠ nar w.n → ∃ t', absolute w t = .ok t' ∧ t' ≠ nar w.n ∧ t'.msb = false ∧ (t ≠ 0#w.n → t' ≠ 0#w.n) := by
      intro t ht
      by_cases t0 : t = 0#w.n
      · subst t0; exact ⟨0#w.n, by rw [absolute_spec ht]; simp, ht, by simp, fun h => h⟩
      rcases absolute_cases ht with ⟨h, hm⟩ | ⟨h, hm⟩
      · exact ⟨t, h, ht, hm, fun h => h⟩
      · obtain ⟨m1, -, m3, -⟩ := regular_neg (by omega) ⟨t0, ht⟩
        exact ⟨-t, h, m3.2, by rw [m1, hm]; rfl, fun _ => m3.1⟩
    obtain ⟨a', ea, na, ma, -⟩ := abs_ok ha
    obtain ⟨b', eb, nb, mb, zb⟩ := abs_ok hb
    have rb : Regular b' := ⟨zb hb0, nb⟩
    by_cases a0 : a' = 0#w.n
    · subst a0
      refine ⟨_, b', 0#w.n, ea, eb, ?_, na, by simp⟩
      cases k
      · exact (division_special w b').2.2.2.1 rb
      · exact (lin_division_laws w b' b').2.2.2.1 rb
    · have ra : Regular a' := ⟨a0, na⟩
      have ia : ¬ a'.toInt < 0 := by rw [isNeg_iff, ma]; decide
      have ib : ¬ b'.toInt < 0 := by rw [isNeg_iff, mb]; decide
      have ib' : 0 < b'.toInt := by
        have : b'.toInt ≠ 0 := fun h => rb.1 (BitVec.eq_of_toInt_eq (by rw [h]; simp))
        omega
      have fin : ∀ u : T w, ¬ u.toInt < 0 → u.msb = false := fun u h => by rw [isNeg_iff] at h; simpa using h
      cases k
      · obtain ⟨u, eu, ru, hu⟩ := division_sign w a' b' ra rb
        exact ⟨a', b', u, ea, eb, eu, ru.2, fin u fun h => by have := hu.mp h; tauto⟩
      · obtain ⟨u, eu, ru, hu⟩ := lin_division_regular w a' b' ra rb
        exact ⟨a', b', u, ea, eb, eu, ru.2, fin u fun h => by have := hu.mp h; tauto⟩
  obtain ⟨a', b', u, ea, eb, eu, nu, mu⟩ := pos
  have au : absolute w u = .ok u := by rw [absolute_spec nu, mu]; rfl
  have hv : u = v ∨ u = -v := by
    rcases absolute_cases ha with ⟨h, -⟩ | ⟨h, -⟩ <;> rcases absolute_cases hb with ⟨h', -⟩ | ⟨h', -⟩ <;>
      obtain rfl := Except.ok.inj (h.symm.trans ea) <;> obtain rfl := Except.ok.inj (h'.symm.trans eb)
    · exact .inl (Except.ok.inj (eu.symm.trans ev))
    · exact .inr (Except.ok.inj (eu.symm.trans n2))
    · exact .inr (Except.ok.inj (eu.symm.trans n1))
    · exact .inl (Except.ok.inj (eu.symm.trans n3))
  have hvn : v ≠ nar w.n := by
    rcases hv with h | h
    · rw [← h]; exact nu
    · rintro rfl; rw [nar_neg] at h; exact nu h
  refine ⟨a', b', v, u, ea, eb, ev, ?_, eu⟩
  rcases hv with h | h
  · rw [← h]; exact au
  · rw [← absolute_even hvn, ← h]; exact au

/-- C130: the sign of a product is the product of the signs, for every pair of bit patterns. -/
theorem sign_multiplication (k : Kind) (w : W) (a b : T w) :
    ∃ v : T w, mulCall k w a b = .ok v ∧ mulCall k w (sign w a) (sign w b) = .ok (sign w v) := by
  have h8 := w.n_pos
  by_cases hb : b = nar w.n
  · subst hb
    refine ⟨_, (mulCall_special k w a).1, ?_⟩
    rw [(sign_cases w _).1 rfl]; exact (mulCall_special k w _).1
  by_cases ha : a = nar w.n
  · subst ha
    refine ⟨_, by rw [mulCall_comm]; exact (mulCall_special k w b).1, ?_⟩
    rw [(sign_cases w _).1 rfl, mulCall_comm]; exact (mulCall_special k w _).1
  have sn : ∀ {t : T w}, t ≠ nar w.n → sign w t ≠ nar w.n := fun {t} ht => by
    by_cases h0 : t = 0#w.n
    · rw [(sign_cases w t).2.1 h0]; exact zero_ne_nar w
    · rw [(sign_cases w t).2.2 ⟨h0, ht⟩]
      obtain ⟨-, -, o3, -⟩ := ONE_facts w
      split
      · exact neg_ne_nar o3.2
      · exact o3.2
  by_cases hb0 : b = 0#w.n
  · subst hb0
    refine ⟨_, (mulCall_special k w a).2.1 ha, ?_⟩
    rw [(sign_cases w 0#w.n).2.1 rfl]; exact (mulCall_special k w _).2.1 (sn ha)
  by_cases ha0 : a = 0#w.n
  · subst ha0
    refine ⟨_, by rw [mulCall_comm]; exact (mulCall_special k w b).2.1 hb, ?_⟩
    rw [(sign_cases w 0#w.n).2.1 rfl, mulCall_comm]; exact (mulCall_special k w _).2.1 (sn hb)
  obtain ⟨v, ev, rv, sv⟩ := mulCall_regular k w ⟨ha0, ha⟩ ⟨hb0, hb⟩
  refine ⟨v, ev, ?_⟩
  rw [(sign_cases w a).2.2 ⟨ha0, ha⟩, (sign_cases w b).2.2 ⟨hb0, hb⟩, (sign_cases w v).2.2 rv, sv]
  have o := fun t : T w => (mulCall_special k w t).2.2
  have o' : ∀ t : T w, mulCall k w t (-ONE w) = .ok (-t) := fun t => by
    obtain ⟨u, e1, e2⟩ := mulCall_neg k w (ONE w) t
    rw [mulCall_comm, o] at e1
    obtain rfl := Except.ok.inj e1
    rw [mulCall_comm]; exact e2
  cases a.msb <;> cases b.msb <;> simp [o, o']

/-- C130: the sign of a quotient is the quotient of the signs, for every pair of bit patterns. -/
theorem sign_division (k : Kind) (w : W) (a b : T w) :
    ∃ v : T w, divCall k w a b = .ok v ∧ divCall k w (sign w a) (sign w b) = .ok (sign w v) := by
  have h8 := w.n_pos
  have dn : ∀ t : T w, divCall k w t 0#w.n = .ok (nar w.n) ∧ divCall k w t (nar w.n) = .ok (nar w.n) ∧ divCall k w (nar w.n) t = .ok (nar w.n) ∧
      (Regular t → divCall k w 0#w.n t = .ok 0#w.n) ∧ divCall k w t (ONE w) = .ok t := fun t => by
    cases k
    · exact division_special w t
    · obtain ⟨h1, h2, h3, h4, h5, -⟩ := lin_division_laws w t t
      exact ⟨h1, h2, h3, h4, h5⟩
  obtain ⟨-, -, o3, -⟩ := ONE_facts w
  have sr : ∀ {t : T w}, Regular t → Regular (sign w t) := fun {t} ht => by
    rw [(sign_cases w t).2.2 ht]
    split
    · exact (regular_neg (by omega) o3).2.2.1
    · exact o3
  by_cases hb : b = nar w.n
  · subst hb
    refine ⟨_, (dn a).2.1, ?_⟩
    rw [(sign_cases w _).1 rfl]; exact (dn _).2.1
  by_cases ha : a = nar w.n
  · subst ha
    refine ⟨_, (dn b).2.2.1, ?_⟩
    rw [(sign_cases w _).1 rfl]; exact (dn _).2.2.1
  by_cases hb0 : b = 0#w.n
  · subst hb0
    refine ⟨_, (dn a).1, ?_⟩
    rw [(sign_cases w 0#w.n).2.1 rfl, (sign_cases w (nar w.n)).1 rfl]; exact (dn _).1
  by_cases ha0 : a = 0#w.n
  · subst ha0
    refine ⟨_, (dn b).2.2.2.1 ⟨hb0, hb⟩, ?_⟩
    rw [(sign_cases w 0#w.n).2.1 rfl]; exact (dn _).2.2.2.1 (sr ⟨hb0, hb⟩)
  have ra : Regular a := ⟨ha0, ha⟩
  have rb : Regular b := ⟨hb0, hb⟩
  have key : ∃ v : T w, divCall k w a b = .ok v ∧ Regular v ∧ v.msb = (a.msb ^^ b.msb) := by
    have key : ∀ v : T w, (v.toInt < 0 ↔ (a.toInt < 0 ↔ ¬ b.toInt < 0)) → v.msb = (a.msb ^^ b.msb) := by
      intro v h
      rw [isNeg_iff, isNeg_iff, isNeg_iff] at h
      revert h
      cases v.msb <;> cases a.msb <;> cases b.msb <;> simp
    cases k
    · obtain ⟨v, e, r, h⟩ := division_sign w a b ra rb
      refine ⟨v, e, r, key v (h.trans ?_)⟩
      have : b.toInt ≠ 0 := fun h => hb0 (BitVec.eq_of_toInt_eq (by rw [h]; simp))
      constructor <;> intro h <;> rw [h] <;> omega
    · obtain ⟨v, e, r, h⟩ := lin_division_regular w a b ra rb
      exact ⟨v, e, r, key v h⟩
  obtain ⟨v, ev, rv, sv⟩ := key
  refine ⟨v, ev, ?_⟩
  rw [(sign_cases w a).2.2 ra, (sign_cases w b).2.2 rb, (sign_cases w v).2.2 rv, sv]
  have o := fun t : T w => (dn t).2.2.2.2
  have o' : ∀ t : T w, divCall k w t (-ONE w) = .ok (-t) := fun t => by
    obtain ⟨u, e1, -, e2⟩ := divCall_neg k w t (ONE w)
    rw [o] at e1
    obtain rfl := Except.ok.inj e1
    exact e2
  cases a.msb <;> cases b.msb <;> simp [o, o']

/-- The absolute value of a rounded number is the rounded absolute value. -/
theorem absolute_linEnc {w : W} {z : ℝ} (iz : w.src.fmt.In (w.src.fmt.rq z)) :
    absolute w (linEnc w (w.src.fmt.rq z)) = .ok (linEnc w (w.src.fmt.rq |z|)) := by
  have h8 := w.n_pos
  have i0 : w.src.fmt.In (0 : ℚ) := ⟨Fmt.Rep.zero _, by rw [abs_zero]; positivity⟩
  have key : ∀ {y : ℝ}, 0 ≤ y → w.src.fmt.In (w.src.fmt.rq y) → absolute w (linEnc w (w.src.fmt.rq y)) = .ok (linEnc w (w.src.fmt.rq y)) := by
    intro y hy iy
    obtain ⟨n1, -⟩ := linEnc_facts iy
    rcases absolute_cases n1 with ⟨ea, -⟩ | ⟨-, hm⟩
    · exact ea
    · have h0 : (0 : ℚ) ≤ w.src.fmt.rq y := by
        have := Fmt.rq_mono w.src.fmt (src_prec w) hy
        rwa [show w.src.fmt.rq (0 : ℝ) = 0 by
          rw [← Rat.cast_zero, Fmt.rq_cast, w.src.fmt.rq_of_rep (Fmt.Rep.zero _)]] at this
      have := linEnc_mono i0 iy h0
      rw [linEnc_zero] at this
      rw [← isNeg_iff] at hm
      simp at this
      omega
  rcases le_total 0 z with h | h
  · rw [abs_of_nonneg h]; exact key h iz
  · have i2 : w.src.fmt.In (w.src.fmt.rq (-z)) := by rw [Fmt.rq_neg]; exact In_neg iz
    have := key (neg_nonneg.mpr h) i2
    rw [abs_of_nonpos h, ← this, Fmt.rq_neg, linEnc_neg iz, absolute_even (linEnc_facts iz).1]

/-- C130: an inequality between the absolute values of the exact results of two calls on linear takums carries over to what is returned. -/
theorem lin_absolute_ordered (w : W) (p q : LinOp w) (x y : ℝ) (hx : p.Exact x) (hy : q.Exact y) (h : |x| ≤ |y|) :
    ∃ s s' u u' : T w, p.run = .ok s ∧ absolute w s = .ok s' ∧ q.run = .ok u ∧ absolute w u = .ok u' ∧ s'.toInt ≤ u'.toInt ∧ (0 ≤ y → u' = u) := by
  obtain ⟨e1, i1⟩ := hx.enc
  obtain ⟨e2, i2⟩ := hy.enc
  have ia : ∀ {z : ℝ}, w.src.fmt.In (w.src.fmt.rq z) → w.src.fmt.In (w.src.fmt.rq |z|) := fun {z} iz => by
    rcases abs_choice z with h | h <;> rw [h]
    · exact iz
    · rw [Fmt.rq_neg]; exact In_neg iz
  exact ⟨_, _, _, _, e1, absolute_linEnc i1, e2, absolute_linEnc i2, linEnc_mono (ia i1) (ia i2) (Fmt.rq_mono _ (src_prec w) h),
    fun h => by rw [abs_of_nonneg h]⟩

/-- C130: the triangle inequality and its reverse hold for rounded sums and differences of linear takums. -/
theorem lin_triangle (w : W) (a b : T w) (ha : a ≠ nar w.n) (hb : b ≠ nar w.n) :
    ∃ a' b' s s' d d' u e e' : T w, absolute w a = .ok a' ∧ absolute w b = .ok b' ∧
      linAddition w a b = .ok s ∧ absolute w s = .ok s' ∧ linSubtraction w a b = .ok d ∧ absolute w d = .ok d' ∧
      linAddition w a' b' = .ok u ∧ linSubtraction w a' b' = .ok e ∧ absolute w e = .ok e' ∧
      s'.toInt ≤ u.toInt ∧ d'.toInt ≤ u.toInt ∧ e'.toInt ≤ s'.toInt ∧ e'.toInt ≤ d'.toInt := by
  have h8 := w.n_pos
  obtain ⟨a', ea, -, va, -⟩ := absolute_value_partial w a ha
  obtain ⟨b', eb, -, vb, -⟩ := absolute_value_partial w b hb
  rw [linVal_qv ha] at va
  rw [linVal_qv hb] at vb
  have xa := value_lin (linVal_qv ha)
  have xb := value_lin (linVal_qv hb)
  have xa' := value_lin (show linVal a' = some |qv a| from va)
  have xb' := value_lin (show linVal b' = some |qv b| from vb)
  push_cast at xa' xb'
  have nn : (0 : ℝ) ≤ |(qv a : ℝ)| + |(qv b : ℝ)| := by positivity
  obtain ⟨s, s', u, u', e1, e2, e3, -, l1, hu⟩ :=
    lin_absolute_ordered w _ _ _ _ (.add xa xb) (.add xa' xb') ((abs_add_le _ _).trans (le_abs_self _))
  obtain rfl := hu nn
  obtain ⟨d, d', v, v', e5, e6, e7, -, l2, hv⟩ :=
    lin_absolute_ordered w _ _ _ _ (.sub xa xb) (.add xa' xb') ((abs_sub _ _).trans (le_abs_self _))
  obtain rfl := hv nn
  obtain rfl := Except.ok.inj (e3.symm.trans e7)
  obtain ⟨e, e', z, z', e9, e10, e11, e12, l3, -⟩ :=
    lin_absolute_ordered w _ _ _ _ (.sub xa' xb') (.sub xa xb) (abs_abs_sub_abs_le _ _)
  obtain rfl := Except.ok.inj (e5.symm.trans e11)
  obtain rfl := Except.ok.inj (e6.symm.trans e12)
  obtain ⟨f, f', y, y', e13, e14, e15, e16, l4, -⟩ :=
    lin_absolute_ordered w _ _ _ _ (.sub xa' xb') (.add xa xb) (by
      have := abs_abs_sub_abs_le (qv a : ℝ) (-(qv b : ℝ))
      rwa [abs_neg, sub_neg_eq_add] at this)
  obtain rfl := Except.ok.inj (e1.symm.trans e15)
  obtain rfl := Except.ok.inj (e2.symm.trans e16)
  obtain rfl := Except.ok.inj (e9.symm.trans e13)
  obtain rfl := Except.ok.inj (e10.symm.trans e14)
  exact ⟨a', b', _, _, _, _, _, _, _, ea, eb, e1, e2, e5, e6, e3, e9, e10, l1, l2, l4, l3⟩

/-- C130: the triangle inequality for logarithmic takums, up to one unit: their sum need not be odd. -/
theorem log_triangle {L : Libm} (hL : L.Conforming) (hA : L.Accurate) (hm : Increasing L.log) (w : W) (a b : T w) (ha : a ≠ nar w.n) (hb : b ≠ nar w.n) :
    ∃ a' b' s s' u : T w, absolute w a = .ok a' ∧ absolute w b = .ok b' ∧ addition L w a b = .ok s ∧ absolute w s = .ok s' ∧
      addition L w a' b' = .ok u ∧ s.toInt ≤ u.toInt ∧ s'.toInt ≤ u.toInt + 1 := by
  have h8 := w.n_pos
  have abs_ge : ∀ {t : T w}, t ≠ nar w.n → ∃ t', absolute w t = .ok t' ∧ t' ≠ nar w.n ∧ t.toInt ≤ t'.toInt ∧ (-t).toInt ≤ t'.toInt := by
    intro t ht
    have hn := toInt_neg_nar (by omega) ht
    rcases absolute_cases ht with ⟨h, hm⟩ | ⟨h, hm⟩
    · have : ¬ t.toInt < 0 := by rw [isNeg_iff, hm]; decide
      exact ⟨t, h, ht, le_rfl, by omega⟩
    · rw [← isNeg_iff] at hm
      exact ⟨-t, h, neg_ne_nar ht, by omega, le_rfl⟩
  obtain ⟨a', ea, na, a1, a2⟩ := abs_ge ha
  obtain ⟨b', eb, nb, b1, b2⟩ := abs_ge hb
  have le : ∀ {x y : T w}, x ≠ nar w.n → y ≠ nar w.n → x.toInt ≤ a'.toInt → y.toInt ≤ b'.toInt →
      ∃ s u : T w, addition L w x y = .ok s ∧ addition L w a' b' = .ok u ∧ s.toInt ≤ u.toInt := by
    intro x y hx hy lx ly
    obtain ⟨⟨s, m, e1, e2, l1⟩, -⟩ := log_addition_monotone L hL.powers hA hL.logs hm w x a' y hx na hy lx
    obtain ⟨-, ⟨m', u, e3, e4, l2⟩, -⟩ := log_addition_monotone L hL.powers hA hL.logs hm w y b' a' hy nb na ly
    obtain rfl := Except.ok.inj (e2.symm.trans e3)
    exact ⟨s, u, e1, e4, l1.trans l2⟩
  obtain ⟨s, u, e1, e2, l1⟩ := le ha hb a1 b1
  obtain ⟨r, u', e3, e4, l2⟩ := le (neg_ne_nar ha) (neg_ne_nar hb) a2 b2
  obtain rfl := Except.ok.inj (e2.symm.trans e4)
  obtain ⟨f, i, ef, nf⟩ := addition_eq hL.powers ha hb
  obtain ⟨g, j, eg, -⟩ := addition_eq hL.powers (neg_ne_nar ha) (neg_ne_nar hb)
  have hs : s ≠ nar w.n := by
    obtain ⟨x, hx⟩ := value_some (k := .log) ha
    obtain ⟨y, hy⟩ := value_some (k := .log) hb
    obtain ⟨z, ez, nz, -⟩ := log_addition_sign L hL.powers hA hL.specials hL.logs w a b x y hx hy
    obtain rfl := Except.ok.inj (e1.symm.trans ez)
    exact nz
  have hop : r = -s ∨ |s.toInt + r.toInt| ≤ 1 := by
    rw [xv_neg hL.powers hL.specials (by decide) ha, xv_neg hL.powers hL.specials (by decide) hb, ← neg_add, Fmt.rq_neg] at j
    rw [logFrom_is j i.neg] at eg
    obtain ⟨p, q, ep, eq, ho⟩ := kFrom_neg hL .log w (fl_in_of_is i nf)
    obtain rfl := Except.ok.inj (e1.symm.trans (ef.trans ep))
    obtain rfl := Except.ok.inj (e3.symm.trans (eg.trans eq))
    exact ho.imp_right fun h => h.2.2
  have hn := toInt_neg_nar (by omega) hs
  have hr : (-s).toInt ≤ r.toInt + 1 := by
    rcases hop with h | h
    · rw [h]; omega
    · rw [abs_le] at h; omega
  rcases absolute_cases hs with ⟨h, -⟩ | ⟨h, -⟩
  · exact ⟨a', b', s, s, u, ea, eb, e1, h, e2, l1, by omega⟩
  · exact ⟨a', b', s, -s, u, ea, eb, e1, h, e2, l1, by omega⟩

/-- Non-vacuity: -3 and 5 as linear takum16; the quotient of -8 by 5 and its sign; arguments of the triangle inequality of both signs. -/
example : (-0x4A00#16 : T .w16) ≠ nar 16 ∧ (0x4D00#16 : T .w16) ≠ nar 16 ∧ (0x4D00#16 : T .w16) ≠ 0#16 ∧
    linVal (-0x4A00#16) = some (-3) ∧ linVal (0x4D00#16) = some 5 ∧ absolute .w16 (-0x4A00#16) = .ok 0x4A00#16 ∧
    sign .w16 (-0x4A00#16) = -0x4000#16 := by decide +kernel

example : ∃ s s' u u' : T .w16, linAddition .w16 0x4D00#16 (-0x4A00#16) = .ok s ∧ absolute .w16 s = .ok s' ∧
    linAddition .w16 (-0x4A00#16) (-0x4A00#16) = .ok u ∧ absolute .w16 u = .ok u' ∧ s'.toInt ≤ u'.toInt ∧ ((0 : ℝ) ≤ -3 + -3 → u' = u) := by
  have h3 : value .lin (-0x4A00#16 : T .w16) = some (-3) := by
    have := value_lin (show linVal (-0x4A00#16 : T .w16) = some (-3) by decide +kernel); exact_mod_cast this
  have h5 : value .lin (0x4D00#16 : T .w16) = some 5 := by
    have := value_lin (show linVal (0x4D00#16 : T .w16) = some 5 by decide +kernel); exact_mod_cast this
  exact lin_absolute_ordered .w16 (.add 0x4D00#16 (-0x4A00#16)) (.add (-0x4A00#16) (-0x4A00#16)) _ _ (.add h5 h3) (.add h3 h3) (by norm_num)

example : ideal.Conforming ∧ ideal.Accurate ∧ Increasing ideal.log := ⟨ideal_conforming, ideal_accurate, im_log⟩

end Takum
