import Verif.Props.ProductPrecision

/-!
# C147: sums of numbers of one sign lose at most one bit of precision
-/

namespace Takum
open Spec

/-- The sums at the ends of the numbers with a regime of at most `R`. -/
def sumsOk (w : W) (R : ℕ) : Bool :=
  [false, true].all fun s => [false, true].all fun hi => within s (R + 1) (linAddition w (corner w R s hi) (corner w R s hi))

theorem sums_check : ∀ w, ∀ R < 7, (w = .w8 ∧ 3 ≤ R) ∨ sumsOk w R = true := by
  intro w; cases w <;> decide +kernel

theorem add_ordered {w : W} {a b a' b' : T w} (na : a ≠ nar w.n) (nb : b ≠ nar w.n) (na' : a' ≠ nar w.n) (nb' : b' ≠ nar w.n) (h1 : a.toInt ≤ a'.toInt)
    (h2 : b.toInt ≤ b'.toInt) : ∃ u v : T w, linAddition w a b = .ok u ∧ linAddition w a' b' = .ok v ∧ u.toInt ≤ v.toInt := by
  obtain ⟨x, hx⟩ := value_val .lin na
  obtain ⟨y, hy⟩ := value_val .lin nb
  obtain ⟨x', hx'⟩ := value_val .lin na'
  obtain ⟨y', hy'⟩ := value_val .lin nb'
  exact lin_operations_ordered w (.add a b) (.add a' b') _ _ (.add hx hy) (.add hx' hy')
    (add_le_add ((value_order .lin hx hx').mp h1) ((value_order .lin hy hy').mp h2))

/-- C147. The sum of two linear takums of the same sign, neither of them zero or NaR, has at least the precision of the less precise of the two, less one
bit. -/
theorem sum_precision (w : W) (a b c : T w) (p q s : ℕ) (ha : Regular a) (hb : Regular b) (hab : a.msb = b.msb) (h : linAddition w a b = .ok c)
    (hp : precision w a = .ok p) (hq : precision w b = .ok q) (hs : precision w c = .ok s) : min p q ≤ s + 1 := by
  have h8 := w.n_pos
  refine precision_loss hp hq hs ?_
  by_cases hR : max (rr (dr a)) (rr (dr b)) ≤ 6
  · generalize hRe : max (rr (dr a)) (rr (dr b)) = R at hR ⊢
    have la := corner_between (t := a) hR (by omega)
    have lb := corner_between (t := b) hR (by omega)
    rw [← hab] at lb
    refine (sums_check w R (by omega)).imp_right fun hc => ?_
    have hc := List.all_eq_true.mp hc a.msb (by cases a.msb <;> decide)
    have c1 := List.all_eq_true.mp hc false (by decide)
    have c2 := List.all_eq_true.mp hc true (by decide)
    have n1 := (corner_low w hR a.msb false).2.2.2
    have n2 := (corner_low w hR a.msb true).2.2.2
    obtain ⟨u, v, e1, e2, o1⟩ := add_ordered n1 n1 ha.2 hb.2 la.1 lb.1
    obtain ⟨v', u', e3, e4, o2⟩ := add_ordered ha.2 hb.2 n2 n2 la.2 lb.2
    rw [h] at e2 e3
    cases e2
    cases e3
    rw [e1] at c1
    rw [e4] at c2
    exact within_between (by omega) c1 c2 o1 o2
  · have := rr_le _ (dr_lt (by omega) c)
    right
    omega

/-- The bit can be lost: 1.5 + 1.5. Numbers of different signs can lose all of them: with 16 bits, 1.5 has eleven bits, but the difference to the number
above it, 2^-11, has eight. -/
theorem sum_precision_sharp : linAddition .w16 0x4400#16 0x4400#16 = .ok 0x4a00#16 ∧ precision .w16 0x4400#16 = .ok 11 ∧ precision .w16 0x4a00#16 = .ok 10 ∧
    linSubtraction .w16 0x4401#16 0x4400#16 = .ok 0x2400#16 ∧ precision .w16 0x4401#16 = .ok 11 ∧ precision .w16 0x2400#16 = .ok 8 := by
  decide +kernel

end Takum
