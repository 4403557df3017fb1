import Verif.Lemmas.SymmetryCall
import Verif.Lemmas.IdealSym
import Verif.Lemmas.IdealInv

/-!
# C71: odd and even functions

`UFun.isOdd`, `UFun.isEven` (`SymSpec.lean`) list the odd and the even functions.  Hypotheses: the library has the special
values of Annex F (`Conforming`) and the symmetries of the real functions (`Symmetric`); the ideal library has both.
-/

namespace Takum
open Spec

/-- C71: odd functions of linear takums, bit for bit; 0 and NaR included. -/
theorem odd_lin (L : Libm) (hL : L.Conforming) (hS : L.Symmetric) (u : UFun) (hu : u.isOdd = true) (w : W) (t : T w) :
    ∃ v : T w, u.lin L w t = .ok v ∧ u.lin L w (-t) = .ok (-v) := by
  obtain ⟨a, b, ea, eb, h⟩ := call_odd hL hS hu .lin w t
  refine ⟨a, ea, ?_⟩
  rw [show -a = b from Eq.symm h]; exact eb

/-- C71: odd functions of logarithmic takums: exactly or next to it.  (The encoder drops the bits of `ℓ` below `2^(-64)`
downwards, so that the last bit of the result may depend on the sign.) -/
theorem odd_log (L : Libm) (hL : L.Conforming) (hS : L.Symmetric) (u : UFun) (hu : u.isOdd = true) (w : W) (t : T w) :
    ∃ a b : T w, u.log L w t = .ok a ∧ u.log L w (-t) = .ok b ∧
      (b = -a ∨ (a ≠ 0#w.n ∧ a ≠ nar w.n) ∧ (b ≠ 0#w.n ∧ b ≠ nar w.n) ∧ |a.toInt + b.toInt| ≤ 1) :=
  call_odd hL hS hu .log w t

/-- C71: even functions, bit for bit. -/
theorem even_lin (L : Libm) (hL : L.Conforming) (hS : L.Symmetric) (u : UFun) (hu : u.isEven = true) (w : W) (t : T w) :
    u.lin L w (-t) = u.lin L w t := call_even hL hS hu .lin w t

/-- C71: the same for logarithmic takums. -/
theorem even_log (L : Libm) (hL : L.Conforming) (hS : L.Symmetric) (u : UFun) (hu : u.isEven = true) (w : W) (t : T w) :
    u.log L w (-t) = u.log L w t := call_even hL hS hu .log w t

/-- C71: the functions with the factor `π`, linear takums, apart from the integers and half-integers (where C45 refutes it). -/
theorem pi_symmetric_lin (L : Libm) (hL : L.Conforming) (hS : L.Symmetric) (w : W) (t : T w) (x : ℚ) (hx : linVal t = some x)
    (hq : ∀ j : ℤ, 2 * x ≠ j) :
    (∀ u : UFun, u.isOddPi = true → ∃ v : T w, u.lin L w t = .ok v ∧ u.lin L w (-t) = .ok (-v)) ∧
    ∀ u : UFun, u.isEvenPi = true → u.lin L w (-t) = u.lin L w t := by
  have ht : t ≠ nar w.n := by
    rintro rfl
    unfold linVal at hx; rw [if_pos rfl] at hx; cases hx
  rw [linVal_qv ht] at hx
  injection hx with hx
  subst hx
  refine call_pi hL hS w ⟨?_, ht⟩ hq
  rintro rfl
  exact hq 0 (by rw [qv_zero]; norm_num)

/-- C71: the hypotenuse does not depend on the order and the signs of its arguments. -/
theorem hypotenuse_symmetric (L : Libm) (hL : L.Conforming) (hS : L.Symmetric) (k : Kind) (w : W) (a b : T w) :
    BFun.hypotenuse.call L k w b a = BFun.hypotenuse.call L k w a b ∧
    BFun.hypotenuse.call L k w (-a) b = BFun.hypotenuse.call L k w a b ∧
    BFun.hypotenuse.call L k w a (-b) = BFun.hypotenuse.call L k w a b := by
  obtain ⟨h1, h2⟩ := bcall_hypot hL hS k w a b
  obtain ⟨h3, -⟩ := bcall_hypot hL hS k w a (-b)
  obtain ⟨-, h4⟩ := bcall_hypot hL hS k w b a
  exact ⟨h1, h2, by rw [← h3, h4, h1]⟩

/-- C71: arctan2 and arctan2_over_pi are odd in a first argument other than 0, linear takums. -/
theorem arctan2_odd_lin (L : Libm) (hL : L.Conforming) (hS : L.Symmetric) (u : BFun) (hu : u = .arctan2 ∨ u = .arctan2_over_pi) (w : W)
    (a b : T w) (ha : a ≠ 0#w.n) : ∃ v : T w, u.lin L w a b = .ok v ∧ u.lin L w (-a) b = .ok (-v) := by
  obtain ⟨c, d, ec, ed, h⟩ := bcall_arctan2 hL hS hu .lin w b ha
  refine ⟨c, ec, ?_⟩
  rw [show -c = d from Eq.symm h]; exact ed

/-- C71: the same for logarithmic takums, exactly or next to it. -/
theorem arctan2_odd_log (L : Libm) (hL : L.Conforming) (hS : L.Symmetric) (u : BFun) (hu : u = .arctan2 ∨ u = .arctan2_over_pi) (w : W)
    (a b : T w) (ha : a ≠ 0#w.n) : ∃ c d : T w, u.log L w a b = .ok c ∧ u.log L w (-a) b = .ok d ∧
      (d = -c ∨ (c ≠ 0#w.n ∧ c ≠ nar w.n) ∧ (d ≠ 0#w.n ∧ d ≠ nar w.n) ∧ |c.toInt + d.toInt| ≤ 1) :=
  bcall_arctan2 hL hS hu .log w b ha

/-- The hypotheses can be met together. -/
example : ideal.Conforming ∧ ideal.Symmetric := ⟨ideal_conforming, ideal_symmetric⟩

/-- Eighteen odd functions, four even ones, six with the factor `π`. -/
example : UFun.sin.isOdd = true ∧ UFun.arcoth.isOdd = true ∧ UFun.sech.isEven = true ∧ UFun.tan_pi_times.isOddPi = true ∧
    linVal (0x4400#16 : T .w16) = some (3 / 2) ∧ (0x4400#16 : T .w16) ≠ 0#16 := by decide +kernel

/-- 5/4 meets the hypothesis of `pi_symmetric_lin`. -/
example : ∃ t : T .w16, linVal t = some (5 / 4) ∧ ∀ j : ℤ, 2 * (5 / 4 : ℚ) ≠ j := by
  refine ⟨0x4200#16, by decide +kernel, fun j h => ?_⟩
  have : (5 : ℤ) = 2 * j := by
    have h2 : (5 : ℚ) = 2 * j := by linarith
    exact_mod_cast h2
  omega

/-- The sine of a 32-bit linear takum, ideal library. -/
example (t : T .w32) : ∃ v : T .w32, UFun.sin.lin ideal .w32 t = .ok v ∧ UFun.sin.lin ideal .w32 (-t) = .ok (-v) :=
  odd_lin ideal ideal_conforming ideal_symmetric .sin rfl .w32 t

end Takum
