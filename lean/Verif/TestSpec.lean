import Verif.Model.TestUtil
import Verif.Model.Elementary
import Mathlib.SetTheory.Cardinal.Finite

/-!
# When a test case is passed

The specification the statements about the test harness use.  `Expected L k w raw flags r` says which
integer `r` (a takum as integer) a test case with the value `raw` of the reference function and the
exception flags underflow and overflow expects.
-/

namespace Takum.Test
open Takum Spec

/-- The conversion of a `long double` to the takum, logarithmic or linear. -/
def fromExt (L : Libm) : Kind → (w : W) → Fl → C (T w)
  | .log => fromExtended L
  | .lin => linFromExtended

/-- The conversion of a takum to `long double`. -/
def toExt (L : Libm) : Kind → (w : W) → T w → C Fl
  | .log => toExtended L
  | .lin => linToExtended

/-- The expected takum, as integer: the smallest number if the reference function has underflowed to
zero, the largest if it has overflowed, the converted value otherwise. -/
inductive Expected (L : Libm) (k : Kind) (w : W) : Fl → Bool × Bool → ℤ → Prop
  | tiny (raw : Fl) (u o : Bool) (h : u = true ∨ o = true) (h0 : raw.isfinite = true ∧ raw.toQ = 0) :
      Expected L k w raw (u, o) (if raw.sgn then -1 else 1)
  | huge (raw : Fl) (u : Bool) (h : raw = .inf false ∨ raw.isfinite = true ∧ 0 < raw.toQ) :
      Expected L k w raw (u, true) (2 ^ (w.n - 1) - 1)
  | negHuge (raw : Fl) (u : Bool)
      (h : raw = .nan ∨ raw = .inf true ∨ raw.isfinite = true ∧ raw.toQ < 0) :
      Expected L k w raw (u, true) (-(2 ^ (w.n - 1) - 1))
  | regular (raw : Fl) (u : Bool) (t : T w) (h : u = false ∨ ¬ (raw.isfinite = true ∧ raw.toQ = 0))
      (ht : fromExt L k w raw = .ok t) : Expected L k w raw (u, false) t.toInt

/-- The comparison of the 64-bit result `o` with the expected integer `r` does not overflow: it computes
`r + 1` if the two differ and `r - 1` if `o` is not `r + 1` either.  No condition for narrower types. -/
def Comparable (w : W) (o r : ℤ) : Prop :=
  w = .w64 → ¬ (r = 2 ^ 63 - 1 ∧ o ≠ r) ∧ ¬ (r = -2 ^ 63 ∧ o ≠ r ∧ o ≠ r + 1)

/-- The result `o` of the tested function is defined and so is its comparison. -/
def Computed {w : W} (L : Libm) (k : Kind) (raw : Fl) (flags : Bool × Bool) (o : C (T w)) : Prop :=
  ∃ u r, o = .ok u ∧ Expected L k w raw flags r ∧ Comparable w u.toInt r

/-- The result `o` of the tested function differs from the expected one by at most one. -/
def Within {w : W} (L : Libm) (k : Kind) (raw : Fl) (flags : Bool × Bool) (o : C (T w)) : Prop :=
  ∃ u r, o = .ok u ∧ Expected L k w raw flags r ∧ Comparable w u.toInt r ∧ |u.toInt - r| ≤ 1

/-- The value of the `long double` reference function for a takum. -/
def RefIs (L : Libm) (k : Kind) (w : W) (t : T w) (ref : Fl → Fl) (raw : Fl) : Prop :=
  ∃ a, toExt L k w t = .ok a ∧ raw = ref a

/-- The value of the reference function for two takums. -/
def RefIs2 (L : Libm) (k : Kind) (w : W) (t u : T w) (ref : Fl → Fl → Fl) (raw : Fl) : Prop :=
  ∃ a b, toExt L k w t = .ok a ∧ toExt L k w u = .ok b ∧ raw = ref a b

/-- A case of a test of a function of one takum is defined. -/
def DefinedUnary (E : Env) (ref : Fl → Fl) (f : Kind → (w : W) → T w → C (T w)) (k : Kind) (w : W)
    (t : T w) : Prop :=
  ∃ raw, RefIs E.L k w t ref raw ∧ Computed E.L k raw (E.flags k w t.toInt 0) (f k w t)

/-- A case of a test of a function of one takum is passed. -/
def PassedUnary (E : Env) (ref : Fl → Fl) (f : Kind → (w : W) → T w → C (T w)) (k : Kind) (w : W)
    (t : T w) : Prop :=
  ∃ raw, RefIs E.L k w t ref raw ∧ Within E.L k raw (E.flags k w t.toInt 0) (f k w t)

/-- A case of a test of a function of two takums is defined. -/
def DefinedBinary (E : Env) (ref : Fl → Fl → Fl) (f : Kind → (w : W) → T w → T w → C (T w)) (k : Kind)
    (w : W) (t u : T w) : Prop :=
  ∃ raw, RefIs2 E.L k w t u ref raw ∧ Computed E.L k raw (E.flags k w t.toInt u.toInt) (f k w t u)

/-- A case of a test of a function of two takums is passed. -/
def PassedBinary (E : Env) (ref : Fl → Fl → Fl) (f : Kind → (w : W) → T w → T w → C (T w)) (k : Kind)
    (w : W) (t u : T w) : Prop :=
  ∃ raw, RefIs2 E.L k w t u ref raw ∧ Within E.L k raw (E.flags k w t.toInt u.toInt) (f k w t u)

/-- A case of a test of a function of a takum and an integer is defined. -/
def DefinedInt (E : Env) (ref : Fl → ℤ → Fl) (f : Kind → (w : W) → T w → ℤ → C (T w)) (k : Kind)
    (w : W) (t : T w) (n : ℤ) : Prop :=
  ∃ raw, RefIs E.L k w t (ref · n) raw ∧ Computed E.L k raw (E.flags k w t.toInt n) (f k w t n)

/-- A case of a test of a function of a takum and an integer is passed. -/
def PassedInt (E : Env) (ref : Fl → ℤ → Fl) (f : Kind → (w : W) → T w → ℤ → C (T w)) (k : Kind)
    (w : W) (t : T w) (n : ℤ) : Prop :=
  ∃ raw, RefIs E.L k w t (ref · n) raw ∧ Within E.L k raw (E.flags k w t.toInt n) (f k w t n)

/-- A case of a test of a function of a takum to `uint8_t` is passed: equal results. -/
def PassedByte (E : Env) (ref : Fl → Kind → W → C ℕ) (f : Kind → (w : W) → T w → C ℕ) (k : Kind)
    (w : W) (t : T w) : Prop :=
  ∃ a r, toExt E.L k w t = .ok a ∧ ref a k w = .ok r ∧ f k w t = .ok r

/-- The report of a test whose cases are the elements of `D`: if every case is defined, the numbers of
passed cases and of all cases are reported and the status is 0 exactly if all are passed; if some case
is not defined, neither is the test. -/
def Reports {D : Type} (r : R Report) (total : ℕ) (Def Pass : D → Prop) : Prop :=
  ((∀ d, Def d) → ∃ s, r = .ok ⟨s, Nat.card {d // Pass d}, total⟩ ∧ (s = 0 ∨ s = 1) ∧
    (s = 0 ↔ ∀ d, Pass d)) ∧
  ((∃ d, ¬ Def d) → ∃ u, r = .error (.ub u))

/-- The functions that grow beyond the range of `long double`. -/
def Grows : UFun → Bool
  | .ten_raised | .ten_raised_minus_1 | .two_raised | .two_raised_minus_1 | .exp | .exp_minus_1 | .sinh | .cosh => true
  | _ => false

/-- The functions that have no zero but approach it. -/
def NoZero : UFun → Bool
  | .ten_raised | .two_raised | .exp | .csch | .sech => true
  | _ => false

end Takum.Test
