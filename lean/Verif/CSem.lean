/-!
# C semantics used by the model

Undefined behaviour is a distinct outcome (`Except UB`).  The definitions in this file do not model
code of the repository but the ISO C99 rules the repository's code relies on
(x86-64: `int` 32 bits, `long`/`int_fast16_t` 64 bits).
-/

namespace Takum

/-- The kinds of undefined behaviour that the modelled code could run into. -/
inductive UB
  | shift      -- shift count out of range, or left shift of a signed value that overflows
  | overflow   -- signed integer overflow
  | index      -- array access out of bounds
  | conv       -- float to integer conversion out of range
  deriving DecidableEq, Repr

/-- Result of a C computation: a value, or undefined behaviour. -/
abbrev C (α : Type) := Except UB α

/-- C99 6.5.7: `x << k` with both operands of type `int` (after the promotions). -/
def shlInt (x : Int) (k : Int) : C Int :=
  if 0 ≤ k ∧ k < 32 ∧ 0 ≤ x ∧ x * 2 ^ k.toNat < 2 ^ 31 then .ok (x * 2 ^ k.toNat) else .error .shift

/-- C99 6.5.7: `x << k` for an unsigned type of `w` bits that is not promoted to `int` (w = 32, 64). -/
def shlU {w : Nat} (x : BitVec w) (k : Int) : C (BitVec w) :=
  if 0 ≤ k ∧ k < w then .ok (x <<< k.toNat) else .error .shift

/-- C99 6.5.7: `x >> k` for an unsigned type of `w` bits; types narrower than `int` are promoted,
so the bound for the shift count is at least 32. -/
def shrU {w : Nat} (x : BitVec w) (k : Int) : C (BitVec w) :=
  if 0 ≤ k ∧ k < max w 32 then .ok (x >>> k.toNat) else .error .shift

/-- C99 6.5p5: a signed computation of `b` bits with exact result `x`. -/
def chk (b : Nat) (x : Int) : C Int :=
  if -2 ^ (b - 1) ≤ x ∧ x < 2 ^ (b - 1) then .ok x else .error .overflow

/-- C99 6.5.6p8: array element access. -/
def lut {α : Type} (l : List α) (i : Nat) : C α :=
  match l[i]? with
  | some a => .ok a
  | none => .error .index

/-- Conversion of a `bool` to an integer (C99 6.3.1.1). -/
def b2i (b : Bool) : Int := if b then 1 else 0

/-- C99 6.5.5p6: `n % 2` truncates towards zero; only its being zero is used by the code. -/
def odd (n : Int) : Bool := n.tmod 2 != 0

end Takum
