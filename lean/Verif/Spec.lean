import Mathlib.Data.Rat.Floor
import Mathlib.Analysis.SpecialFunctions.Pow.Real

/-!
# The takum format, independent of the implementation

Transcribed from the definition of the takum formats (L. Hunhold, "Beating Posits at Their Own Game:
Takum Arithmetic", the paper the repository refers to as "the takum paper"; the tables in
`src/codec.c:12-57` restate it).  An `n`-bit string is split, from the most significant bit, into
sign `S`, direction bit `D`, regime bits `R` (3), characteristic bits `C` (`r` of them) and mantissa
bits `M` (`p = n - 5 - r` of them).  Strings shorter than 12 bits are read as if zero bits were
appended.  Nothing here refers to the model of the C code.
-/

namespace Takum.Spec

/-- Length after appending zero bits to short strings. -/
def len (n : ℕ) : ℕ := max n 12

/-- The bit string, as a natural number, after appending zero bits to short strings. -/
def str {n : ℕ} (t : BitVec n) : ℕ := t.toNat * 2 ^ (len n - n)

/-- Sign bit. -/
def S {n : ℕ} (t : BitVec n) : ℕ := str t / 2 ^ (len n - 1)

/-- Direction bit. -/
def D {n : ℕ} (t : BitVec n) : ℕ := str t / 2 ^ (len n - 2) % 2

/-- Regime bits. -/
def R {n : ℕ} (t : BitVec n) : ℕ := str t / 2 ^ (len n - 5) % 8

/-- Regime: the number of characteristic bits. -/
def r {n : ℕ} (t : BitVec n) : ℕ := if D t = 0 then 7 - R t else R t

/-- Number of mantissa bits (of the string with appended zeros). -/
def p {n : ℕ} (t : BitVec n) : ℕ := len n - 5 - r t

/-- Characteristic bits. -/
def Cbits {n : ℕ} (t : BitVec n) : ℕ := str t / 2 ^ p t % 2 ^ r t

/-- Mantissa bits. -/
def M {n : ℕ} (t : BitVec n) : ℕ := str t % 2 ^ p t

/-- Characteristic. -/
def c {n : ℕ} (t : BitVec n) : ℤ :=
  if D t = 0 then -2 ^ (r t + 1) + 1 + (Cbits t : ℤ) else 2 ^ r t - 1 + (Cbits t : ℤ)

/-- Mantissa, in `[0,1)`. -/
def m {n : ℕ} (t : BitVec n) : ℚ := M t / 2 ^ p t

/-- The pattern `100…0`, "not a real". -/
def nar (n : ℕ) : BitVec n := BitVec.ofNat n (2 ^ (n - 1))

/-- A takum that is neither 0 nor NaR. -/
def Regular {n : ℕ} (t : BitVec n) : Prop := t ≠ 0#n ∧ t ≠ nar n

/-- Logarithmic value: `ℓ = (-1)^S (c + m)`. -/
def ell {n : ℕ} (t : BitVec n) : ℚ := (-1) ^ S t * (c t + m t)

/-- The real number represented by a logarithmic takum; `none` for NaR. -/
noncomputable def logVal {n : ℕ} (t : BitVec n) : Option ℝ :=
  if t = nar n then none
  else if t = 0#n then some 0
  else some ((-1) ^ S t * Real.sqrt (Real.exp 1) ^ (ell t : ℝ))

/-- Exponent of a linear takum: `e = (-1)^S (c + S)`. -/
def e {n : ℕ} (t : BitVec n) : ℤ := (-1) ^ S t * (c t + S t)

/-- The number represented by a linear takum, `((1 - 3S) + f) · 2^e` with `f = m`; `none` for NaR. -/
def linVal {n : ℕ} (t : BitVec n) : Option ℚ :=
  if t = nar n then none
  else if t = 0#n then some 0
  else some (((1 - 3 * (S t : ℚ)) + m t) * (2 : ℚ) ^ e t)

/-- The two families of types, `takumN` and `takum_linearN`. -/
inductive Kind
  | log | lin
  deriving DecidableEq, Repr

/-- The real number represented by a takum of one of the two families; `none` for NaR. -/
noncomputable def value {n : ℕ} : Kind → BitVec n → Option ℝ
  | .log, t => logVal t
  | .lin, t => (linVal t).map (fun q : ℚ => (q : ℝ))

/-- `t` is a best approximation of `x` on the logarithmic scale among the regular `n`-bit takums of
the same sign, ties resolved to the even bit pattern; arguments outside of the range saturate. -/
def NearestEll {n : ℕ} (neg : Bool) (x : ℚ) (t : BitVec n) : Prop :=
  Regular t ∧ t.msb = neg ∧
  ∀ t' : BitVec n, Regular t' → t'.msb = neg →
    |ell t - x| < |ell t' - x| ∨ (|ell t - x| = |ell t' - x| ∧ (t' = t ∨ t.toNat % 2 = 0))

/-- Position of a number on the logarithmic scale: `|v| = √e^(logScale v)`. -/
noncomputable def logScale (v : ℝ) : ℝ := 2 * Real.log |v|

/-- `t` is the best approximation of the number `v ≠ 0` among the regular logarithmic takums of its
sign, distances being measured on the logarithmic scale, ties resolved to the even bit pattern. -/
def NearestLog {n : ℕ} (v : ℝ) (t : BitVec n) : Prop :=
  Regular t ∧ (t.msb = true ↔ v < 0) ∧
  ∀ t' : BitVec n, Regular t' → t'.msb = t.msb →
    |(ell t : ℝ) - logScale v| < |(ell t' : ℝ) - logScale v| ∨
      (|(ell t : ℝ) - logScale v| = |(ell t' : ℝ) - logScale v| ∧ (t' = t ∨ t.toNat % 2 = 0))

/-- No regular logarithmic takum lies strictly between the number `v ≠ 0` and `t`, and `t = v` if `v`
is a takum (faithful rounding, saturating). -/
def FaithfulLog {n : ℕ} (v : ℝ) (t : BitVec n) : Prop :=
  Regular t ∧ (t.msb = true ↔ v < 0) ∧
  ∀ (t' : BitVec n) (x : ℝ), Regular t' → logVal t' = some x →
    (x ≤ v → t'.toInt ≤ t.toInt) ∧ (v ≤ x → t.toInt ≤ t'.toInt)

/-- The same for linear takums. -/
def FaithfulLin {n : ℕ} (v : ℝ) (t : BitVec n) : Prop :=
  Regular t ∧ (t.msb = true ↔ v < 0) ∧
  ∀ (t' : BitVec n) (x : ℚ), Regular t' → linVal t' = some x →
    (x ≤ v → t'.toInt ≤ t.toInt) ∧ (v ≤ x → t.toInt ≤ t'.toInt)

/-- `t` is the best approximation of the number `v ≠ 0` among the regular linear takums of its sign,
ties resolved to the even bit pattern. -/
def NearestLin {n : ℕ} (v : ℚ) (t : BitVec n) : Prop :=
  Regular t ∧ (t.msb = true ↔ v < 0) ∧
  ∀ t' : BitVec n, Regular t' → t'.msb = t.msb → ∀ a b : ℚ, linVal t = some a → linVal t' = some b →
    |a - v| < |b - v| ∨ (|a - v| = |b - v| ∧ (t' = t ∨ t.toNat % 2 = 0))

end Takum.Spec
