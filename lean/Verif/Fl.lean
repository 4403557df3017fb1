import Verif.CSem
import Verif.Rounding

/-!
# IEEE-754 floating point values and the exactly specified operations

No code of the repository is modelled here; these are the C99 Annex F / IEEE-754 semantics of the
operations the repository's code uses.  A value is NaN (payload ignored), an infinity, a signed
zero, or a non-zero rational.  The format is a parameter of each operation, as in C it is determined
by the types of the operands.
-/

namespace Takum

inductive Fl
  | nan
  | inf (neg : Bool)
  | zero (neg : Bool)
  | num (q : ℚ)
  deriving DecidableEq

namespace Fl

/-- Rational value of a finite float (0 for the others). -/
def toQ : Fl → ℚ
  | num q => q
  | _ => 0

/-- Sign bit (`signbit`). -/
def sgn : Fl → Bool
  | nan => false
  | inf s => s
  | zero s => s
  | num q => decide (q < 0)

def isnan : Fl → Bool
  | nan => true
  | _ => false

def isinf : Fl → Bool
  | inf _ => true
  | _ => false

def isfinite : Fl → Bool
  | nan => false
  | inf _ => false
  | _ => true

/-- The finite float with value `q`, `z` being the sign of a zero. -/
def mk (z : Bool) (q : ℚ) : Fl := if q = 0 then zero z else num q

/-- `x` is a value of the floating type `F` (a non-zero number is representable in `F`). -/
def In (F : Fmt) : Fl → Prop
  | num q => q ≠ 0 ∧ F.In q
  | _ => True

/-- Round the exact result `q` of an operation to the format; `z` is the sign of an exact zero. -/
def round (F : Fmt) (z : Bool) (q : ℚ) : Fl :=
  if q = 0 then zero z
  else if (2 : ℚ) ^ F.emax ≤ |F.rq q| then inf (decide (q < 0))
  else mk (decide (q < 0)) (F.rq q)

def neg : Fl → Fl
  | nan => nan
  | inf s => inf !s
  | zero s => zero !s
  | num q => num (-q)

/-- `fabs`, `fabsl`. -/
def abs : Fl → Fl
  | nan => nan
  | inf _ => inf false
  | zero _ => zero false
  | num q => num |q|

def add (F : Fmt) : Fl → Fl → Fl
  | nan, _ => nan
  | _, nan => nan
  | inf a, inf b => if a = b then inf a else nan
  | inf a, _ => inf a
  | _, inf b => inf b
  | x, y => round F (x.sgn && y.sgn) (x.toQ + y.toQ)

def sub (F : Fmt) (x y : Fl) : Fl := add F x (neg y)

def mul (F : Fmt) : Fl → Fl → Fl
  | nan, _ => nan
  | _, nan => nan
  | inf a, inf b => inf (xor a b)
  | inf _, zero _ => nan
  | zero _, inf _ => nan
  | inf a, y => inf (xor a y.sgn)
  | x, inf b => inf (xor x.sgn b)
  | x, y => round F (xor x.sgn y.sgn) (x.toQ * y.toQ)

def div (F : Fmt) : Fl → Fl → Fl
  | nan, _ => nan
  | _, nan => nan
  | inf _, inf _ => nan
  | inf a, y => inf (xor a y.sgn)
  | x, inf b => zero (xor x.sgn b)
  | zero _, zero _ => nan
  | x, zero b => inf (xor x.sgn b)
  | x, y => round F (xor x.sgn y.sgn) (x.toQ / y.toQ)

/-- Conversion of an integer to a floating type. -/
def ofInt (F : Fmt) (n : ℤ) : Fl := round F false n

/-- Conversion between floating types. -/
def cast (F : Fmt) : Fl → Fl
  | num q => round F false q
  | x => x

/-- `ldexp`. -/
def ldexp (F : Fmt) (x : Fl) (k : ℤ) : Fl :=
  match x with
  | num q => round F false (q * (2 : ℚ) ^ k)
  | x => x

/-- `floor` (always exact). -/
def floor : Fl → Fl
  | num q => mk false ⌊q⌋
  | x => x

/-- `frexp`: for a finite non-zero argument a fraction in `[1/2, 1)` and an exponent; the exponent
stored for infinities and NaN is unspecified in C and not used by the code. -/
def frexp : Fl → Fl × ℤ
  | num q => (num (q / (2 : ℚ) ^ (Int.log 2 |q| + 1)), Int.log 2 |q| + 1)
  | x => (x, 0)

/-- Truncation towards zero of a rational. -/
def trunc (q : ℚ) : ℤ := if 0 ≤ q then ⌊q⌋ else ⌈q⌉

/-- `fmod` (always exact, sign of the first argument). -/
def fmod : Fl → Fl → Fl
  | nan, _ => nan
  | _, nan => nan
  | inf _, _ => nan
  | _, zero _ => nan
  | x, inf _ => x
  | x, y => mk x.sgn (x.toQ - trunc (x.toQ / y.toQ) * y.toQ)

/-- `x < y`; false if an operand is NaN. -/
def lt : Fl → Fl → Bool
  | nan, _ => false
  | _, nan => false
  | inf true, inf true => false
  | inf true, _ => true
  | inf false, _ => false
  | _, inf b => !b
  | x, y => decide (x.toQ < y.toQ)

/-- `x == y`; false if an operand is NaN. -/
def eq : Fl → Fl → Bool
  | nan, _ => false
  | _, nan => false
  | inf a, inf b => a == b
  | inf _, _ => false
  | _, inf _ => false
  | x, y => decide (x.toQ = y.toQ)

/-- `x <= y`. -/
def le (x y : Fl) : Bool := lt x y || eq x y

/-- Conversion of a float to a signed integer type of `b` bits (truncation); undefined if the
truncated value does not fit. -/
def toInt (b : ℕ) : Fl → C ℤ
  | zero _ => .ok 0
  | num q =>
    if -2 ^ (b - 1) ≤ trunc q ∧ trunc q < 2 ^ (b - 1) then .ok (trunc q) else .error .conv
  | _ => .error .conv

/-- The IEEE binary64 encoding of a finite value or infinity (for reading the object representation
of a `double`); NaN is given some quiet NaN pattern, which the code never inspects. -/
def bits64 (x : Fl) : BitVec 64 :=
  let s : ℕ := if x.sgn then 2 ^ 63 else 0
  match x with
  | nan => 0x7ff8000000000000#64
  | inf _ => BitVec.ofNat 64 (s + 2047 * 2 ^ 52)
  | zero _ => BitVec.ofNat 64 s
  | num q =>
    let e := Int.log 2 |q|
    if -1022 ≤ e then
      BitVec.ofNat 64 (s + (e + 1023).toNat * 2 ^ 52 + ((|q| / (2 : ℚ) ^ (e - 52)).floor.toNat - 2 ^ 52))
    else
      BitVec.ofNat 64 (s + (|q| / (2 : ℚ) ^ (-1074 : ℤ)).floor.toNat)

/-- The x87 80-bit encoding: bits 0–63 the significand with explicit leading one, bits 64–78 the
biased exponent, bit 79 the sign; in memory little endian. -/
def bits80 (x : Fl) : BitVec 80 :=
  let s : ℕ := if x.sgn then 2 ^ 79 else 0
  match x with
  | nan => 0x7fffc000000000000000#80
  | inf _ => BitVec.ofNat 80 (s + 32767 * 2 ^ 64 + 2 ^ 63)
  | zero _ => BitVec.ofNat 80 s
  | num q =>
    let e := Int.log 2 |q|
    if -16382 ≤ e then
      BitVec.ofNat 80 (s + (e + 16383).toNat * 2 ^ 64 + (|q| / (2 : ℚ) ^ (e - 63)).floor.toNat)
    else
      BitVec.ofNat 80 (s + (|q| / (2 : ℚ) ^ (-16445 : ℤ)).floor.toNat)

end Fl
end Takum
