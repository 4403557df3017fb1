import Verif.Fl

/-!
# Model of `src/util.c`, `src/util.h` and the types of `takum.h`

A takum, logarithmic or linear, is its bit pattern.  The four widths of the C code are the four
values of `W`; a function family `takum8_f … takum64_f` is one function with a `W` argument, cases
where the four C functions differ are spelled out.
-/

namespace Takum

/-- The four widths. -/
inductive W
  | w8 | w16 | w32 | w64
  deriving DecidableEq, Repr

/-- Number of bits. -/
abbrev W.n : W → ℕ
  | .w8 => 8
  | .w16 => 16
  | .w32 => 32
  | .w64 => 64

/-- takum.h:8-16: `takum8 … takum64` and `takum_linear8 … takum_linear64` are `int8_t … int64_t`.
The unions `util_takum*_union` (src/util.h:203-222) reinterpret them as unsigned: here both views
are the same bit vector. -/
abbrev T (w : W) := BitVec w.n

/-- takum.h:19-27, `TAKUM*_NAR` and `TAKUM_LINEAR*_NAR`: the most negative integer. -/
def NAR (n : ℕ) : BitVec n := BitVec.ofInt n (-2 ^ (n - 1))

/-- takum.h:316-324, `TAKUM*_ONE` and `TAKUM_LINEAR*_ONE`: 64, 16384, 1073741824,
4611686018427387904. -/
def ONE : (w : W) → T w
  | .w8 => 64#8
  | .w16 => 16384#16
  | .w32 => 1073741824#32
  | .w64 => 4611686018427387904#64

/-- `t < 0` on the signed integer type. -/
def isNeg {n : ℕ} (t : BitVec n) : Bool := t.slt 0#n

/-- `t > 0` on the signed integer type. -/
def isPos {n : ℕ} (t : BitVec n) : Bool := (0#n).slt t

/-- C99 6.5.7 (no repository code): `x << k` for `uintN_t x`, the result being stored in a
`uintN_t`; the types narrower than `int` are promoted to `int` before the shift. -/
def shl {n : ℕ} (x : BitVec n) (k : ℤ) : C (BitVec n) :=
  if n < 32 then do
    let v ← shlInt x.toNat k
    pure (BitVec.ofInt n v)
  else shlU x k

/-- src/util.c:15-71, `util_round_uint8_to_number_of_bits … util_round_uint64_to_number_of_bits`:
the macro instantiated with `N`.  For `N` of 8 and 16 the masks are computed in `int` in C; as they
are only used in conjunction with `input`, keeping `N` bits of them makes no difference. -/
def utilRound {N : ℕ} (input : BitVec N) (numberOfBits : ℕ) : C (BitVec N) := do
  let roundingBitMask ← shl 1#N ((N : ℤ) - numberOfBits - 1)
  let roundingBit : Bool := (input &&& roundingBitMask) != 0#N
  let oneShifted ← shl 1#N ((N : ℤ) - numberOfBits)
  let filterMask := oneShifted - 1#N
  let isTied : Bool := (input &&& filterMask) == roundingBitMask
  let result ← shrU input ((N : ℤ) - numberOfBits)
  let up : Bool := roundingBit && (!isTied || result.toNat % 2 == 1)
  pure (result + if up then 1#N else 0#N)

end Takum
