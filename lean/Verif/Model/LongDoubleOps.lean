import Verif.Model.LongDouble
import Verif.Model.Arith

/-!
# Functions of the library on platforms with another `long double`

`Model/Arith.lean` models the library where `long double` is the x87 80-bit format.  Here are the decoder for
64 bits with its stub, and the logarithmic functions that only decode and encode, for all supported formats.
-/

namespace Takum

/-- The floating type returned by `codec_takum*_to_l` (src/codec.h:9-12) on such a platform. -/
def ldF (v : LD) : W → Fmt
  | .w8 => b32
  | .w16 => b32
  | .w32 => b64
  | .w64 => v.fmt

/-- src/codec.c:181-208, `codec_takum64_to_l` in the format `F`. -/
def toL64 (F : Fmt) (t : T .w64) : C Fl := do
  if t = 0#64 then
    return .inf true
  if t = NAR 64 then
    return .nan
  let (c, shift) ← getCAndReturnShift (frag .w64 t)
  let M ← shl t shift
  return Fl.mul F (Fl.ofInt F (1 - 2 * b2i (isNeg t)))
    (Fl.add F (Fl.ofInt F c) (Fl.ldexp F (Fl.ofInt F M.toNat) (-64)))

/-- src/codec.c:83-216, the decoders; the one for 64 bits is a stub if `long double` has fewer than 64 bits
(lines 181 and 209-215). -/
def ldToL (v : LD) : (w : W) → T w → C Fl
  | .w8, t => toL .w8 t
  | .w16, t => toL .w16 t
  | .w32, t => toL .w32 t
  | .w64, t => if 64 ≤ v.fmt.prec then toL64 v.fmt t else .ok .nan

/-- src/codec.c:732-910, the encoders.  The one for 8 bits calls the one for 32 bits (lines 732-736); the one
for 16 bits computes in `double`. -/
def ldFromSAndL (v : LD) : (w : W) → Bool → Fl → C (T w)
  | .w8, s, l => do reduce .w32 .w8 (← ldTakum32FromSAndL v s l)
  | .w16, s, l => takum16FromSAndL s l
  | .w32, s, l => ldTakum32FromSAndL v s l
  | .w64, s, l => ldTakum64FromSAndL v s l

/-- src/multiplication.c:16-46. -/
def ldMultiplication (v : LD) (w : W) (a b : T w) : C (T w) := do
  let la ← ldToL v w a
  let lb ← ldToL v w b
  ldFromSAndL v w (isPos a != isPos b) (Fl.add (ldF v w) la lb)

/-- src/division.c:16-46. -/
def ldDivision (v : LD) (w : W) (a b : T w) : C (T w) := do
  let la ← ldToL v w a
  let lb ← ldToL v w b
  ldFromSAndL v w (isPos a != isPos b) (Fl.sub (ldF v w) la lb)

/-- src/square_root.c:13-55. -/
def ldSquareRoot (v : LD) (w : W) (t : T w) : C (T w) :=
  if isNeg t then .ok (NAR w.n)
  else do
    let l ← ldToL v w t
    ldFromSAndL v w false (Fl.ldexp (ldF v w) l (-1))

/-- src/root.c:24-66. -/
def ldRoot (v : LD) (w : W) (t : T w) (n : BitVec 64) : C (T w) :=
  if n = 0#64 ∨ (isNeg t ∧ ¬ odd n.toInt) ∨ (t = 0#w.n ∧ n.toInt < 0) then .ok (NAR w.n)
  else do
    let l ← ldToL v w t
    ldFromSAndL v w (isNeg t) (Fl.div (ldF v w) l (Fl.ofInt (ldF v w) n.toInt))

end Takum
