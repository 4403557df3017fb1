import Verif.Model.TestUtil
import Verif.Model.Arith

/-!
# Model of the test programs for the codec, the conversions, the precision, the sign and the absolute
value
-/

namespace Takum.Test
open Takum Spec

/-- test/codec.c:10-57: the functions of the codec test. -/
def codecTrip : Kind → (w : W) → Option (T w → C (T w))
  | .log, w => some fun t => do fromSAndL w (decide (t.toInt < 0)) (← toL w t)
  | .lin, .w64 => some fun t => do linFromExtended .w64 (← linToExtended .w64 t)
  | .lin, w => some fun t => do linFromFloat64 w (← linToFloat64 w t)

/-- test/codec.c:59-81, `codec_utb` and `main`: the exit status. -/
def codecMain (E : Env) : R ℕ := runBlock E (.roundtrip codecTrip)

/-- test/conversion.c:9-59, `conversion_float64_utb`; `NULL` for 64 bits. -/
def float64Trip (L : Libm) : Kind → (w : W) → Option (T w → C (T w))
  | _, .w64 => none
  | .log, w => some fun t => do logFrom L .f64 w (← logTo L .f64 w t)
  | .lin, w => some fun t => do linFrom .f64 w (← linTo .f64 w t)

/-- test/conversion.c:61-129, `conversion_extended_float_utb`. -/
def extendedTrip (L : Libm) : Kind → (w : W) → Option (T w → C (T w))
  | .log, w => some fun t => do logFrom L .ext w (← logTo L .ext w t)
  | .lin, w => some fun t => do linFrom .ext w (← linTo .ext w t)

/-- The `double` with the given object representation (test/conversion.c:134-145, the union; IEEE 754
binary64). -/
def ofBits64 (b : BitVec 64) : Fl :=
  let s := b.msb
  let e : ℕ := b.toNat / 2 ^ 52 % 2 ^ 11
  let m : ℕ := b.toNat % 2 ^ 52
  let sg : ℚ := if s then -1 else 1
  if e = 2047 then (if m = 0 then .inf s else .nan)
  else if e = 0 then .mk s (sg * m * (2 : ℚ) ^ (-1074 : ℤ))
  else .num (sg * ((2 ^ 52 + m : ℕ) : ℚ) * (2 : ℚ) ^ ((e : ℤ) - 1075))

/-- test/conversion.c:131-163, `float64_conversion_takum_linear64_roundtrip`. -/
def float64Full (L : Libm) (t : T .w64) : C (T .w64) :=
  let f := ofBits64 t
  if !f.isfinite || Fl.le (L.exp2 b64 (.num 255)) f.abs || Fl.le f.abs (L.exp2 b64 (.num (-255))) then
    .ok t
  else do
    let g ← linTo .f64 .w64 (← linFrom .f64 .w64 f)
    return g.bits64

/-- test/conversion.c:165-178, `conversion_float64_full_utb`. -/
def fullTrip (L : Libm) : Kind → (w : W) → Option (T w → C (T w))
  | .lin, .w64 => some (float64Full L)
  | _, _ => none

/-- test/conversion.c:180-186, `main`: the exit status.  The three calls are operands of `+`; each has
its own numbers of `rand()`. -/
def conversionMain (E₁ E₂ E₃ : Env) : R ℕ := do
  let a ← runBlock E₁ (.roundtrip (float64Trip E₁.L))
  let b ← runBlock E₂ (.roundtrip (extendedTrip E₂.L))
  let c ← runBlock E₃ (.roundtrip (fullTrip E₃.L))
  return a + b + c

/-- test/precision.c:24-60: the takum as the highest bits of a 64-bit word (`t.bits`). -/
def widened (w : W) (t : T w) : BitVec 64 := (BitVec.ofInt 64 t.toInt) <<< (64 - w.n)

/-- test/precision.c:9-78, `precision_reference`.  `n` is a `size_t` of at least 8, so that `n - 5` does
not wrap around; the result is at most 59 and fits in `uint8_t`. -/
def precisionReference (L : Libm) (a : Fl) (k : Kind) (w : W) : C ℕ :=
  if !a.isfinite || Fl.eq a (.zero false) then
    .ok (if w.n < 12 then 0 else w.n - 12)
  else do
    let t ← match k with
      | .log => logFrom L .ext w a
      | .lin => linFrom .ext w a
    let pre : BitVec 16 := ((widened w t >>> 48) &&& 0xffff#64).setWidth 16
    let R := ((pre &&& 0x3800#16) >>> 11).toNat
    let r := if pre &&& 0x4000#16 ≠ 0#16 then R else 7 - R
    return if r > w.n - 5 then 0 else w.n - 5 - r

/-- test/precision.c:80-104, `precision_utb` and `main`. -/
def precisionMain (E : Env) : R ℕ := runBlock E (.uint8 (precisionReference E.L) (fun _ => precision))

/-- test/sign.c:7-15, `sign_reference`. -/
def signReference (a : Fl) : Fl :=
  if a.isfinite then
    if Fl.eq a (.zero false) then .zero false
    else if Fl.lt (.zero false) a then .num 1 else .num (-1)
  else .nan

/-- test/sign.c:17-40, `sign_utb` and `main`. -/
def signMain (E : Env) : R ℕ := runBlock E (.unary signReference (fun _ => signC))

/-- test/absolute.c:7-15, `absolute_reference`. -/
def absoluteReference (a : Fl) : Fl :=
  if a.isfinite then (if Fl.lt a (.zero false) then a.neg else a) else .nan

/-- test/absolute.c:17-40, `absolute_utb` and `main`. -/
def absoluteMain (E : Env) : R ℕ := runBlock E (.unary absoluteReference (fun _ => absolute))

end Takum.Test
