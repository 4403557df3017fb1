import Verif.Model.Codec
import Verif.Model.Libm

/-!
# Model of the float conversions of `src/conversion.c`

Conversions to a wider floating type are the identity on `Fl` and not written out; conversions to a
narrower one (explicit casts, and the implicit ones when calling a function with a narrower
parameter type) are `Fl.cast`.
-/

namespace Takum

/-- `2 * log(fabs(f))` computed in the floating type `F` (src/conversion.c:53, 92 and others). -/
def twoLog (L : Libm) (F : Fmt) (f : Fl) : Fl := Fl.mul F (Fl.ofInt F 2) (L.log F f.abs)

/-- src/conversion.c:43-94, `takum8_from_float32 … takum64_from_float32`.  For 8 bits the `double`
argument is converted to the parameter type `float` of `codec_takum8_from_s_and_l`
(src/codec.h:21). -/
def fromFloat32 (L : Libm) (w : W) (f : Fl) : C (T w) :=
  if Fl.eq f (.zero false) then .ok 0#w.n
  else if !f.isfinite then .ok (NAR w.n)
  else
    let s := Fl.lt f (.zero false)
    match w with
    | .w8 => fromSAndL .w8 s (Fl.cast b32 (twoLog L b64 f))
    | .w16 => fromSAndL .w16 s (twoLog L b64 f)
    | .w32 => fromSAndL .w32 s (twoLog L b64 f)
    | .w64 => fromSAndL .w64 s (twoLog L x80 f)

/-- src/conversion.c:124-175, `takum8_from_float64 … takum64_from_float64`. -/
def fromFloat64 (L : Libm) (w : W) (f : Fl) : C (T w) :=
  if Fl.eq f (.zero false) then .ok 0#w.n
  else if !f.isfinite then .ok (NAR w.n)
  else
    let s := Fl.lt f (.zero false)
    match w with
    | .w8 => do reduce .w64 .w8 (← fromSAndL .w64 s (twoLog L x80 f))
    | .w16 => do reduce .w64 .w16 (← fromSAndL .w64 s (twoLog L x80 f))
    | .w32 => fromSAndL .w32 s (twoLog L x80 f)
    | .w64 => fromSAndL .w64 s (twoLog L x80 f)

/-- src/conversion.c:205-255, `takum8_from_extended_float … takum64_from_extended_float`. -/
def fromExtended (L : Libm) (w : W) (f : Fl) : C (T w) :=
  if Fl.eq f (.zero false) then .ok 0#w.n
  else if !f.isfinite then .ok (NAR w.n)
  else
    let s := Fl.lt f (.zero false)
    match w with
    | .w8 => do reduce .w64 .w8 (← fromSAndL .w64 s (twoLog L x80 f))
    | .w16 => do reduce .w64 .w16 (← fromSAndL .w64 s (twoLog L x80 f))
    | .w32 => do reduce .w64 .w32 (← fromSAndL .w64 s (twoLog L x80 f))
    | .w64 => fromSAndL .w64 s (twoLog L x80 f)

/-- src/conversion.c:96-122, `takum_linear8_from_float32 … takum_linear64_from_float32`. -/
def linFromFloat32 (w : W) (f : Fl) : C (T w) := do
  let s := Fl.lt f (.zero false)
  let l ← linearLFromFloat32 f
  fromSAndL w s (match w with
    | .w8 => Fl.cast b32 l
    | .w16 => Fl.cast b32 l
    | .w32 => l
    | .w64 => l)

/-- src/conversion.c:177-203, `takum_linear8_from_float64 … takum_linear64_from_float64`. -/
def linFromFloat64 (w : W) (f : Fl) : C (T w) := do
  let s := Fl.lt f (.zero false)
  let l ← linearLFromFloat64 f
  fromSAndL w s (match w with
    | .w8 => Fl.cast b32 l
    | .w16 => Fl.cast b64 l
    | .w32 => l
    | .w64 => l)

/-- src/conversion.c:257-283, `takum_linear8_from_extended_float …
takum_linear64_from_extended_float`. -/
def linFromExtended (w : W) (f : Fl) : C (T w) := do
  let s := Fl.lt f (.zero false)
  let l ← linearLFromExtended f
  fromSAndL w s (match w with
    | .w8 => Fl.cast b32 l
    | .w16 => Fl.cast b64 l
    | .w32 => l
    | .w64 => l)

/-- The `int` factor `(t != 0) * (1 - 2 * (t < 0))` of the functions `takum*_to_float*`
(src/conversion.c:633 and others). -/
def signFactor {n : ℕ} (t : BitVec n) : ℤ := b2i (t != 0#n) * (1 - 2 * b2i (isNeg t))

/-- src/conversion.c:629-655, `takum8_to_float32 … takum64_to_float32`.  The parameters of `powf`
are of type `float`, so that `SQRTE` is rounded to that type. -/
def toFloat32 (L : Libm) (w : W) (t : T w) : C Fl := do
  let l ← toL w t
  match w with
  | .w8 => return Fl.mul b32 (Fl.ofInt b32 (signFactor t)) (L.pow b32 (Fl.cast b32 SQRTE) l)
  | .w16 => return Fl.mul b32 (Fl.ofInt b32 (signFactor t)) (L.pow b32 (Fl.cast b32 SQRTE) l)
  | .w32 =>
    return Fl.mul b32 (Fl.ofInt b32 (signFactor t)) (L.pow b32 (Fl.cast b32 SQRTE) (Fl.cast b32 l))
  | .w64 =>
    return Fl.mul b32 (Fl.ofInt b32 (signFactor t)) (L.pow b32 (Fl.cast b32 SQRTE) (Fl.cast b32 l))

/-- src/conversion.c:685-711, `takum8_to_float64 … takum64_to_float64`: `powl` and a conversion to
`double` of the product for 8 bits, `pow` for the others. -/
def toFloat64 (L : Libm) (w : W) (t : T w) : C Fl := do
  let l ← toL w t
  match w with
  | .w8 => return Fl.cast b64 (Fl.mul x80 (Fl.ofInt x80 (signFactor t)) (L.pow x80 SQRTE l))
  | .w16 => return Fl.mul b64 (Fl.ofInt b64 (signFactor t)) (L.pow b64 (Fl.cast b64 SQRTE) l)
  | .w32 => return Fl.mul b64 (Fl.ofInt b64 (signFactor t)) (L.pow b64 (Fl.cast b64 SQRTE) l)
  | .w64 =>
    return Fl.mul b64 (Fl.ofInt b64 (signFactor t)) (L.pow b64 (Fl.cast b64 SQRTE) (Fl.cast b64 l))

/-- src/conversion.c:741-768, `takum8_to_extended_float … takum64_to_extended_float`. -/
def toExtended (L : Libm) (w : W) (t : T w) : C Fl := do
  let l ← toL w t
  return Fl.mul x80 (Fl.ofInt x80 (signFactor t)) (L.pow x80 SQRTE l)

/-- src/conversion.c:657-683, `takum_linear8_to_float32 … takum_linear64_to_float32`. -/
def linToFloat32 (w : W) (t : T w) : C Fl := do
  let l ← toL w t
  let r ← sAndLinearLToFloat64 (isNeg t) l
  return Fl.cast b32 r

/-- src/conversion.c:713-739, `takum_linear8_to_float64 … takum_linear64_to_float64`. -/
def linToFloat64 (w : W) (t : T w) : C Fl := do
  let l ← toL w t
  sAndLinearLToFloat64 (isNeg t) l

/-- src/conversion.c:770-796, `takum_linear8_to_extended_float … takum_linear64_to_extended_float`:
through `double` for all but 64 bits. -/
def linToExtended (w : W) (t : T w) : C Fl := do
  let l ← toL w t
  match w with
  | .w8 => sAndLinearLToFloat64 (isNeg t) l
  | .w16 => sAndLinearLToFloat64 (isNeg t) l
  | .w32 => sAndLinearLToFloat64 (isNeg t) l
  | .w64 => sAndLinearLToExtended (isNeg t) l

/-- src/conversion.c:304-326, 347-369, 390-412, 433-455, `takum_linearB_from_takumA`: through
`double` unless one of the widths is 64. -/
def linFromLog (L : Libm) (a b : W) (t : T a) : C (T b) :=
  if a = .w64 ∨ b = .w64 then do linFromExtended b (← toExtended L a t)
  else do linFromFloat64 b (← toFloat64 L a t)

/-- src/conversion.c:457-480, 500-523, 543-566, 586-609, `takumB_from_takum_linearA`: through
`double` unless one of the widths is 64. -/
def logFromLin (L : Libm) (a b : W) (t : T a) : C (T b) :=
  if a = .w64 ∨ b = .w64 then do fromExtended L b (← linToExtended a t)
  else do fromFloat64 L b (← linToFloat64 a t)

end Takum
