import Verif.Model.Conversion

/-!
# The conversion functions as families

The three floating types of the C interface and, for each direction and each kind of takum, the
family of the conversion functions.  Only names for the functions of `Model/Conversion.lean`.
-/

namespace Takum

/-- The argument types `float`, `double`, `long double` of the conversion functions
(src/conversion.c:43-283; takum.h declares them with these types). -/
inductive Src
  | f32 | f64 | ext
  deriving DecidableEq

/-- `float`, `double`, `long double` on x86-64 (src/conversion.c:43-283). -/
def Src.fmt : Src → Fmt
  | .f32 => b32
  | .f64 => b64
  | .ext => x80

/-- src/conversion.c:96-122, 177-203, 257-283: the twelve functions
`takum_linear{8,16,32,64}_from_{float32,float64,extended_float}`. -/
def linFrom : Src → (w : W) → Fl → C (T w)
  | .f32 => linFromFloat32
  | .f64 => linFromFloat64
  | .ext => linFromExtended

/-- src/conversion.c:657-683, 713-739, 770-796: the twelve functions
`takum_linear{8,16,32,64}_to_{float32,float64,extended_float}`. -/
def linTo : Src → (w : W) → T w → C Fl
  | .f32 => linToFloat32
  | .f64 => linToFloat64
  | .ext => linToExtended

/-- src/conversion.c:43-94, 124-175, 205-255: the twelve functions
`takum{8,16,32,64}_from_{float32,float64,extended_float}`. -/
def logFrom (L : Libm) : Src → (w : W) → Fl → C (T w)
  | .f32 => fromFloat32 L
  | .f64 => fromFloat64 L
  | .ext => fromExtended L

/-- src/conversion.c:629-655, 685-711, 741-768: the twelve functions
`takum{8,16,32,64}_to_{float32,float64,extended_float}`. -/
def logTo (L : Libm) : Src → (w : W) → T w → C Fl
  | .f32 => toFloat32 L
  | .f64 => toFloat64 L
  | .ext => toExtended L

end Takum
