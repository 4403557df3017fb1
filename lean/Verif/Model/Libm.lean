import Verif.Model.Util

/-!
# The C math library as a parameter

The functions of `<math.h>` without an exact specification.  `F` is the floating type of the
variant: `b32` for `logf`, `b64` for `log`, `x80` for `logl`, and so on.  What is assumed of them is
stated as a hypothesis of each theorem.
-/

namespace Takum

structure Libm where
  log : Fmt → Fl → Fl
  log1p : Fmt → Fl → Fl
  log2 : Fmt → Fl → Fl
  log10 : Fmt → Fl → Fl
  exp : Fmt → Fl → Fl
  exp2 : Fmt → Fl → Fl
  expm1 : Fmt → Fl → Fl
  sin : Fmt → Fl → Fl
  cos : Fmt → Fl → Fl
  tan : Fmt → Fl → Fl
  asin : Fmt → Fl → Fl
  acos : Fmt → Fl → Fl
  atan : Fmt → Fl → Fl
  sinh : Fmt → Fl → Fl
  cosh : Fmt → Fl → Fl
  tanh : Fmt → Fl → Fl
  asinh : Fmt → Fl → Fl
  acosh : Fmt → Fl → Fl
  atanh : Fmt → Fl → Fl
  pow : Fmt → Fl → Fl → Fl
  atan2 : Fmt → Fl → Fl → Fl
  hypot : Fmt → Fl → Fl → Fl

/-- src/util.h:7, `LB_E`: a `long double` literal, rounded to that type. -/
def LB_E : Fl := .num (x80.rq (1.4426950408889634073599246810018921374266 : ℚ))
/-- src/util.h:8, `LG_E`. -/
def LG_E : Fl := .num (x80.rq (0.4342944819032518276511289189166050822944 : ℚ))
/-- src/util.h:9, `PI`. -/
def PI : Fl := .num (x80.rq (3.1415926535897932384626433832795028841972 : ℚ))
/-- src/util.h:10, `SQRTE`. -/
def SQRTE : Fl := .num (x80.rq (1.6487212707001281468486507878141635716538 : ℚ))

/-- `DBL_MAX` of `<float.h>` (used in src/exp.c:9 and others). -/
def DBL_MAX : Fl := .num ((2 - 1 / 2 ^ 52) * 2 ^ 1023)
/-- `DBL_MIN` of `<float.h>` (used in src/exp.c:9 and others). -/
def DBL_MIN : Fl := .num (1 / 2 ^ 1022)

end Takum
