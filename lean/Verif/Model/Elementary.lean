import Verif.Model.Arith

/-!
# Model of the wrappers in `src/util.h` and of the elementary functions built on them

`F` is `b64` for the `double` function and `x80` for the `long double` one (suffix `l` in C).
-/

namespace Takum

/-- src/util.h:24-60, `UTIL_UNARY_FLOAT_TAKUM_WRAPPER`: `fn` is the `long double` function, `fix`
the macro `RESULT_FIXER_MACRO(arg, res)`. -/
def unaryLog (L : Libm) (fn : Fl → Fl) (fix : Fl → Fl → Fl) (w : W) (t : T w) : C (T w) := do
  let arg ← toExtended L w t
  fromExtended L w (fix arg (fn arg))

/-- src/util.h:62-98, `UTIL_UNARY_FLOAT_TAKUM_LINEAR_WRAPPER`: `double` for 8, 16 and 32 bits,
`long double` for 64. -/
def unaryLin (fn : Fmt → Fl → Fl) (fix : Fl → Fl → Fl) (w : W) (t : T w) : C (T w) :=
  match w with
  | .w64 => do
    let arg ← linToExtended .w64 t
    linFromExtended .w64 (fix arg (fn x80 arg))
  | w => do
    let arg ← linToFloat64 w t
    linFromFloat64 w (fix arg (fn b64 arg))

/-- src/util.h:100-148, `UTIL_BINARY_FLOAT_TAKUM_WRAPPER`. -/
def binaryLog (L : Libm) (fn : Fl → Fl → Fl) (fix : Fl → Fl → Fl → Fl) (w : W) (a b : T w) : C (T w) := do
  let fa ← toExtended L w a
  let fb ← toExtended L w b
  fromExtended L w (fix fa fb (fn fa fb))

/-- src/util.h:150-201, `UTIL_BINARY_FLOAT_TAKUM_LINEAR_WRAPPER`. -/
def binaryLin (fn : Fmt → Fl → Fl → Fl) (fix : Fl → Fl → Fl → Fl) (w : W) (a b : T w) : C (T w) :=
  match w with
  | .w64 => do
    let fa ← linToExtended .w64 a
    let fb ← linToExtended .w64 b
    linFromExtended .w64 (fix fa fb (fn x80 fa fb))
  | w => do
    let fa ← linToFloat64 w a
    let fb ← linToFloat64 w b
    linFromFloat64 w (fix fa fb (fn b64 fa fb))

/-- `RESULT_FIXER_MACRO` without effect (src/addition.c:9, src/sin.c:11 and others). -/
def noFix (_ res : Fl) : Fl := res
/-- The same for binary functions (src/addition.c:9 and others). -/
def noFix2 (_ _ res : Fl) : Fl := res

/-! ## Linear arithmetic -/

/-- src/addition.c:11-24, `takum_linear8_addition … takum_linear64_addition`. -/
def linAddition : (w : W) → T w → T w → C (T w) := binaryLin Fl.add noFix2
/-- src/subtraction.c:12-26, `takum_linear8_subtraction … takum_linear64_subtraction`. -/
def linSubtraction : (w : W) → T w → T w → C (T w) := binaryLin Fl.sub noFix2
/-- src/multiplication.c:48-64, `takum_linear8_multiplication … takum_linear64_multiplication`. -/
def linMultiplication : (w : W) → T w → T w → C (T w) := binaryLin Fl.mul noFix2
/-- src/division.c:48-63, `takum_linear8_division … takum_linear64_division`. -/
def linDivision : (w : W) → T w → T w → C (T w) := binaryLin Fl.div noFix2
/-- src/inversion.c:57-67, `inversionl` and `inversion`: the `double` version divides in
`long double` and converts the result. -/
def invFn (F : Fmt) (f : Fl) : Fl := Fl.cast F (Fl.div x80 (.num 1) f)
/-- src/inversion.c:54-69, `takum_linear8_inversion … takum_linear64_inversion`. -/
def linInversion : (w : W) → T w → C (T w) := unaryLin invFn noFix
/-- src/square_root.c:57-60, `takum_linear8_square_root … takum_linear64_square_root`. -/
def linSquareRoot : (w : W) → T w → C (T w) := unaryLin Fl.sqrt noFix

/-! ## Logarithmic addition and subtraction -/

/-- src/addition.c:23, `takum8_addition … takum64_addition`. -/
def addition (L : Libm) : (w : W) → T w → T w → C (T w) := binaryLog L (Fl.add x80) noFix2
/-- src/subtraction.c:24, `takum8_subtraction … takum64_subtraction`. -/
def subtraction (L : Libm) : (w : W) → T w → T w → C (T w) := binaryLog L (Fl.sub x80) noFix2

/-! ## Result fixers -/

/-- src/exp.c:8-9, src/2_raised.c:8-9, src/10_raised.c:23-24. -/
def fixExp (_ res : Fl) : Fl :=
  if Fl.eq res (.zero false) then DBL_MIN else if res.isinf then DBL_MAX else res
/-- src/exp.c:15-16, src/2_raised.c:33-34, src/10_raised.c:49-50, src/cosh.c:8, src/arcosh.c:8. -/
def fixInf (_ res : Fl) : Fl := if res.isinf then DBL_MAX else res
/-- src/ln.c:11-12, src/lb.c:15-16, src/lg.c:15-16. -/
def fixLog (_ res : Fl) : Fl := if res.isinf && Fl.lt (.zero false) res then DBL_MAX else res
/-- src/sinh.c:7-8, src/arsinh.c:8-9. -/
def fixSinh (_ res : Fl) : Fl :=
  if res.isinf then (if Fl.le (.zero false) res then DBL_MAX else DBL_MAX.neg) else res
/-- src/csch.c:14-15. -/
def fixCsch (arg res : Fl) : Fl :=
  if Fl.eq res (.zero false) then (if Fl.lt arg (.zero false) then DBL_MIN.neg else DBL_MIN) else res
/-- src/sech.c:10. -/
def fixSech (_ res : Fl) : Fl := if Fl.eq res (.zero false) then DBL_MIN else res
/-- src/power.c:11-18; `NAN` is a `float`. -/
def fixPower (a _ res : Fl) : Fl :=
  if Fl.eq res (.zero false) then
    (if Fl.eq a (.zero false) then .zero false else if res.sgn then DBL_MIN.neg else DBL_MIN)
  else if res.isinf then
    (if Fl.eq a (.zero false) then .nan else if res.sgn then DBL_MAX.neg else DBL_MAX)
  else res
/-- src/hypotenuse.c:8. -/
def fixHypot (_ _ res : Fl) : Fl := if res.isinf then DBL_MAX else res

/-! ## The float functions -/

/-- src/sin.c:21-39, `sinpil`. -/
def sinpil (L : Libm) (f : Fl) : Fl :=
  let m := Fl.fmod f (.num 2)
  if Fl.eq m (.zero false) then .zero false
  else if Fl.eq m (.num (1 / 2)) then .num 1
  else if Fl.eq m (.num 1) then .zero false
  else if Fl.eq m (.num (3 / 2)) then .num (-1)
  else L.sin x80 (Fl.mul x80 PI f)

/-- src/cos.c:21-39, `cospil`. -/
def cospil (L : Libm) (f : Fl) : Fl :=
  let m := Fl.fmod f (.num 2)
  if Fl.eq m (.zero false) then .num 1
  else if Fl.eq m (.num (1 / 2)) then .zero false
  else if Fl.eq m (.num 1) then .num (-1)
  else if Fl.eq m (.num (3 / 2)) then .zero false
  else L.cos x80 (Fl.mul x80 PI f)

/-- src/tan.c:28-42, `tanpil`. -/
def tanpil (L : Libm) (f : Fl) : Fl :=
  let m := Fl.fmod f (.num 1)
  if Fl.eq m (.zero false) then .zero false
  else if Fl.eq m (.num (1 / 2)) then .nan
  else L.tan x80 (Fl.mul x80 PI f)

/-- src/csc.c:14-18, `cscl`. -/
def cscl (L : Libm) (f : Fl) : Fl := Fl.div x80 (.num 1) (L.sin x80 f)
/-- src/sec.c:14-18, `secl`. -/
def secl (L : Libm) (f : Fl) : Fl := Fl.div x80 (.num 1) (L.cos x80 f)
/-- src/cot.c:11-15, `cotl`. -/
def cotl (L : Libm) (f : Fl) : Fl := Fl.div x80 (.num 1) (L.tan x80 f)

/-- src/csc.c:29-47, `csc_pi_timesl`. -/
def cscPiTimesl (L : Libm) (f : Fl) : Fl :=
  let m := Fl.fmod f (.num 2)
  if Fl.eq m (.zero false) then .nan
  else if Fl.eq m (.num (1 / 2)) then .num 1
  else if Fl.eq m (.num 1) then .nan
  else if Fl.eq m (.num (3 / 2)) then .num (-1)
  else cscl L (Fl.mul x80 PI f)

/-- src/sec.c:29-47, `sec_pi_timesl`. -/
def secPiTimesl (L : Libm) (f : Fl) : Fl :=
  let m := Fl.fmod f (.num 2)
  if Fl.eq m (.zero false) then .num 1
  else if Fl.eq m (.num (1 / 2)) then .nan
  else if Fl.eq m (.num 1) then .num (-1)
  else if Fl.eq m (.num (3 / 2)) then .nan
  else secl L (Fl.mul x80 PI f)

/-- src/cot.c:26-40, `cot_pi_timesl`. -/
def cotPiTimesl (L : Libm) (f : Fl) : Fl :=
  let m := Fl.fmod f (.num 1)
  if Fl.eq m (.zero false) then .nan
  else if Fl.eq m (.num (1 / 2)) then .zero false
  else cotl L (Fl.mul x80 PI f)

/-- src/arccot.c:11-19, `arccotl`. -/
def arccotl (L : Libm) (f : Fl) : Fl :=
  if Fl.le (.zero false) f then L.atan x80 (Fl.div x80 (.num 1) f)
  else Fl.add x80 (L.atan x80 (Fl.div x80 (.num 1) f)) PI

/-- src/arccot.c:30-38, `arccot_over_pil`. -/
def arccotOverPil (L : Libm) (f : Fl) : Fl :=
  if Fl.le (.zero false) f then Fl.div x80 (L.atan x80 (Fl.div x80 (.num 1) f)) PI
  else Fl.add x80 (Fl.div x80 (L.atan x80 (Fl.div x80 (.num 1) f)) PI) (.num 1)

/-- The unary elementary functions that exist for all eight takum types. -/
inductive UFun
  | ten_raised | ten_raised_minus_1 | two_raised | two_raised_minus_1 | exp | exp_minus_1
  | ln | ln_1_plus | lb | lb_1_plus | lg | lg_1_plus
  | sin | cos | tan | csc | sec | cot
  | sin_pi_times | cos_pi_times | tan_pi_times | csc_pi_times | sec_pi_times | cot_pi_times
  | arcsin | arccos | arctan | arccsc | arcsec | arccot
  | arcsin_over_pi | arccos_over_pi | arctan_over_pi | arccsc_over_pi | arcsec_over_pi
  | arccot_over_pi
  | sinh | cosh | tanh | csch | sech | coth
  | arsinh | arcosh | artanh | arcsch | arsech | arcoth
  deriving DecidableEq, Repr

/-- The `long double` function passed to the wrapper (name with suffix `l`). -/
def UFun.evl (L : Libm) : UFun → Fl → Fl
  | .ten_raised, f => L.pow x80 (.num 10) f                                  -- 10_raised.c:16-20
  | .ten_raised_minus_1, f => Fl.sub x80 (L.pow x80 (.num 10) f) (.num 1)    -- 10_raised.c:42-46
  | .two_raised, f => L.exp2 x80 f                                           -- 2_raised.c:11
  | .two_raised_minus_1, f => Fl.sub x80 (L.exp2 x80 f) (.num 1)             -- 2_raised.c:26-30
  | .exp, f => L.exp x80 f                                                   -- exp.c:11
  | .exp_minus_1, f => L.expm1 x80 f                                         -- exp.c:18
  | .ln, f => L.log x80 f                                                    -- ln.c:14
  | .ln_1_plus, f => L.log1p x80 f                                           -- ln.c:17
  | .lb, f => L.log2 x80 f                                                   -- lb.c:18
  | .lb_1_plus, f => Fl.mul x80 LB_E (L.log1p x80 f)                         -- lb.c:21-25
  | .lg, f => L.log10 x80 f                                                  -- lg.c:18
  | .lg_1_plus, f => Fl.mul x80 LG_E (L.log1p x80 f)                         -- lg.c:21-25
  | .sin, f => L.sin x80 f                                                   -- sin.c:13
  | .cos, f => L.cos x80 f                                                   -- cos.c:13
  | .tan, f => L.tan x80 f                                                   -- tan.c:17
  | .csc, f => cscl L f                                                      -- csc.c:26
  | .sec, f => secl L f                                                      -- sec.c:26
  | .cot, f => cotl L f                                                      -- cot.c:23
  | .sin_pi_times, f => sinpil L f                                           -- sin.c:47
  | .cos_pi_times, f => cospil L f                                           -- cos.c:47
  | .tan_pi_times, f => tanpil L f                                           -- tan.c:50
  | .csc_pi_times, f => cscPiTimesl L f                                      -- csc.c:55
  | .sec_pi_times, f => secPiTimesl L f                                      -- sec.c:55
  | .cot_pi_times, f => cotPiTimesl L f                                      -- cot.c:48
  | .arcsin, f => L.asin x80 f                                               -- arcsin.c:9
  | .arccos, f => L.acos x80 f                                               -- arccos.c:9
  | .arctan, f => L.atan x80 f                                               -- arctan.c:9
  | .arccsc, f => L.asin x80 (Fl.div x80 (.num 1) f)                         -- arccsc.c:11-15
  | .arcsec, f => L.acos x80 (Fl.div x80 (.num 1) f)                         -- arcsec.c:11-15
  | .arccot, f => arccotl L f                                                -- arccot.c:27
  | .arcsin_over_pi, f => Fl.div x80 (L.asin x80 f) PI                       -- arcsin.c:17-21
  | .arccos_over_pi, f => Fl.div x80 (L.acos x80 f) PI                       -- arccos.c:23-27
  | .arctan_over_pi, f => Fl.div x80 (L.atan x80 f) PI                       -- arctan.c:23-27
  | .arccsc_over_pi, f => Fl.div x80 (L.asin x80 (Fl.div x80 (.num 1) f)) PI -- arccsc.c:26-30
  | .arcsec_over_pi, f => Fl.div x80 (L.acos x80 (Fl.div x80 (.num 1) f)) PI -- arcsec.c:26-30
  | .arccot_over_pi, f => arccotOverPil L f                                  -- arccot.c:46
  | .sinh, f => L.sinh x80 f                                                 -- sinh.c:10
  | .cosh, f => L.cosh x80 f                                                 -- cosh.c:10
  | .tanh, f => L.tanh x80 f                                                 -- tanh.c:9
  | .csch, f => Fl.div x80 (.num 1) (L.sinh x80 f)                           -- csch.c:17-21
  | .sech, f => Fl.div x80 (.num 1) (L.cosh x80 f)                           -- sech.c:18-22
  | .coth, f => Fl.div x80 (.num 1) (L.tanh x80 f)                           -- coth.c:11-15
  | .arsinh, f => L.asinh x80 f                                              -- arsinh.c:11
  | .arcosh, f => L.acosh x80 f                                              -- arcosh.c:10
  | .artanh, f => L.atanh x80 f                                              -- artanh.c:9
  | .arcsch, f => L.asinh b64 (Fl.cast b64 (Fl.div x80 (.num 1) f))          -- arcsch.c:11-15 (asinh, not asinhl)
  | .arsech, f => L.acosh x80 (Fl.div x80 (.num 1) f)                        -- arsech.c:11-15
  | .arcoth, f => L.atanh b64 (Fl.cast b64 (Fl.div x80 (.num 1) f))          -- arcoth.c:11-15 (atanh, not atanhl)

/-- The `double` function passed to the wrapper: the math library's own (first group), `1.0 / cosh(f)`
(src/sech.c:12-16), or the `long double` function with the result converted (the rest, for instance
src/csc.c:20-24, src/2_raised.c:20-24, src/arccos.c:17-21). -/
def UFun.evd (L : Libm) : UFun → Fl → Fl
  | .two_raised, f => L.exp2 b64 f
  | .exp, f => L.exp b64 f
  | .exp_minus_1, f => L.expm1 b64 f
  | .ln, f => L.log b64 f
  | .ln_1_plus, f => L.log1p b64 f
  | .lb, f => L.log2 b64 f
  | .lg, f => L.log10 b64 f
  | .sin, f => L.sin b64 f
  | .cos, f => L.cos b64 f
  | .tan, f => L.tan b64 f
  | .arcsin, f => L.asin b64 f
  | .arccos, f => L.acos b64 f
  | .arctan, f => L.atan b64 f
  | .sinh, f => L.sinh b64 f
  | .cosh, f => L.cosh b64 f
  | .tanh, f => L.tanh b64 f
  | .arsinh, f => L.asinh b64 f
  | .arcosh, f => L.acosh b64 f
  | .artanh, f => L.atanh b64 f
  | .sech, f => Fl.div b64 (.num 1) (L.cosh b64 f)
  | u, f => Fl.cast b64 (u.evl L f)

/-- The `double` (`b64`) or `long double` function passed to the wrapper; see `UFun.evd` and
`UFun.evl` for the lines. -/
def UFun.ev (L : Libm) (u : UFun) (F : Fmt) (f : Fl) : Fl :=
  if F = b64 then u.evd L f else u.evl L f

/-- The result fixer passed to the wrapper; see the fixers for the lines. -/
def UFun.fix : UFun → Fl → Fl → Fl
  | .ten_raised | .two_raised | .exp => fixExp
  | .ten_raised_minus_1 | .two_raised_minus_1 | .exp_minus_1 | .cosh | .arcosh => fixInf
  | .ln | .ln_1_plus | .lb | .lb_1_plus | .lg | .lg_1_plus => fixLog
  | .sinh | .arsinh => fixSinh
  | .csch => fixCsch
  | .sech => fixSech
  | _ => noFix

/-- `takum8_NAME … takum64_NAME` for the unary elementary functions (the lines with
`UTIL_UNARY_FLOAT_TAKUM_WRAPPER` in the files cited at `UFun.evl`). -/
def UFun.log (L : Libm) (u : UFun) : (w : W) → T w → C (T w) := unaryLog L (u.evl L) u.fix

/-- `takum_linear8_NAME … takum_linear64_NAME` (the lines with
`UTIL_UNARY_FLOAT_TAKUM_LINEAR_WRAPPER` in the files cited at `UFun.evl`). -/
def UFun.lin (L : Libm) (u : UFun) : (w : W) → T w → C (T w) := unaryLin (u.ev L) u.fix

/-- The binary elementary functions that exist for all eight takum types. -/
inductive BFun
  | arctan2 | arctan2_over_pi | hypotenuse | power
  deriving DecidableEq, Repr

/-- The `double` (`b64`) or `long double` (`x80`) function passed to the wrapper:
src/arctan2.c:9-10, src/arctan2.c:17-27, src/hypotenuse.c:10-11, src/power.c:20-21. -/
def BFun.ev (L : Libm) : BFun → Fmt → Fl → Fl → Fl
  | .arctan2, F, a, b => L.atan2 F a b
  | .arctan2_over_pi, F, a, b => Fl.cast F (Fl.div x80 (L.atan2 x80 a b) PI)
  | .hypotenuse, F, a, b => L.hypot F a b
  | .power, F, a, b => L.pow F a b

/-- The result fixer: src/arctan2.c:7, src/hypotenuse.c:8, src/power.c:11-18. -/
def BFun.fix : BFun → Fl → Fl → Fl → Fl
  | .arctan2 | .arctan2_over_pi => noFix2
  | .hypotenuse => fixHypot
  | .power => fixPower

/-- src/arctan2.c:9, 29, src/hypotenuse.c:10, src/power.c:20: the logarithmic versions. -/
def BFun.log (L : Libm) (u : BFun) : (w : W) → T w → T w → C (T w) :=
  binaryLog L (u.ev L x80) u.fix

/-- src/arctan2.c:10, 30, src/hypotenuse.c:11, src/power.c:21: the linear versions. -/
def BFun.lin (L : Libm) (u : BFun) : (w : W) → T w → T w → C (T w) := binaryLin (u.ev L) u.fix

end Takum
