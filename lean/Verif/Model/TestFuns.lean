import Verif.Model.TestUtil
import Verif.Model.Kinds

/-!
# Model of the test programs for arithmetic and for the elementary functions

The reference functions of the tests are computed in `long double`; constants without suffix, such as
`0.0`, are converted exactly.  `PI`, `LB_E` and `LG_E` are defined in test/util.h:17-19 with the
literals of src/util.h:7-9.
-/

namespace Takum.Test
open Takum Spec

/-- test/addition.c:7-11. -/
def additionReference (a b : Fl) : Fl := Fl.add x80 a b
/-- test/subtraction.c:7-11. -/
def subtractionReference (a b : Fl) : Fl := Fl.sub x80 a b
/-- test/multiplication.c:7-11. -/
def multiplicationReference (a b : Fl) : Fl := Fl.mul x80 a b
/-- test/division.c:7-11. -/
def divisionReference (a b : Fl) : Fl := Fl.div x80 a b
/-- test/inversion.c:7-11. -/
def inversionReference (a : Fl) : Fl := Fl.div x80 (.num 1) a
/-- test/square_root.c:7-11. -/
def squareRootReference (a : Fl) : Fl := Fl.sqrt x80 a

/-- test/addition.c:13-27, `addition_utb`. -/
def additionBlock (E : Env) : Block :=
  .binary additionReference fun k w => match k with
    | .log => addition E.L w
    | .lin => linAddition w
/-- test/subtraction.c:13-27, `subtraction_utb`. -/
def subtractionBlock (E : Env) : Block :=
  .binary subtractionReference fun k w => match k with
    | .log => subtraction E.L w
    | .lin => linSubtraction w
/-- test/multiplication.c:13-27, `multiplication_utb`. -/
def multiplicationBlock : Block :=
  .binary multiplicationReference fun k w => match k with
    | .log => multiplication w
    | .lin => linMultiplication w
/-- test/division.c:13-27, `division_utb`. -/
def divisionBlock : Block :=
  .binary divisionReference fun k w => match k with
    | .log => division w
    | .lin => linDivision w
/-- test/inversion.c:13-27, `inversion_utb`. -/
def inversionBlock : Block :=
  .unary inversionReference fun k w => match k with
    | .log => inversionC w
    | .lin => linInversion w
/-- test/square_root.c:13-27, `square_root_utb`. -/
def squareRootBlock : Block :=
  .unary squareRootReference fun k w => match k with
    | .log => squareRoot w
    | .lin => linSquareRoot w

/-- test/addition.c:29-36, `main`: the exit status. -/
def additionMain (E : Env) : R ℕ := runBlock E (additionBlock E)
/-- test/subtraction.c:29-36, `main`. -/
def subtractionMain (E : Env) : R ℕ := runBlock E (subtractionBlock E)
/-- test/multiplication.c:29-36, `main`. -/
def multiplicationMain (E : Env) : R ℕ := runBlock E multiplicationBlock
/-- test/division.c:29-36, `main`. -/
def divisionMain (E : Env) : R ℕ := runBlock E divisionBlock
/-- test/inversion.c:29-36, `main`. -/
def inversionMain (E : Env) : R ℕ := runBlock E inversionBlock
/-- test/square_root.c:29-36, `main`. -/
def squareRootMain (E : Env) : R ℕ := runBlock E squareRootBlock

/-! ## Elementary functions -/

/-- test/sin.c:29-47, `sin_pi_times_reference`. -/
def sinPiRef (L : Libm) (a : Fl) : Fl :=
  let m := Fl.fmod a (.num 2)
  if Fl.eq m (.zero false) then .zero false
  else if Fl.eq m (.num (1 / 2)) then .num 1
  else if Fl.eq m (.num 1) then .zero false
  else if Fl.eq m (.num (3 / 2)) then .num (-1)
  else L.sin x80 (Fl.mul x80 PI a)

/-- test/cos.c:30-48, `cos_pi_times_reference`. -/
def cosPiRef (L : Libm) (a : Fl) : Fl :=
  let m := Fl.fmod a (.num 2)
  if Fl.eq m (.zero false) then .num 1
  else if Fl.eq m (.num (1 / 2)) then .zero false
  else if Fl.eq m (.num 1) then .num (-1)
  else if Fl.eq m (.num (3 / 2)) then .zero false
  else L.cos x80 (Fl.mul x80 PI a)

/-- test/tan.c:29-43, `tan_pi_times_reference`. -/
def tanPiRef (L : Libm) (a : Fl) : Fl :=
  let m := Fl.fmod a (.num 1)
  if Fl.eq m (.zero false) then .zero false
  else if Fl.eq m (.num (1 / 2)) then .nan
  else L.tan x80 (Fl.mul x80 PI a)

/-- test/csc.c:7-11, `csc_reference`. -/
def cscRef (L : Libm) (a : Fl) : Fl := Fl.div x80 (.num 1) (L.sin x80 a)
/-- test/sec.c:7-11, `sec_reference`. -/
def secRef (L : Libm) (a : Fl) : Fl := Fl.div x80 (.num 1) (L.cos x80 a)
/-- test/cot.c:7-11, `cot_reference`. -/
def cotRef (L : Libm) (a : Fl) : Fl := Fl.div x80 (.num 1) (L.tan x80 a)

/-- test/csc.c:29-47, `csc_pi_times_reference`. -/
def cscPiRef (L : Libm) (a : Fl) : Fl :=
  let m := Fl.fmod a (.num 2)
  if Fl.eq m (.zero false) then .nan
  else if Fl.eq m (.num (1 / 2)) then .num 1
  else if Fl.eq m (.num 1) then .nan
  else if Fl.eq m (.num (3 / 2)) then .num (-1)
  else cscRef L (Fl.mul x80 PI a)

/-- test/sec.c:29-47, `sec_pi_times_reference`. -/
def secPiRef (L : Libm) (a : Fl) : Fl :=
  let m := Fl.fmod a (.num 2)
  if Fl.eq m (.zero false) then .num 1
  else if Fl.eq m (.num (1 / 2)) then .nan
  else if Fl.eq m (.num 1) then .num (-1)
  else if Fl.eq m (.num (3 / 2)) then .nan
  else secRef L (Fl.mul x80 PI a)

/-- test/cot.c:29-43, `cot_pi_times_reference`. -/
def cotPiRef (L : Libm) (a : Fl) : Fl :=
  let m := Fl.fmod a (.num 1)
  if Fl.eq m (.zero false) then .nan
  else if Fl.eq m (.num (1 / 2)) then .zero false
  else cotRef L (Fl.mul x80 PI a)

/-- test/arccot.c:7-15, `arccot_reference`. -/
def arccotRef (L : Libm) (a : Fl) : Fl :=
  if Fl.le (.zero false) a then L.atan x80 (Fl.div x80 (.num 1) a)
  else Fl.add x80 (L.atan x80 (Fl.div x80 (.num 1) a)) PI

/-- test/arccot.c:33-41, `arccot_over_pi_reference`. -/
def arccotPiRef (L : Libm) (a : Fl) : Fl :=
  if Fl.le (.zero false) a then Fl.div x80 (L.atan x80 (Fl.div x80 (.num 1) a)) PI
  else Fl.add x80 (Fl.div x80 (L.atan x80 (Fl.div x80 (.num 1) a)) PI) (.num 1)

/-- The reference functions of the tests of the unary elementary functions: the first function of a
file is at lines 7-11 (but `arccot`), the second at lines 29-33 where no lines are given above. -/
def refU (L : Libm) : UFun → Fl → Fl
  | .ten_raised, a => L.pow x80 (.num 10) a                                  -- test/10_raised.c:7-11
  | .ten_raised_minus_1, a => Fl.sub x80 (L.pow x80 (.num 10) a) (.num 1)    -- test/10_raised.c:29-33
  | .two_raised, a => L.exp2 x80 a                                           -- test/2_raised.c:7-11
  | .two_raised_minus_1, a => Fl.sub x80 (L.exp2 x80 a) (.num 1)             -- test/2_raised.c:29-33
  | .exp, a => L.exp x80 a                                                   -- test/exp.c:7-11
  | .exp_minus_1, a => L.expm1 x80 a                                         -- test/exp.c:29-33
  | .ln, a => L.log x80 a                                                    -- test/ln.c:7-11
  | .ln_1_plus, a => L.log1p x80 a                                           -- test/ln.c:29-33
  | .lb, a => L.log2 x80 a                                                   -- test/lb.c:7-11
  | .lb_1_plus, a => Fl.mul x80 LB_E (L.log1p x80 a)                         -- test/lb.c:29-33
  | .lg, a => L.log10 x80 a                                                  -- test/lg.c:7-11
  | .lg_1_plus, a => Fl.mul x80 LG_E (L.log1p x80 a)                         -- test/lg.c:29-33
  | .sin, a => L.sin x80 a                                                   -- test/sin.c:7-11
  | .cos, a => L.cos x80 a                                                   -- test/cos.c:7-11
  | .tan, a => L.tan x80 a                                                   -- test/tan.c:7-11
  | .csc, a => cscRef L a
  | .sec, a => secRef L a
  | .cot, a => cotRef L a
  | .sin_pi_times, a => sinPiRef L a
  | .cos_pi_times, a => cosPiRef L a
  | .tan_pi_times, a => tanPiRef L a
  | .csc_pi_times, a => cscPiRef L a
  | .sec_pi_times, a => secPiRef L a
  | .cot_pi_times, a => cotPiRef L a
  | .arcsin, a => L.asin x80 a                                               -- test/arcsin.c:7-11
  | .arccos, a => L.acos x80 a                                               -- test/arccos.c:7-11
  | .arctan, a => L.atan x80 a                                               -- test/arctan.c:7-11
  | .arccsc, a => L.asin x80 (Fl.div x80 (.num 1) a)                         -- test/arccsc.c:7-11
  | .arcsec, a => L.acos x80 (Fl.div x80 (.num 1) a)                         -- test/arcsec.c:7-11
  | .arccot, a => arccotRef L a
  | .arcsin_over_pi, a => Fl.div x80 (L.asin x80 a) PI                       -- test/arcsin.c:29-33
  | .arccos_over_pi, a => Fl.div x80 (L.acos x80 a) PI                       -- test/arccos.c:29-33
  | .arctan_over_pi, a => Fl.div x80 (L.atan x80 a) PI                       -- test/arctan.c:29-33
  | .arccsc_over_pi, a => Fl.div x80 (L.asin x80 (Fl.div x80 (.num 1) a)) PI -- test/arccsc.c:29-33
  | .arcsec_over_pi, a => Fl.div x80 (L.acos x80 (Fl.div x80 (.num 1) a)) PI -- test/arcsec.c:29-33
  | .arccot_over_pi, a => arccotPiRef L a
  | .sinh, a => L.sinh x80 a                                                 -- test/sinh.c:7-11
  | .cosh, a => L.cosh x80 a                                                 -- test/cosh.c:7-11
  | .tanh, a => L.tanh x80 a                                                 -- test/tanh.c:7-11
  | .csch, a => Fl.div x80 (.num 1) (L.sinh x80 a)                           -- test/csch.c:7-11
  | .sech, a => Fl.div x80 (.num 1) (L.cosh x80 a)                           -- test/sech.c:7-11
  | .coth, a => Fl.div x80 (.num 1) (L.tanh x80 a)                           -- test/coth.c:7-11
  | .arsinh, a => L.asinh x80 a                                              -- test/arsinh.c:7-11
  | .arcosh, a => L.acosh x80 a                                              -- test/arcosh.c:7-11
  | .artanh, a => L.atanh x80 a                                              -- test/artanh.c:7-11
  | .arcsch, a => L.asinh b64 (Fl.cast b64 (Fl.div x80 (.num 1) a))          -- test/arcsch.c:7-11 (asinh)
  | .arsech, a => L.acosh x80 (Fl.div x80 (.num 1) a)                        -- test/arsech.c:7-11
  | .arcoth, a => L.atanh b64 (Fl.cast b64 (Fl.div x80 (.num 1) a))          -- test/arcoth.c:7-11 (atanh)

/-- test/arctan2.c:7-11, 29-33, test/hypotenuse.c:7-11, test/power.c:7-11: the reference functions of
the tests of the binary elementary functions. -/
def refB (L : Libm) : BFun → Fl → Fl → Fl
  | .arctan2, a, b => L.atan2 x80 a b
  | .arctan2_over_pi, a, b => Fl.div x80 (L.atan2 x80 a b) PI
  | .hypotenuse, a, b => L.hypot x80 a b
  | .power, a, b => L.pow x80 a b

/-- The test block of a unary elementary function (test/sin.c:13-27 and 49-63 and the like in the files
cited at `refU`). -/
def blockU (E : Env) (u : UFun) : Block := .unary (refU E.L u) (u.call E.L)

/-- The test block of a binary elementary function (test/arctan2.c:13-27, 35-49,
test/hypotenuse.c:13-27, test/power.c:13-27). -/
def blockB (E : Env) (u : BFun) : Block := .binary (refB E.L u) (u.call E.L)

end Takum.Test
