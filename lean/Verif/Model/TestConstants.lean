import Verif.Model.Constants
import Verif.Model.TestUtil

/-!
# Model of the test program of the constants, test/constants.c
-/

namespace Takum.Test
open Takum Spec

/-- test/constants.c:8-452, the member `value` of the entries of `constant_tests`; `none` is the entry
"1".  The literals have the suffix `L`. -/
def constantValue : Option Const → ℚ
  | some .pi2 => 6.2831853071795864769252867665590057683943 -- 22
  | some .pi2_3 => 2.0943951023931954923084289221863352561314 -- 34
  | some .pi2_5 => 1.2566370614359172953850573533118011536789 -- 46
  | some .pi3 => 9.4247779607693797153879301498385086525915 -- 58
  | some .pi3_2 => 4.7123889803846898576939650749192543262958 -- 70
  | some .pi3_4 => 2.3561944901923449288469825374596271631479 -- 82
  | some .pi3_5 => 1.8849555921538759430775860299677017305183 -- 94
  | some .pi4 => 12.566370614359172953850573533118011536789 -- 106
  | some .pi4_3 => 4.1887902047863909846168578443726705122629 -- 118
  | some .pi4_5 => 2.5132741228718345907701147066236023073577 -- 130
  | some .pi5 => 15.707963267948966192313216916397514420986 -- 142
  | some .pi5_2 => 7.8539816339744830961566084581987572104929 -- 154
  | some .pi5_3 => 5.2359877559829887307710723054658381403286 -- 166
  | some .pi5_4 => 3.9269908169872415480783042290993786052465 -- 178
  | some .pi5_6 => 2.6179938779914943653855361527329190701643 -- 190
  | some .pi6 => 18.849555921538759430775860299677017305183 -- 202
  | some .pi6_5 => 3.7699111843077518861551720599354034610366 -- 214
  | some .gamma => 0.5772156649015328606065120900824024310422 -- 226
  | some .lb_10 => 3.3219280948873623478703194294893901758648 -- 238
  | some .lb_e => 1.4426950408889634073599246810018921374266 -- 250
  | some .lg_2 => 0.3010299956639811952137388947244930267682 -- 262
  | some .lg_e => 0.4342944819032518276511289189166050822944 -- 274
  | some .ln_10 => 2.3025850929940456840179914546843642076011 -- 286
  | some .ln_2 => 0.6931471805599453094172321214581765680755 -- 298
  | none => 1.0 -- 310
  | some .phi => 1.6180339887498948482045868343656381177203 -- 322
  | some .pi1 => 3.1415926535897932384626433832795028841972 -- 334
  | some .pi1_2 => 1.5707963267948966192313216916397514420986 -- 346
  | some .pi1_3 => 1.0471975511965977461542144610931676280657 -- 358
  | some .pi1_4 => 0.78539816339744830961566084581987572104929 -- 370
  | some .pi1_5 => 0.62831853071795864769252867665590057683943 -- 382
  | some .pi1_6 => 0.52359877559829887307710723054658381403286 -- 394
  | some .sqrt2 => 1.4142135623730950488016887242096980785697 -- 406
  | some .sqrt3 => 1.7320508075688772935274463415058723669428 -- 418
  | some .sqrt5 => 2.2360679774997896964091736687312762354406 -- 430
  | some .sqrt6 => 2.4494897427831780981972840747058913919659 -- 442

/-- test/constants.c:8-452, the members `takum8_value … takum_linear64_value`: `TAKUM8_2_PI` and so on,
and `TAKUM8_ONE` and so on for the entry "1". -/
def expectedConstant : Option Const → Kind → (w : W) → T w
  | none, _, w => ONE w
  | some c, k, w => c.takum k w

/-- test/constants.c:8-452, `constant_tests`. -/
def constantTests : List (Option Const) := [some .pi2, some .pi2_3, some .pi2_5, some .pi3, some .pi3_2, some .pi3_4, some .pi3_5, some .pi4, some .pi4_3, some .pi4_5, some .pi5, some .pi5_2, some .pi5_3, some .pi5_4, some .pi5_6, some .pi6, some .pi6_5, some .gamma, some .lb_10, some .lb_e, some .lg_2, some .lg_e, some .ln_10, some .ln_2, none, some .phi, some .pi1, some .pi1_2, some .pi1_3, some .pi1_4, some .pi1_5, some .pi1_6, some .sqrt2, some .sqrt3, some .sqrt5, some .sqrt6]

/-- test/constants.c:472-595, one comparison: 1 if it fails (the message is not modelled). -/
def constantFails (L : Libm) (c : Option Const) (p : Kind × W) : C ℕ := do
  let f : Fl := .num (x80.rq (constantValue c))
  let reference ← match p.1 with
    | .log => fromExtended L p.2 f
    | .lin => linFromExtended p.2 f
  return if expectedConstant c p.1 p.2 = reference then 0 else 1

/-- test/constants.c:454-599, `main`: the value returned, `failed_count`.  (The exit status is this number
modulo 256; there are 288 comparisons.) -/
def constantsMain (L : Libm) : C ℕ :=
  constantTests.foldlM (fun n c =>
    [(.log, .w8), (.log, .w16), (.log, .w32), (.log, .w64), (.lin, .w8), (.lin, .w16), (.lin, .w32), (.lin, .w64)].foldlM
      (fun n p => do return n + (← constantFails L c p)) n) 0

end Takum.Test
