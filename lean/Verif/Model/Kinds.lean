import Verif.Spec
import Verif.Model.Elementary

/-!
# The elementary functions of both families under one name

Nothing new is modelled here: `UFun.call L u .log` are the functions `takumN_u`, `UFun.call L u .lin`
the functions `takum_linearN_u` (see `UFun.log` and `UFun.lin` in `Elementary.lean` for the lines).
-/

namespace Takum
open Spec

/-- `takumN_u` or `takum_linearN_u` (src/util.h:24-98 and the files cited at `UFun.evl`). -/
def UFun.call (L : Libm) (u : UFun) : Kind → (w : W) → T w → C (T w)
  | .log => u.log L
  | .lin => u.lin L

/-- `takumN_u` or `takum_linearN_u` for the binary functions (src/util.h:100-201 and the files cited at
`BFun.ev`). -/
def BFun.call (L : Libm) (u : BFun) : Kind → (w : W) → T w → T w → C (T w)
  | .log => u.log L
  | .lin => u.lin L

/-- `takumN_integer_power` or `takum_linearN_integer_power` (src/integer_power.c:24-164). -/
def integerPowerOf (L : Libm) : Kind → (w : W) → T w → BitVec 64 → C (T w)
  | .log => integerPower L
  | .lin => linIntegerPower L

end Takum
