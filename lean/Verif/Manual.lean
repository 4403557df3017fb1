import Verif.Model.Elementary

/-!
# What the manual pages say about NaR

Refers to the model only for the names of the functions.
-/

namespace Takum

/-- The condition under which the manual pages (`NAN_CONDITION` in man/takum64_NAME.sh) say that the
function returns NaR for an argument other than NaR, on the value of the argument.  For `arcsec_over_pi`
the page says "outside [-1, 1]", which is the domain and an obvious slip; the condition of `arcsec` is
used. -/
def Excluded {K : Type*} [Field K] [LinearOrder K] : UFun → K → Prop
  | .ln, x | .lb, x | .lg, x => x ≤ 0
  | .ln_1_plus, x | .lb_1_plus, x | .lg_1_plus, x => x ≤ -1
  | .arcsin, x | .arccos, x | .arcsin_over_pi, x | .arccos_over_pi, x => 1 < |x|
  | .arccsc, x | .arcsec, x | .arccsc_over_pi, x | .arcsec_over_pi, x => |x| < 1
  | .csch, x | .coth, x | .arcsch, x => x = 0
  | .arcosh, x => x < 1
  | .artanh, x => 1 ≤ |x|
  | .arsech, x => x ≤ 0 ∨ 1 < x
  | .arcoth, x => |x| ≤ 1
  | _, _ => False

/-- The functions for which the documented condition is proved: all except those with infinitely many
poles. -/
def Covered : UFun → Bool
  | .tan | .csc | .sec | .cot | .tan_pi_times | .csc_pi_times | .sec_pi_times | .cot_pi_times => false
  | _ => true

end Takum
