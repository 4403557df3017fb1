import Verif.Manual
import Mathlib.Data.Real.Basic
import Mathlib.Algebra.Order.Group.Unbundled.Abs

/-!
# The NaR conditions of the manual pages, word for word

`Excluded` (Manual.lean) gives the domains that the code implements; here is what the pages say, including the slips.
The variable `NAN_CONDITION` in line 5 of man/takum64_NAME.sh and, the same text, man/takum_linear64_NAME.sh, which the scripts of the
narrower types call.
-/

namespace Takum

/-- `NAN_CONDITION` of the unary elementary functions. -/
def ManualNaR : UFun → ℝ → Prop
  | .ln, x | .lb, x | .lg, x => x ≤ 0                                        -- "is smaller than or equal to zero"
  | .ln_1_plus, x | .lb_1_plus, x | .lg_1_plus, x => x ≤ -1                  -- "is smaller than or equal to minus one"
  | .arcsin, x | .arccos, x | .arcsin_over_pi, x | .arccos_over_pi, x => 1 < |x| -- "is outside [-1, 1]"
  | .arccsc, x | .arcsec, x | .arccsc_over_pi, x => |x| < 1                  -- "is in (-1, 1)"
  | .arcsec_over_pi, x => 1 < |x|                                            -- "is outside [-1, 1]"
  | .csch, x | .coth, x | .arcsch, x | .cot, x => x = 0                      -- "is zero"; "is in zero"
  | .arcosh, x => x < 1                                                      -- "is smaller than one"
  | .artanh, x => 1 ≤ |x|                                                    -- "is outside (-1,1)"
  | .arsech, x => x ≤ 0 ∨ 1 < x                                              -- "is outside (0,1]"
  | .arcoth, x => |x| ≤ 1                                                    -- "is in [-1, 1]"
  | .csc_pi_times, x | .cot_pi_times, x => ∃ n : ℤ, x = n                    -- "is an integral value"
  | _, _ => False                                                            -- empty; csc, tan, sec, tan_pi_times, sec_pi_times among them

/-- `NAN_CONDITION` of root: "a and b are zero, or a is smaller than zero and b is even". -/
def ManualRootNaR (x : ℝ) (n : ℤ) : Prop := (x = 0 ∧ n = 0) ∨ (x < 0 ∧ n % 2 = 0)

/-- The functions whose page is right for all types. -/
def PageRight : UFun → Bool
  | .arcsec_over_pi | .csc | .arcoth | .tan_pi_times | .csc_pi_times | .sec_pi_times | .cot_pi_times => false
  | _ => true

end Takum
