import Verif.ElemSpec
import Mathlib.Analysis.SpecialFunctions.Complex.Arg

/-!
# What the functions of two arguments compute

The real functions, where they are defined, and the tolerated errors.  Refers to the model only for the names
of the functions.
-/

namespace Takum
open Spec

/-- The real functions.  The first argument of `arctan2` is the ordinate.  `Real.rpow` is the power for a
positive base, for any base if the exponent is an integer, and `0 ^ b` is 0 for `b ≠ 0` and 1 for `b = 0`. -/
noncomputable def realFn2 : BFun → ℝ → ℝ → ℝ
  | .arctan2, a, b => Complex.arg ⟨b, a⟩
  | .arctan2_over_pi, a, b => Complex.arg ⟨b, a⟩ / Real.pi
  | .hypotenuse, a, b => Real.sqrt (a ^ 2 + b ^ 2)
  | .power, a, b => a ^ b

/-- Where they are not defined.  (The manual also excludes `0 ^ 0`, which the functions evaluate to 1.) -/
def Undefined2 : BFun → ℝ → ℝ → Prop
  | .power, a, b => (a = 0 ∧ b < 0) ∨ (a < 0 ∧ ¬∃ k : ℤ, b = k)
  | _, _, _ => False

/-- Tolerated relative error of each argument: of the conversion of a logarithmic takum. -/
noncomputable def argTol2 : Kind → ℝ
  | .log => 1 / 2 ^ 56
  | .lin => 0

/-- Tolerated relative error of the result before it is rounded to a takum. -/
noncomputable def resTol2 : Kind → W → ℝ
  | .log, _ => 1 / 2 ^ 54
  | .lin, .w64 => 1 / 2 ^ 60
  | .lin, _ => 1 / 2 ^ 50

/-- The same for functions that work in `long double` for all widths. -/
noncomputable def resTolE : Kind → ℝ
  | .log => 1 / 2 ^ 54
  | .lin => 1 / 2 ^ 60

end Takum
