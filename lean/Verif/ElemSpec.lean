import Verif.Spec
import Verif.Manual
import Mathlib.Analysis.SpecialFunctions.Log.Base
import Mathlib.Analysis.SpecialFunctions.Trigonometric.Inverse
import Mathlib.Analysis.SpecialFunctions.Trigonometric.Arctan
import Mathlib.Analysis.SpecialFunctions.Arsinh

/-!
# What the elementary functions compute

The real functions, where they are defined, and the tolerated errors.  Refers to the model only for the names
of the functions.
-/

namespace Takum
open Spec

namespace Spec

/-- `t` is one of the takums enclosing the real number `y` (`y` itself if it is a takum); numbers beyond the
largest and below the smallest magnitude saturate, only 0 becomes 0. -/
def Faithful {n : ℕ} (k : Kind) (y : ℝ) (t : BitVec n) : Prop :=
  t ≠ nar n ∧ (t = 0#n ↔ y = 0) ∧ ∀ (s : BitVec n) (v : ℝ), value k s = some v →
    (v ≤ y → s.toInt ≤ t.toInt) ∧ (y ≤ v → t.toInt ≤ s.toInt)

end Spec

/-- The real functions. -/
noncomputable def realFn : UFun → ℝ → ℝ
  | .ten_raised, x => (10 : ℝ) ^ x
  | .ten_raised_minus_1, x => (10 : ℝ) ^ x - 1
  | .two_raised, x => (2 : ℝ) ^ x
  | .two_raised_minus_1, x => (2 : ℝ) ^ x - 1
  | .exp, x => Real.exp x
  | .exp_minus_1, x => Real.exp x - 1
  | .ln, x => Real.log x
  | .ln_1_plus, x => Real.log (1 + x)
  | .lb, x => Real.logb 2 x
  | .lb_1_plus, x => Real.logb 2 (1 + x)
  | .lg, x => Real.logb 10 x
  | .lg_1_plus, x => Real.logb 10 (1 + x)
  | .sin, x => Real.sin x
  | .cos, x => Real.cos x
  | .tan, x => Real.tan x
  | .csc, x => 1 / Real.sin x
  | .sec, x => 1 / Real.cos x
  | .cot, x => Real.cos x / Real.sin x
  | .sin_pi_times, x => Real.sin (Real.pi * x)
  | .cos_pi_times, x => Real.cos (Real.pi * x)
  | .tan_pi_times, x => Real.tan (Real.pi * x)
  | .csc_pi_times, x => 1 / Real.sin (Real.pi * x)
  | .sec_pi_times, x => 1 / Real.cos (Real.pi * x)
  | .cot_pi_times, x => Real.cos (Real.pi * x) / Real.sin (Real.pi * x)
  | .arcsin, x => Real.arcsin x
  | .arccos, x => Real.arccos x
  | .arctan, x => Real.arctan x
  | .arccsc, x => Real.arcsin (1 / x)
  | .arcsec, x => Real.arccos (1 / x)
  | .arccot, x => Real.pi / 2 - Real.arctan x
  | .arcsin_over_pi, x => Real.arcsin x / Real.pi
  | .arccos_over_pi, x => Real.arccos x / Real.pi
  | .arctan_over_pi, x => Real.arctan x / Real.pi
  | .arccsc_over_pi, x => Real.arcsin (1 / x) / Real.pi
  | .arcsec_over_pi, x => Real.arccos (1 / x) / Real.pi
  | .arccot_over_pi, x => (Real.pi / 2 - Real.arctan x) / Real.pi
  | .sinh, x => Real.sinh x
  | .cosh, x => Real.cosh x
  | .tanh, x => Real.tanh x
  | .csch, x => 1 / Real.sinh x
  | .sech, x => 1 / Real.cosh x
  | .coth, x => Real.cosh x / Real.sinh x
  | .arsinh, x => Real.arsinh x
  | .arcosh, x => Real.log (x + Real.sqrt (x ^ 2 - 1))
  | .artanh, x => Real.log ((1 + x) / (1 - x)) / 2
  | .arcsch, x => Real.arsinh (1 / x)
  | .arsech, x => Real.log ((1 + Real.sqrt (1 - x ^ 2)) / x)
  | .arcoth, x => Real.log ((x + 1) / (x - 1)) / 2

/-- The arguments at which the real function is not defined. -/
def Undefined : UFun → ℝ → Prop
  | .tan, x | .sec, x => Real.cos x = 0
  | .csc, x | .cot, x => Real.sin x = 0
  | .tan_pi_times, x | .sec_pi_times, x => Real.cos (Real.pi * x) = 0
  | .csc_pi_times, x | .cot_pi_times, x => Real.sin (Real.pi * x) = 0
  | u, x => Excluded u x

/-- What the error of the result is relative to: its magnitude, except for `2^x - 1` and `10^x - 1`, which are
computed by a subtraction. -/
def errScale : UFun → ℝ → ℝ
  | .two_raised_minus_1, y | .ten_raised_minus_1, y => |y| + 1
  | _, y => |y|

/-- Tolerated relative error of the argument: of the conversion of a logarithmic takum, of the product with
`π`, of the reciprocal (for `arcsch` and `arcoth` in `double`). -/
noncomputable def argTol (k : Kind) (u : UFun) : ℝ :=
  (match k with
    | .log => 1 / 2 ^ 56
    | .lin => 0) +
  (match u with
    | .sin_pi_times | .cos_pi_times | .tan_pi_times | .csc_pi_times | .sec_pi_times | .cot_pi_times => 1 / 2 ^ 62
    | .arccsc | .arcsec | .arccot | .arccsc_over_pi | .arcsec_over_pi | .arccot_over_pi | .arsech => 1 / 2 ^ 62
    | .arcsch | .arcoth => 1 / 2 ^ 52
    | _ => 0)

/-- Tolerated relative error of the result before it is rounded to a takum. -/
noncomputable def resTol (k : Kind) (w : W) (u : UFun) : ℝ :=
  match k, w, u with
  | .log, _, .arcsch => 1 / 2 ^ 50
  | .log, _, .arcoth => 1 / 2 ^ 50
  | .log, _, _ => 1 / 2 ^ 54
  | .lin, .w64, .arcsch => 1 / 2 ^ 50
  | .lin, .w64, .arcoth => 1 / 2 ^ 50
  | .lin, .w64, _ => 1 / 2 ^ 60
  | .lin, _, _ => 1 / 2 ^ 50

end Takum
