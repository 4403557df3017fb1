import Verif.Model.Constants
import Mathlib.Analysis.Real.Pi.Bounds
import Mathlib.Analysis.SpecialFunctions.Log.Base
import Mathlib.NumberTheory.Harmonic.EulerMascheroni
import Mathlib.NumberTheory.Real.GoldenRatio

/-!
# The numbers named by the constants of takum.h
-/

namespace Takum

/-- The named real number (the comments above the macros in takum.h). -/
noncomputable def Const.real : Const → ℝ
  | .pi2 => 2 * Real.pi
  | .pi2_3 => 2 * Real.pi / 3
  | .pi2_5 => 2 * Real.pi / 5
  | .pi3 => 3 * Real.pi
  | .pi3_2 => 3 * Real.pi / 2
  | .pi3_4 => 3 * Real.pi / 4
  | .pi3_5 => 3 * Real.pi / 5
  | .pi4 => 4 * Real.pi
  | .pi4_3 => 4 * Real.pi / 3
  | .pi4_5 => 4 * Real.pi / 5
  | .pi5 => 5 * Real.pi
  | .pi5_2 => 5 * Real.pi / 2
  | .pi5_3 => 5 * Real.pi / 3
  | .pi5_4 => 5 * Real.pi / 4
  | .pi5_6 => 5 * Real.pi / 6
  | .pi6 => 6 * Real.pi
  | .pi6_5 => 6 * Real.pi / 5
  | .gamma => Real.eulerMascheroniConstant
  | .lb_10 => Real.logb 2 10
  | .lb_e => Real.logb 2 (Real.exp 1)
  | .lg_2 => Real.logb 10 2
  | .lg_e => Real.logb 10 (Real.exp 1)
  | .ln_10 => Real.log 10
  | .ln_2 => Real.log 2
  | .phi => Real.goldenRatio
  | .pi1 => Real.pi
  | .pi1_2 => Real.pi / 2
  | .pi1_3 => Real.pi / 3
  | .pi1_4 => Real.pi / 4
  | .pi1_5 => Real.pi / 5
  | .pi1_6 => Real.pi / 6
  | .sqrt2 => √2
  | .sqrt3 => √3
  | .sqrt5 => √5
  | .sqrt6 => √6

/-- No takum represents a number closer to `x` than `t` does. -/
def Closest {n : ℕ} (k : Spec.Kind) (t : BitVec n) (x : ℝ) : Prop :=
  ∃ v, Spec.value k t = some v ∧ ∀ (u : BitVec n) (y : ℝ), Spec.value k u = some y → |v - x| ≤ |y - x|

end Takum
