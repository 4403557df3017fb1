import Verif.LibmSpec
import Verif.Model.Families

/-!
# Tolerances of the conversions between floats and takums (C69)
-/

namespace Takum.Spec

/-- Relative error of the number whose logarithm is encoded: `log` works in `double` for `float` arguments
unless the takum has 64 bits, otherwise in `long double`. -/
noncomputable def fromTol : Src → W → ℝ
  | .f32, .w64 => 1 / 2 ^ 54
  | .f32, _ => 1 / 2 ^ 43
  | _, _ => 1 / 2 ^ 54

/-- Relative error of the float made from a logarithmic takum: `powf`, `pow` and `powl`, except that the
conversion from 8 bits to `double` uses `powl`. -/
noncomputable def toTol : Src → W → ℝ
  | .f32, _ => 1 / 2 ^ 15
  | .f64, .w8 => 1 / 2 ^ 52
  | .f64, _ => 1 / 2 ^ 44
  | .ext, _ => 1 / 2 ^ 56

/-- Tolerance of the conversion from logarithmic to linear takums: through `long double` if one of the two
has 64 bits, through `double` otherwise. -/
noncomputable def crossTol (a b : W) : ℝ := if a = .w64 ∨ b = .w64 then toTol .ext a else toTol .f64 a

end Takum.Spec

namespace Takum
open Spec

/-- `powf` with a base between 1 and 2 and an exponent up to 255 is within two units in the last place where
the power is between `2^-120` and `2^120`. -/
structure Libm.AccurateF (L : Libm) : Prop where
  pow : ∀ x l q, 1 < x → x < 2 → b32.In x → Fl.Is l q → b32.In q → |q| ≤ 255 →
    (2 : ℝ) ^ (-120 : ℤ) ≤ (x : ℝ) ^ (q : ℝ) → (x : ℝ) ^ (q : ℝ) ≤ (2 : ℝ) ^ (120 : ℤ) →
    ∃ z, L.pow b32 (.num x) l = .num z ∧ b32.In z ∧ |(z : ℝ) - (x : ℝ) ^ (q : ℝ)| ≤ 4 / 2 ^ 24 * (x : ℝ) ^ (q : ℝ)

end Takum
