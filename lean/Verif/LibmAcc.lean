import Verif.LibmSpec
import Mathlib.Analysis.SpecialFunctions.Trigonometric.Arctan
import Mathlib.Analysis.SpecialFunctions.Arsinh
import Mathlib.Analysis.SpecialFunctions.Log.Base

/-!
# Accuracy of the math library

A hypothesis of some theorems; `Lemmas/IdealAcc.lean` proves that `ideal` satisfies it.
-/

namespace Takum

/-- The float `x` of type `F` approximates the real number `y`: it is 0 for 0, has a relative error of at most
two units in the last place if `|y|` is between `2^-1000` and `2^1000`; tiny numbers may become anything tiny
of the same sign or zero, huge numbers anything huge of the same sign or infinite. -/
structure Approx (F : Fmt) (y : ℝ) (x : Fl) : Prop where
  isIn : x.In F
  zero : y = 0 → x.Is 0
  mid : (2 : ℝ) ^ (-1000 : ℤ) ≤ |y| → |y| ≤ (2 : ℝ) ^ (1000 : ℤ) →
    ∃ z : ℚ, x.Is z ∧ |(z : ℝ) - y| ≤ 4 / 2 ^ F.prec * |y|
  tiny : y ≠ 0 → |y| < (2 : ℝ) ^ (-1000 : ℤ) → ∃ z : ℚ, x.Is z ∧ |z| ≤ (2 : ℚ) ^ (-999 : ℤ) ∧ 0 ≤ (z : ℝ) * y
  huge : (2 : ℝ) ^ (1000 : ℤ) < |y| →
    x = .inf (decide (y < 0)) ∨ ∃ z : ℚ, x = .num z ∧ (2 : ℚ) ^ (999 : ℤ) ≤ |z| ∧ 0 ≤ (z : ℝ) * y

/-- The functions of the library approximate the real functions in `double` and `long double`. -/
structure Libm.Approximates (L : Libm) : Prop where
  log : ∀ F, F = b64 ∨ F = x80 → ∀ x v, Fl.Is x v → F.In v → 0 < v → Approx F (Real.log v) (L.log F x)
  log2 : ∀ F, F = b64 ∨ F = x80 → ∀ x v, Fl.Is x v → F.In v → 0 < v → Approx F (Real.logb 2 v) (L.log2 F x)
  log10 : ∀ F, F = b64 ∨ F = x80 → ∀ x v, Fl.Is x v → F.In v → 0 < v → Approx F (Real.logb 10 v) (L.log10 F x)
  log1p : ∀ F, F = b64 ∨ F = x80 → ∀ x v, Fl.Is x v → F.In v → -1 < v → Approx F (Real.log (1 + v)) (L.log1p F x)
  exp : ∀ F, F = b64 ∨ F = x80 → ∀ x v, Fl.Is x v → F.In v → Approx F (Real.exp v) (L.exp F x)
  exp2 : ∀ F, F = b64 ∨ F = x80 → ∀ x v, Fl.Is x v → F.In v → Approx F ((2 : ℝ) ^ (v : ℝ)) (L.exp2 F x)
  expm1 : ∀ F, F = b64 ∨ F = x80 → ∀ x v, Fl.Is x v → F.In v → Approx F (Real.exp v - 1) (L.expm1 F x)
  sin : ∀ F, F = b64 ∨ F = x80 → ∀ x v, Fl.Is x v → F.In v → Approx F (Real.sin v) (L.sin F x)
  cos : ∀ F, F = b64 ∨ F = x80 → ∀ x v, Fl.Is x v → F.In v → Approx F (Real.cos v) (L.cos F x)
  tan : ∀ F, F = b64 ∨ F = x80 → ∀ x v, Fl.Is x v → F.In v → Approx F (Real.tan v) (L.tan F x)
  asin : ∀ F, F = b64 ∨ F = x80 → ∀ x v, Fl.Is x v → F.In v → |v| ≤ 1 → Approx F (Real.arcsin v) (L.asin F x)
  acos : ∀ F, F = b64 ∨ F = x80 → ∀ x v, Fl.Is x v → F.In v → |v| ≤ 1 → Approx F (Real.arccos v) (L.acos F x)
  atan : ∀ F, F = b64 ∨ F = x80 → ∀ x v, Fl.Is x v → F.In v → Approx F (Real.arctan v) (L.atan F x)
  atan_inf : ∀ F, F = b64 ∨ F = x80 → ∀ s : Bool, Approx F ((if s then -1 else 1) * (Real.pi / 2)) (L.atan F (.inf s))
  sinh : ∀ F, F = b64 ∨ F = x80 → ∀ x v, Fl.Is x v → F.In v → Approx F (Real.sinh v) (L.sinh F x)
  cosh : ∀ F, F = b64 ∨ F = x80 → ∀ x v, Fl.Is x v → F.In v → Approx F (Real.cosh v) (L.cosh F x)
  tanh : ∀ F, F = b64 ∨ F = x80 → ∀ x v, Fl.Is x v → F.In v → Approx F (Real.tanh v) (L.tanh F x)
  asinh : ∀ F, F = b64 ∨ F = x80 → ∀ x v, Fl.Is x v → F.In v → Approx F (Real.arsinh v) (L.asinh F x)
  acosh : ∀ F, F = b64 ∨ F = x80 → ∀ x v, Fl.Is x v → F.In v → 1 ≤ v →
    Approx F (Real.log (v + Real.sqrt ((v : ℝ) ^ 2 - 1))) (L.acosh F x)
  atanh : ∀ F, F = b64 ∨ F = x80 → ∀ x v, Fl.Is x v → F.In v → |v| < 1 →
    Approx F (Real.log ((1 + v) / (1 - v)) / 2) (L.atanh F x)
  pow : ∀ F, F = b64 ∨ F = x80 → ∀ x y p q, Fl.Is x p → F.In p → 0 < p → Fl.Is y q → F.In q →
    Approx F ((p : ℝ) ^ (q : ℝ)) (L.pow F x y)
  pow_int : ∀ F, F = b64 ∨ F = x80 → ∀ x y p (k : ℤ), Fl.Is x p → F.In p → p ≠ 0 → Fl.Is y k → F.In (k : ℚ) →
    Approx F ((p : ℝ) ^ k) (L.pow F x y)
  hypot : ∀ F, F = b64 ∨ F = x80 → ∀ x y p q, Fl.Is x p → F.In p → Fl.Is y q → F.In q →
    Approx F (Real.sqrt ((p : ℝ) ^ 2 + (q : ℝ) ^ 2)) (L.hypot F x y)
  atan2 : ∀ F, F = b64 ∨ F = x80 → ∀ x y p q, Fl.Is x p → F.In p → Fl.Is y q → F.In q →
    (p ≠ 0 ∨ 0 < q ∨ (x = .zero false ∧ (q ≠ 0 ∨ y = .zero false))) →
    Approx F (Complex.arg ⟨q, p⟩) (L.atan2 F x y)

end Takum
