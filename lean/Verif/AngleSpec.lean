import Verif.LibmSpec
import Mathlib.Analysis.SpecialFunctions.Trigonometric.Bounds

/-!
# The range of the inverse trigonometric functions of the math library

The exact values are between two real numbers.  A result rounded in either direction does not pass a number of its type
beyond them (it can pass the real numbers themselves, `π` is no number of any type).
-/

namespace Takum

/-- A number of the type that no number of the type separates from the interval `[a, b]`. -/
def Fl.Span (F : Fmt) (a b : ℝ) (x : Fl) : Prop :=
  ∃ r : ℚ, Fl.Is x r ∧ F.In r ∧ ∀ c : ℚ, F.In c → ((c : ℝ) ≤ a → c ≤ r) ∧ (b ≤ (c : ℝ) → r ≤ c)

/-- `asin`, `acos`, `atan` of a value of the type (NaN and infinities included) are not finite or an angle of the range; `atan2`
of two finite values is an angle of the quadrant given by the signs (C99 7.12.4, F.9.1). -/
structure Libm.Angles (L : Libm) : Prop where
  asin : ∀ F, F = b64 ∨ F = x80 → ∀ x : Fl, x.In F → (L.asin F x).isfinite = false ∨ (L.asin F x).Span F (-(Real.pi / 2)) (Real.pi / 2)
  acos : ∀ F, F = b64 ∨ F = x80 → ∀ x : Fl, x.In F → (L.acos F x).isfinite = false ∨ (L.acos F x).Span F 0 Real.pi
  atan_pos : ∀ F, F = b64 ∨ F = x80 → ∀ x : Fl, x.In F → x ≠ .nan → x.sgn = false → (L.atan F x).Span F 0 (Real.pi / 2)
  atan_neg : ∀ F, F = b64 ∨ F = x80 → ∀ x : Fl, x.In F → x ≠ .nan → x.sgn = true → (L.atan F x).Span F (-(Real.pi / 2)) 0
  atan2 : ∀ F, F = b64 ∨ F = x80 → ∀ y x : Fl, y.In F → x.In F → y.isfinite = true → x.isfinite = true → (L.atan2 F y x).Span F
    (match y.sgn, x.sgn with | false, false => 0 | false, true => Real.pi / 2 | true, false => -(Real.pi / 2) | true, true => -Real.pi)
    (match y.sgn, x.sgn with | false, false => Real.pi / 2 | false, true => Real.pi | true, false => 0 | true, true => -(Real.pi / 2))

end Takum
