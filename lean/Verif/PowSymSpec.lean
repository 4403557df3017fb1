import Verif.LibmSpec

/-!
# Powers of negative bases

What is assumed of `pow` and `powl` for the theorems on powers of negative bases.
-/

namespace Takum

/-- An even exponent makes the sign of the base irrelevant, an odd one passes it on, as with the real function. C fixes the sign of the result;
that the magnitude does not depend on the sign of the base holds for math libraries in the default rounding mode. -/
structure Libm.PowSymmetric (L : Libm) : Prop where
  even : ∀ F, F = b64 ∨ F = x80 → ∀ (p : ℚ) (y : Fl) (k : ℤ), p ≠ 0 → F.In p → y.Is (2 * k) → F.In (2 * k) →
    L.pow F (.num (-p)) y = L.pow F (.num p) y
  odd : ∀ F, F = b64 ∨ F = x80 → ∀ (p : ℚ) (y : Fl) (k : ℤ), p ≠ 0 → F.In p → y.Is (2 * k + 1) → F.In (2 * k + 1) →
    L.pow F (.num (-p)) y = (L.pow F (.num p) y).neg

end Takum
