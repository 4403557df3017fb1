import Verif.LibmSpec
import Verif.Model.Elementary

/-!
# Points at which the functions are exact

The points at which an elementary function is 0 or 1 and C99 Annex F fixes the result of the math library, and the values
that Annex F demands.
-/

namespace Takum

/-- Arguments (0 or 1) at which the real function is 0 or 1. -/
def UFun.exactAt : UFun → Option ℚ
  | .ten_raised | .ten_raised_minus_1 | .two_raised | .two_raised_minus_1 | .exp | .exp_minus_1
  | .ln_1_plus | .lb_1_plus | .lg_1_plus
  | .sin | .cos | .tan | .sec | .sin_pi_times | .cos_pi_times | .tan_pi_times | .sec_pi_times
  | .arcsin | .arctan | .arcsin_over_pi | .arctan_over_pi
  | .sinh | .cosh | .tanh | .sech | .arsinh | .artanh => some 0
  | .ln | .lb | .lg | .arccos | .arccos_over_pi | .arcsec | .arcsec_over_pi | .arcosh | .arsech => some 1
  | _ => none

/-- C99 F.9.1 to F.9.4: values at `±0` and 1, for `double` and `long double`; `hypot` is commutative and `fabs` if one argument
is zero. -/
structure Libm.Points (L : Libm) : Prop where
  exp : ∀ F, F = b64 ∨ F = x80 → ∀ s, L.exp F (.zero s) = .num 1
  exp2 : ∀ F, F = b64 ∨ F = x80 → ∀ s, L.exp2 F (.zero s) = .num 1
  expm1 : ∀ F, F = b64 ∨ F = x80 → ∀ s, L.expm1 F (.zero s) = .zero s
  log2 : ∀ F, F = b64 ∨ F = x80 → L.log2 F (.num 1) = .zero false
  log10 : ∀ F, F = b64 ∨ F = x80 → L.log10 F (.num 1) = .zero false
  log1p : ∀ F, F = b64 ∨ F = x80 → ∀ s, L.log1p F (.zero s) = .zero s
  sin : ∀ F, F = b64 ∨ F = x80 → ∀ s, L.sin F (.zero s) = .zero s
  cos : ∀ F, F = b64 ∨ F = x80 → ∀ s, L.cos F (.zero s) = .num 1
  tan : ∀ F, F = b64 ∨ F = x80 → ∀ s, L.tan F (.zero s) = .zero s
  asin : ∀ F, F = b64 ∨ F = x80 → ∀ s, L.asin F (.zero s) = .zero s
  acos : ∀ F, F = b64 ∨ F = x80 → L.acos F (.num 1) = .zero false
  atan : ∀ F, F = b64 ∨ F = x80 → ∀ s, L.atan F (.zero s) = .zero s
  sinh : ∀ F, F = b64 ∨ F = x80 → ∀ s, L.sinh F (.zero s) = .zero s
  cosh : ∀ F, F = b64 ∨ F = x80 → ∀ s, L.cosh F (.zero s) = .num 1
  tanh : ∀ F, F = b64 ∨ F = x80 → ∀ s, L.tanh F (.zero s) = .zero s
  asinh : ∀ F, F = b64 ∨ F = x80 → ∀ s, L.asinh F (.zero s) = .zero s
  acosh : ∀ F, F = b64 ∨ F = x80 → L.acosh F (.num 1) = .zero false
  atanh : ∀ F, F = b64 ∨ F = x80 → ∀ s, L.atanh F (.zero s) = .zero s
  hypot : ∀ F, F = b64 ∨ F = x80 → ∀ x : Fl, x.In F → ∀ s, L.hypot F x (.zero s) = x.abs
  hypot_comm : ∀ F, F = b64 ∨ F = x80 → ∀ x y : Fl, L.hypot F x y = L.hypot F y x
  atan2 : ∀ F, F = b64 ∨ F = x80 → ∀ x s, 0 < x → L.atan2 F (.zero s) (.num x) = .zero s

end Takum
