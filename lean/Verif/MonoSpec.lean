import Verif.LibmSpec
import Verif.Model.Elementary

/-!
# Monotone functions

What is assumed of the math library for the theorems on monotone functions, and which functions of the takum library increase
or decrease.
-/

namespace Takum

/-- A finite value of the type. -/
def Fl.FinIn (F : Fmt) (x : Fl) : Prop := x.In F ∧ x.isfinite = true

/-- A function of the math library that does not decrease between two finite arguments for which it is not NaN; results are
values of the type. -/
structure Increasing (f : Fmt → Fl → Fl) : Prop where
  mono : ∀ F, F = b64 ∨ F = x80 → ∀ x y : Fl, x.FinIn F → y.FinIn F → Fl.le x y = true → f F x ≠ .nan → f F y ≠ .nan →
    Fl.le (f F x) (f F y) = true
  type : ∀ F, F = b64 ∨ F = x80 → ∀ x : Fl, x.FinIn F → (f F x).In F

/-- The same for a function that does not increase. -/
structure Decreasing (f : Fmt → Fl → Fl) : Prop where
  anti : ∀ F, F = b64 ∨ F = x80 → ∀ x y : Fl, x.FinIn F → y.FinIn F → Fl.le x y = true → f F x ≠ .nan → f F y ≠ .nan →
    Fl.le (f F y) (f F x) = true
  type : ∀ F, F = b64 ∨ F = x80 → ∀ x : Fl, x.FinIn F → (f F x).In F

/-- The library is monotone where the real functions are (C does not demand it); `cosh` increases for arguments `≥ 0` and
decreases for arguments `≤ 0`; `expm1` is at least `-1`. -/
structure Libm.Monotone (L : Libm) : Prop where
  log : Increasing L.log
  log2 : Increasing L.log2
  log10 : Increasing L.log10
  log1p : Increasing L.log1p
  exp : Increasing L.exp
  exp2 : Increasing L.exp2
  expm1 : Increasing L.expm1
  pow10 : Increasing fun F => L.pow F (.num 10)
  asin : Increasing L.asin
  acos : Decreasing L.acos
  atan : Increasing L.atan
  sinh : Increasing L.sinh
  tanh : Increasing L.tanh
  asinh : Increasing L.asinh
  acosh : Increasing L.acosh
  atanh : Increasing L.atanh
  cosh_type : ∀ F, F = b64 ∨ F = x80 → ∀ x : Fl, x.FinIn F → (L.cosh F x).In F
  cosh_pos : ∀ F, F = b64 ∨ F = x80 → ∀ x y : Fl, x.FinIn F → y.FinIn F → Fl.le (.zero false) x = true → Fl.le x y = true →
    Fl.le (L.cosh F x) (L.cosh F y) = true
  cosh_neg : ∀ F, F = b64 ∨ F = x80 → ∀ x y : Fl, x.FinIn F → y.FinIn F → Fl.le x y = true → Fl.le y (.zero false) = true →
    Fl.le (L.cosh F y) (L.cosh F x) = true
  expm1_low : ∀ F, F = b64 ∨ F = x80 → ∀ x : Fl, x.FinIn F → Fl.le (.num (-1)) (L.expm1 F x) = true

/-- The real functions that increase on their whole domain. -/
def UFun.isIncreasing : UFun → Bool
  | .ten_raised | .ten_raised_minus_1 | .two_raised | .two_raised_minus_1 | .exp | .exp_minus_1
  | .ln | .ln_1_plus | .lb | .lb_1_plus | .lg | .lg_1_plus
  | .arcsin | .arctan | .arcsin_over_pi | .arctan_over_pi | .sinh | .tanh | .arsinh | .arcosh | .artanh => true
  | _ => false

/-- The real functions that decrease on their whole domain. -/
def UFun.isDecreasing : UFun → Bool
  | .arccos | .arccos_over_pi => true
  | _ => false

/-- The real functions that increase on the positive numbers (of their domain). -/
def UFun.incPos : UFun → Bool
  | .arcsec | .arcsec_over_pi | .cosh => true
  | u => u.isIncreasing

/-- The real functions that decrease on the positive numbers. -/
def UFun.decPos : UFun → Bool
  | .arccsc | .arccsc_over_pi | .arccot | .arccot_over_pi | .csch | .sech | .coth | .arcsch | .arsech | .arcoth => true
  | u => u.isDecreasing

/-- The real functions that increase on the negative numbers. -/
def UFun.incNeg : UFun → Bool
  | .arcsec | .arcsec_over_pi | .sech => true
  | u => u.isIncreasing

/-- The real functions that decrease on the negative numbers. -/
def UFun.decNeg : UFun → Bool
  | .arccsc | .arccsc_over_pi | .arccot | .arccot_over_pi | .csch | .cosh | .coth | .arcsch | .arcoth => true
  | u => u.isDecreasing

end Takum
