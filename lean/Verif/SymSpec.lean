import Verif.LibmSpec
import Verif.Model.Elementary

/-!
# Odd and even functions

What is assumed of the math library for the symmetries, and which functions of the takum library are odd or even.
-/

namespace Takum

/-- An odd function of the math library: the result for `-x` is minus the result for `x`, the value at `±0` is `±0`, results are
values of the type. -/
structure OddFn (f : Fmt → Fl → Fl) : Prop where
  neg : ∀ F, F = b64 ∨ F = x80 → ∀ x : Fl, x.In F → f F x.neg = (f F x).neg
  zero : ∀ F s, f F (.zero s) = .zero s
  type : ∀ F, F = b64 ∨ F = x80 → ∀ x : Fl, x.In F → (f F x).In F

/-- An even function of the math library. -/
structure EvenFn (f : Fmt → Fl → Fl) : Prop where
  neg : ∀ F, F = b64 ∨ F = x80 → ∀ x : Fl, x.In F → f F x.neg = f F x
  type : ∀ F, F = b64 ∨ F = x80 → ∀ x : Fl, x.In F → (f F x).In F

/-- The symmetries of the real functions, which math libraries have in the default rounding mode. -/
structure Libm.Symmetric (L : Libm) : Prop where
  sin : OddFn L.sin
  tan : OddFn L.tan
  asin : OddFn L.asin
  atan : OddFn L.atan
  sinh : OddFn L.sinh
  tanh : OddFn L.tanh
  asinh : OddFn L.asinh
  atanh : OddFn L.atanh
  cos : EvenFn L.cos
  cosh : EvenFn L.cosh
  atan2_neg : ∀ F, F = b64 ∨ F = x80 → ∀ y x : Fl, y.In F → x.In F → L.atan2 F y.neg x = (L.atan2 F y x).neg
  atan2_type : ∀ F, F = b64 ∨ F = x80 → ∀ y x : Fl, y.In F → x.In F → (L.atan2 F y x).In F
  hypot_neg : ∀ F, F = b64 ∨ F = x80 → ∀ x y : Fl, x.In F → y.In F → L.hypot F x.neg y = L.hypot F x y
  hypot_comm : ∀ F, F = b64 ∨ F = x80 → ∀ x y : Fl, x.In F → y.In F → L.hypot F y x = L.hypot F x y

/-- The odd real functions. -/
def UFun.isOdd : UFun → Bool
  | .sin | .tan | .csc | .cot | .arcsin | .arctan | .arccsc | .arcsin_over_pi | .arctan_over_pi | .arccsc_over_pi
  | .sinh | .tanh | .csch | .coth | .arsinh | .artanh | .arcsch | .arcoth => true
  | _ => false

/-- The even real functions. -/
def UFun.isEven : UFun → Bool
  | .cos | .sec | .cosh | .sech => true
  | _ => false

/-- The odd real functions with the factor `π`. -/
def UFun.isOddPi : UFun → Bool
  | .sin_pi_times | .tan_pi_times | .csc_pi_times | .cot_pi_times => true
  | _ => false

/-- The even real functions with the factor `π`. -/
def UFun.isEvenPi : UFun → Bool
  | .cos_pi_times | .sec_pi_times => true
  | _ => false

end Takum
