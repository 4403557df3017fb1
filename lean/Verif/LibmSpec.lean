import Verif.Ideal
import Verif.Lemmas.Fl
import Mathlib.Analysis.SpecialFunctions.Pow.Real

/-!
# What is assumed of the math library

Each structure is a hypothesis of some theorems.  `Lemmas/Ideal.lean` proves that the library
`ideal` of `Ideal.lean` satisfies all of them.
-/

namespace Takum

/-- C99 F.9: a NaN argument gives NaN, except for `pow(NaN, ±0) = 1`, `pow(1, NaN) = 1` and
`hypot(±∞, NaN) = ∞`. -/
structure Libm.NaNs (L : Libm) : Prop where
  log : ∀ F, L.log F .nan = .nan
  log1p : ∀ F, L.log1p F .nan = .nan
  log2 : ∀ F, L.log2 F .nan = .nan
  log10 : ∀ F, L.log10 F .nan = .nan
  exp : ∀ F, L.exp F .nan = .nan
  exp2 : ∀ F, L.exp2 F .nan = .nan
  expm1 : ∀ F, L.expm1 F .nan = .nan
  sin : ∀ F, L.sin F .nan = .nan
  cos : ∀ F, L.cos F .nan = .nan
  tan : ∀ F, L.tan F .nan = .nan
  asin : ∀ F, L.asin F .nan = .nan
  acos : ∀ F, L.acos F .nan = .nan
  atan : ∀ F, L.atan F .nan = .nan
  sinh : ∀ F, L.sinh F .nan = .nan
  cosh : ∀ F, L.cosh F .nan = .nan
  tanh : ∀ F, L.tanh F .nan = .nan
  asinh : ∀ F, L.asinh F .nan = .nan
  acosh : ∀ F, L.acosh F .nan = .nan
  atanh : ∀ F, L.atanh F .nan = .nan
  pow_left : ∀ F y, (∀ z, y ≠ .zero z) → L.pow F .nan y = .nan
  pow_right : ∀ F x, x ≠ .num 1 → L.pow F x .nan = .nan
  atan2_left : ∀ F y, L.atan2 F .nan y = .nan
  atan2_right : ∀ F x, L.atan2 F x .nan = .nan
  hypot_left : ∀ F y, y.isinf = false → L.hypot F .nan y = .nan
  hypot_right : ∀ F x, x.isinf = false → L.hypot F x .nan = .nan

/-- `pow` with a base between 1 and 2, as used for decoding logarithmic takums: NaN for NaN, `+0` for
`-∞`, not NaN and without sign bit for finite exponents, and for exponents up to 255 in `double` and
`long double` a number between `2^-300` and `2^300` (the true bounds are `2^-255` and `2^255`). -/
structure Libm.Powers (L : Libm) : Prop where
  nan : ∀ F x, x ≠ .num 1 → L.pow F x .nan = .nan
  neg_inf : ∀ F x, 1 < x → L.pow F (.num x) (.inf true) = .zero false
  nonneg : ∀ F, F = b32 ∨ F = b64 ∨ F = x80 → ∀ x l, 1 < x → x < 2 → l.isfinite = true → L.pow F (.num x) l ≠ .nan ∧
    (L.pow F (.num x) l).sgn = false ∧ (L.pow F (.num x) l).In F
  finite : ∀ F, F = b64 ∨ F = x80 → ∀ x l q, 1 < x → x < 2 → F.In x → Fl.Is l q → F.In q → |q| ≤ 255 →
    ∃ z, L.pow F (.num x) l = .num z ∧ (2 : ℚ) ^ (-300 : ℤ) ≤ z ∧ z ≤ (2 : ℚ) ^ (300 : ℤ) ∧ F.In z

/-- C99 F.9.3.7 and F.9.4.4: `log(1) = +0`, `pow(x, ±0) = 1` and `pow(1, y) = 1` for all `x`, `y`, even
NaN, and `pow(±0, y)` is infinite for finite `y < 0`. -/
structure Libm.Specials (L : Libm) : Prop where
  log_one : ∀ F, L.log F (.num 1) = .zero false
  exp_zero : ∀ F x s, L.pow F x (.zero s) = .num 1
  base_one : ∀ F y, L.pow F (.num 1) y = .num 1
  zero_neg : ∀ F s q, q < 0 → (L.pow F (.zero s) (.num q)).isinf = true

/-- The logarithm of a positive finite number is finite (and not absurdly large: the true bound is
`11357`). -/
structure Libm.Logs (L : Libm) : Prop where
  finite : ∀ F, F = b64 ∨ F = x80 → ∀ q, 0 < q → F.In q →
    ∃ r, Fl.Is (L.log F (.num q)) r ∧ F.In r ∧ |r| ≤ 2 ^ 100

/-- `pow` and `log` have a relative error of at most two units in the last place
(`4 · 2^-53` for `double`, `4 · 2^-64` for `long double`), `pow` for bases between 1 and 2 and
exponents up to 255. -/
structure Libm.Accurate (L : Libm) : Prop where
  pow : ∀ F, F = b64 ∨ F = x80 → ∀ x l q, 1 < x → x < 2 → F.In x → Fl.Is l q → F.In q → |q| ≤ 255 →
    ∃ z, L.pow F (.num x) l = .num z ∧ F.In z ∧
      |(z : ℝ) - (x : ℝ) ^ (q : ℝ)| ≤ 4 / 2 ^ F.prec * (x : ℝ) ^ (q : ℝ)
  log : ∀ F, F = b64 ∨ F = x80 → ∀ q, 0 < q → F.In q →
    ∃ r, Fl.Is (L.log F (.num q)) r ∧ F.In r ∧ |(r : ℝ) - Real.log q| ≤ 4 / 2 ^ F.prec * |Real.log q|

/-- `exp`, `exp2` and `pow(10, ·)` of a finite number: not NaN, no sign bit, a value of the type;
`expm1`: not NaN, a value of the type. -/
structure Libm.Exps (L : Libm) : Prop where
  exp : ∀ F, F = b64 ∨ F = x80 → ∀ x, x.isfinite = true → x ≠ .num 0 →
    L.exp F x ≠ .nan ∧ (L.exp F x).sgn = false ∧ (L.exp F x).In F
  exp2 : ∀ F, F = b64 ∨ F = x80 → ∀ x, x.isfinite = true → x ≠ .num 0 →
    L.exp2 F x ≠ .nan ∧ (L.exp2 F x).sgn = false ∧ (L.exp2 F x).In F
  pow10 : ∀ x, x.isfinite = true → x ≠ .num 0 →
    L.pow x80 (.num 10) x ≠ .nan ∧ (L.pow x80 (.num 10) x).sgn = false ∧ (L.pow x80 (.num 10) x).In x80
  expm1 : ∀ F, F = b64 ∨ F = x80 → ∀ x, x.isfinite = true → x ≠ .num 0 →
    L.expm1 F x ≠ .nan ∧ (L.expm1 F x).In F

/-- Values of a logarithm function with pole at `c`: NaN below, `-∞` at the pole (C99 F.9.3.7 to
F.9.3.10), finite above (and not absurdly large; the true bound is `16446`). -/
structure LogLike (c : ℚ) (f : Fmt → Fl → Fl) : Prop where
  below : ∀ F, F = b64 ∨ F = x80 → ∀ x q, Fl.Is x q → q < c → f F x = .nan
  pole : ∀ F, F = b64 ∨ F = x80 → ∀ x, Fl.Is x c → f F x = .inf true
  above : ∀ F, F = b64 ∨ F = x80 → ∀ x q, Fl.Is x q → c < q → F.In q →
    ∃ r, Fl.Is (f F x) r ∧ F.In r ∧ |r| ≤ 2 ^ 100

structure Libm.Logarithms (L : Libm) : Prop where
  log : LogLike 0 L.log
  log2 : LogLike 0 L.log2
  log10 : LogLike 0 L.log10
  log1p : LogLike (-1) L.log1p

/-- The hyperbolic functions: signs, zeros, and crude bounds (all true of the real functions with a
factor to spare). -/
structure Libm.Hyperbolics (L : Libm) : Prop where
  sinh_zero : ∀ F s, L.sinh F (.zero s) = .zero s
  sinh : ∀ F, F = b64 ∨ F = x80 → ∀ q, q ≠ 0 → F.In q → L.sinh F (.num q) = .inf (decide (q < 0)) ∨
    ∃ z, L.sinh F (.num q) = .num z ∧ F.In z ∧ |q| / 2 ≤ |z| ∧ (z < 0 ↔ q < 0)
  cosh : ∀ F, F = b64 ∨ F = x80 → ∀ x q, Fl.Is x q → F.In q → L.cosh F x = .inf false ∨
    ∃ z, L.cosh F x = .num z ∧ F.In z ∧ 1 ≤ z
  tanh_zero : ∀ F s, L.tanh F (.zero s) = .zero s
  tanh : ∀ F, F = b64 ∨ F = x80 → ∀ q, (2 : ℚ) ^ (-300 : ℤ) ≤ |q| → F.In q →
    ∃ z, L.tanh F (.num q) = .num z ∧ F.In z ∧ min |q| 1 / 4 ≤ |z| ∧ |z| ≤ 1 ∧ (z < 0 ↔ q < 0)

/-- `x` is the finite number `r` of the type with `|r| ≤ b`. -/
def Fl.Within (F : Fmt) (b : ℚ) (x : Fl) : Prop := ∃ r, Fl.Is x r ∧ F.In r ∧ |r| ≤ b

/-- The inverse trigonometric and hyperbolic functions (C99 F.9.1 and F.9.2): NaN outside of the domain,
infinite at a pole, finite otherwise (the bounds have a factor to spare). -/
structure Libm.Inverses (L : Libm) : Prop where
  asin : ∀ F, F = b64 ∨ F = x80 → ∀ x q, Fl.Is x q → F.In q → |q| ≤ 1 → (L.asin F x).Within F 4
  asin_out : ∀ F, F = b64 ∨ F = x80 → ∀ x q, Fl.Is x q → 1 < |q| → L.asin F x = .nan
  asin_inf : ∀ F s, L.asin F (.inf s) = .nan
  acos : ∀ F, F = b64 ∨ F = x80 → ∀ x q, Fl.Is x q → F.In q → |q| ≤ 1 → (L.acos F x).Within F 4
  acos_out : ∀ F, F = b64 ∨ F = x80 → ∀ x q, Fl.Is x q → 1 < |q| → L.acos F x = .nan
  acos_inf : ∀ F s, L.acos F (.inf s) = .nan
  atan : ∀ F, F = b64 ∨ F = x80 → ∀ x q, Fl.Is x q → F.In q → (L.atan F x).Within F 4
  atan_inf : ∀ F, F = b64 ∨ F = x80 → ∀ s, (L.atan F (.inf s)).Within F 4
  asinh : ∀ F, F = b64 ∨ F = x80 → ∀ x q, Fl.Is x q → F.In q → (L.asinh F x).Within F (2 ^ 100)
  asinh_inf : ∀ F s, L.asinh F (.inf s) = .inf s
  acosh : ∀ F, F = b64 ∨ F = x80 → ∀ x q, Fl.Is x q → F.In q → 1 ≤ q → (L.acosh F x).Within F (2 ^ 100)
  acosh_out : ∀ F, F = b64 ∨ F = x80 → ∀ x q, Fl.Is x q → q < 1 → L.acosh F x = .nan
  acosh_inf : ∀ F s, (L.acosh F (.inf s)).isfinite = false
  atanh : ∀ F, F = b64 ∨ F = x80 → ∀ x q, Fl.Is x q → F.In q → |q| < 1 → (L.atanh F x).Within F (2 ^ 100)
  atanh_one : ∀ F, F = b64 ∨ F = x80 → ∀ x q, Fl.Is x q → |q| = 1 → L.atanh F x = .inf (decide (q < 0))
  atanh_out : ∀ F, F = b64 ∨ F = x80 → ∀ x q, Fl.Is x q → 1 < |q| → L.atanh F x = .nan
  atanh_inf : ∀ F s, L.atanh F (.inf s) = .nan

/-- Sine and cosine of a finite number are between -1 and 1. -/
structure Libm.Circular (L : Libm) : Prop where
  sin : ∀ F, F = b64 ∨ F = x80 → ∀ x q, Fl.Is x q → F.In q → (L.sin F x).Within F 1
  cos : ∀ F, F = b64 ∨ F = x80 → ∀ x q, Fl.Is x q → F.In q → (L.cos F x).Within F 1

/-- C99 F.9.4.4: `pow` with a negative base and an exponent that is not an integer is NaN; with a positive
base or an integral exponent it is not NaN and has the sign of the power; a zero base with a positive
exponent gives a zero; for moderate bases and exponents up to 1 the result is finite and not zero (the
true bounds are `2^-300` and `2^300`). -/
structure Libm.PowSigns (L : Libm) : Prop where
  not_int : ∀ F, ∀ p q : ℚ, p < 0 → (¬ ∃ k : ℤ, q = k) → L.pow F (.num p) (.num q) = .nan
  regular : ∀ F, F = b64 ∨ F = x80 → ∀ p q : ℚ, p ≠ 0 → q ≠ 0 → F.In p → F.In q → (0 < p ∨ ∃ k : ℤ, q = k) →
    L.pow F (.num p) (.num q) ≠ .nan ∧ (L.pow F (.num p) (.num q)).In F ∧
      ((L.pow F (.num p) (.num q)).sgn = true ↔ p < 0 ∧ ∃ k : ℤ, q = 2 * k + 1)
  zero_pos : ∀ F s, ∀ q : ℚ, 0 < q → ∃ s', L.pow F (.zero s) (.num q) = .zero s'
  root : ∀ p y : ℚ, (2 : ℚ) ^ (-300 : ℤ) ≤ |p| → |p| ≤ (2 : ℚ) ^ (300 : ℤ) → x80.In p → y ≠ 0 → |y| ≤ 1 → x80.In y →
    (0 < p ∨ |y| = 1) → ∃ z, L.pow x80 (.num p) (.num y) = .num z ∧ z ≠ 0

/-- All of the above. -/
structure Libm.Conforming (L : Libm) : Prop where
  nans : L.NaNs
  powers : L.Powers
  specials : L.Specials
  logs : L.Logs
  accurate : L.Accurate
  exps : L.Exps
  logarithms : L.Logarithms
  hyperbolics : L.Hyperbolics
  inverses : L.Inverses
  circular : L.Circular
  powSigns : L.PowSigns

end Takum
