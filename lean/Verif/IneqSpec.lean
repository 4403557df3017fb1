import Verif.AngleSpec

/-!
# Inequalities between a function of the math library and simple expressions

What a result rounded in either direction keeps of the inequalities of the real functions.
-/

namespace Takum

/-- A number of the type at least as far from zero as `q`, on the same side. -/
def Fl.Beyond (F : Fmt) (q : ℚ) (x : Fl) : Prop := ∃ r : ℚ, Fl.Is x r ∧ F.In r ∧ (0 ≤ q → q ≤ r) ∧ (q ≤ 0 → r ≤ q)

/-- `|sin x|, |atan x|, |tanh x|, |asinh x| ≤ |x|`; `sinh x`, `asin x`, `atanh x` lie beyond `x`; `log1p x ≤ x ≤ expm1 x`; `exp x` is not
below a float that is at most `1 + x`; `log x` is not above a float that is at least `x - 1`; `hypot` is between the larger
magnitude and the sum of the magnitudes if it is in the range. -/
structure Libm.Inequalities (L : Libm) : Prop where
  sin : ∀ F, F = b64 ∨ F = x80 → ∀ x q, Fl.Is x q → F.In q → (L.sin F x).Span F (-|(q : ℝ)|) |(q : ℝ)|
  atan : ∀ F, F = b64 ∨ F = x80 → ∀ x q, Fl.Is x q → F.In q → (L.atan F x).Span F (-|(q : ℝ)|) |(q : ℝ)|
  tanh : ∀ F, F = b64 ∨ F = x80 → ∀ x q, Fl.Is x q → F.In q → (L.tanh F x).Span F (-|(q : ℝ)|) |(q : ℝ)|
  asinh : ∀ F, F = b64 ∨ F = x80 → ∀ x q, Fl.Is x q → F.In q → (L.asinh F x).Span F (-|(q : ℝ)|) |(q : ℝ)|
  sinh : ∀ F, F = b64 ∨ F = x80 → ∀ x q, Fl.Is x q → F.In q → q ≠ 0 ∧ L.sinh F x = .inf (decide (q < 0)) ∨ (L.sinh F x).Beyond F q
  asin : ∀ F, F = b64 ∨ F = x80 → ∀ x q, Fl.Is x q → F.In q → (L.asin F x).isfinite = false ∨ (L.asin F x).Beyond F q
  atanh : ∀ F, F = b64 ∨ F = x80 → ∀ x q, Fl.Is x q → F.In q → (L.atanh F x).isfinite = false ∨ (L.atanh F x).Beyond F q
  log1p : ∀ F, F = b64 ∨ F = x80 → ∀ x q, Fl.Is x q → F.In q → L.log1p F x = .nan ∨ L.log1p F x = .inf true ∨ ∃ r, Fl.Is (L.log1p F x) r ∧ F.In r ∧ r ≤ q
  expm1 : ∀ F, F = b64 ∨ F = x80 → ∀ x q, Fl.Is x q → F.In q → L.expm1 F x = .inf false ∨ ∃ r, Fl.Is (L.expm1 F x) r ∧ F.In r ∧ q ≤ r
  exp : ∀ F, F = b64 ∨ F = x80 → ∀ x q, Fl.Is x q → F.In q → L.exp F x = .inf false ∨
    ∃ r, Fl.Is (L.exp F x) r ∧ F.In r ∧ 0 ≤ r ∧ ∀ c : ℚ, F.In c → c ≤ 1 + q → c ≤ r
  log : ∀ F, F = b64 ∨ F = x80 → ∀ q : ℚ, 0 < q → F.In q → ∃ r, Fl.Is (L.log F (.num q)) r ∧ F.In r ∧ ∀ c : ℚ, F.In c → q - 1 ≤ c → r ≤ c
  hypot : ∀ F, F = b64 ∨ F = x80 → ∀ x y p q, Fl.Is x p → F.In p → Fl.Is y q → F.In q → (2 : ℚ) ^ (F.emax - 1) ≤ |p| + |q| ∨
    (L.hypot F x y).Span F (max |(p : ℝ)| |(q : ℝ)|) (|(p : ℝ)| + |(q : ℝ)|)

end Takum
