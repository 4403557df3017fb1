import Verif.MonoSpec

/-!
# Monotone functions of two arguments

What is assumed of `pow`, `hypot` and `atan2` for the theorems on monotone functions of two arguments.
-/

namespace Takum

/-- `pow` of a positive base increases in the base for exponents `≥ 0` and decreases for exponents `≤ 0`; it increases in the exponent for
bases `≥ 1` and decreases for bases `≤ 1`. `hypot` increases in both magnitudes. `atan2(y, x)` increases in `y` for `x > 0` and decreases
(increases) in `x` for `y > 0` (`y < 0`). C does not demand this. -/
structure Libm.MonotoneTwo (L : Libm) : Prop where
  pow_base : ∀ F, F = b64 ∨ F = x80 → ∀ (x y z : Fl) (p q c : ℚ), x.Is p → y.Is q → z.Is c → F.In p → F.In q → F.In c → 0 < p → p ≤ q →
    (0 ≤ c → Fl.le (L.pow F x z) (L.pow F y z) = true) ∧ (c ≤ 0 → Fl.le (L.pow F y z) (L.pow F x z) = true)
  pow_exponent : ∀ F, F = b64 ∨ F = x80 → ∀ (x y z : Fl) (p c d : ℚ), x.Is p → y.Is c → z.Is d → F.In p → F.In c → F.In d → 0 < p → c ≤ d →
    (1 ≤ p → Fl.le (L.pow F x y) (L.pow F x z) = true) ∧ (p ≤ 1 → Fl.le (L.pow F x z) (L.pow F x y) = true)
  hypot : ∀ F, F = b64 ∨ F = x80 → ∀ (x y x' y' : Fl) (p q p' q' : ℚ), x.Is p → y.Is q → x'.Is p' → y'.Is q' → F.In p → F.In q → F.In p' → F.In q' →
    |p| ≤ |p'| → |q| ≤ |q'| → Fl.le (L.hypot F x y) (L.hypot F x' y') = true
  hypot_type : ∀ F, F = b64 ∨ F = x80 → ∀ (x y : Fl) (p q : ℚ), x.Is p → y.Is q → F.In p → F.In q →
    (L.hypot F x y).In F ∧ Fl.le (.zero false) (L.hypot F x y) = true
  atan2 : ∀ F, F = b64 ∨ F = x80 → ∀ (y y' x : Fl) (q q' p : ℚ), y.Is q → y'.Is q' → x.Is p → F.In q → F.In q' → F.In p → 0 < p → q ≤ q' →
    Fl.le (L.atan2 F y x) (L.atan2 F y' x) = true
  atan2_right : ∀ F, F = b64 ∨ F = x80 → ∀ (y x x' : Fl) (q p p' : ℚ), y.Is q → x.Is p → x'.Is p' → F.In q → F.In p → F.In p' → p ≤ p' →
    (0 < q → Fl.le (L.atan2 F y x') (L.atan2 F y x) = true) ∧ (q < 0 → Fl.le (L.atan2 F y x) (L.atan2 F y x') = true)
  atan2_type : ∀ F, F = b64 ∨ F = x80 → ∀ (y x : Fl) (q p : ℚ), y.Is q → x.Is p → F.In q → F.In p → (L.atan2 F y x).In F

end Takum
