import Verif.Model.Libm
import Mathlib.Analysis.SpecialFunctions.Pow.Real
import Mathlib.Analysis.SpecialFunctions.Log.Base
import Mathlib.Analysis.SpecialFunctions.Trigonometric.Inverse
import Mathlib.Analysis.SpecialFunctions.Trigonometric.Arctan
import Mathlib.Analysis.SpecialFunctions.Complex.Arg
import Mathlib.Analysis.SpecialFunctions.Arsinh

/-!
# An ideal math library

The real functions, correctly rounded (to nearest, ties to even, overflow to infinity), with the
special values of C99 Annex F.9.  It witnesses that the hypotheses on the math library made by the
theorems (`LibmSpec.lean`) can be met together.  No theorem depends on a real library being like
this one.
-/

namespace Takum

/-- Correct rounding of a real number. -/
noncomputable def rnd (F : Fmt) (r : ℝ) : Fl :=
  if (2 : ℚ) ^ F.emax ≤ |F.rq r| then .inf (decide (r < 0)) else .mk (decide (r < 0)) (F.rq r)

/-- `log`, `log2`, `log10` (F.9.3.7, F.9.3.8, F.9.3.10). -/
noncomputable def idealLog (f : ℝ → ℝ) (F : Fmt) : Fl → Fl
  | .nan => .nan
  | .inf s => if s then .nan else .inf false
  | .zero _ => .inf true
  | .num q => if q < 0 then .nan else rnd F (f q)

/-- A function without special values on the finite numbers and value `±0` at `±0`; `hi`, `lo` are
the values at `±∞`. -/
noncomputable def idealOdd (f : ℝ → ℝ) (hi lo : Fmt → Fl) (F : Fmt) : Fl → Fl
  | .nan => .nan
  | .inf s => if s then lo F else hi F
  | .zero s => .zero s
  | .num q => rnd F (f q)

/-- The same with value `f 0` at `±0`. -/
noncomputable def idealFn (f : ℝ → ℝ) (hi lo : Fmt → Fl) (F : Fmt) : Fl → Fl
  | .nan => .nan
  | .inf s => if s then lo F else hi F
  | .zero _ => rnd F (f 0)
  | .num q => rnd F (f q)

/-- F.9.4.4: `pow`. -/
noncomputable def idealPow (F : Fmt) (x y : Fl) : Fl :=
  if y = .zero false ∨ y = .zero true ∨ x = .num 1 then .num 1 else
  match x, y with
  | .nan, _ => .nan
  | _, .nan => .nan
  | .zero s, y =>
    let odd := s && decide (y.toQ.den = 1 ∧ y.toQ.num % 2 = 1)
    if y.sgn then .inf odd else .zero odd
  | .inf s, y =>
    let odd := s && decide (y.toQ.den = 1 ∧ y.toQ.num % 2 = 1)
    if y.sgn then .zero odd else .inf odd
  | .num p, .inf s => if |p| = 1 then .num 1 else if (|p| < 1 ↔ s = true) then .inf false else .zero false
  | .num p, y => if p < 0 ∧ y.toQ.den ≠ 1 then .nan else rnd F ((p : ℝ) ^ (y.toQ : ℝ))

/-- F.9.1.4: `atan2`. -/
noncomputable def idealAtan2 (F : Fmt) (y x : Fl) : Fl :=
  match y, x with
  | .nan, _ => .nan
  | _, .nan => .nan
  | .zero s, x => if x.sgn then rnd F ((if s then -1 else 1) * Real.pi) else .zero s
  | .inf s, .inf t => rnd F ((if s then -1 else 1) * (if t then 3 * Real.pi / 4 else Real.pi / 4))
  | .inf s, _ => rnd F ((if s then -1 else 1) * (Real.pi / 2))
  | .num q, .inf t => if t then rnd F ((if q < 0 then -1 else 1) * Real.pi) else .zero (decide (q < 0))
  | .num q, .zero _ => rnd F ((if q < 0 then -1 else 1) * (Real.pi / 2))
  | .num q, .num p => rnd F (Complex.arg ⟨p, q⟩)

/-- F.9.4.3: `hypot`. -/
noncomputable def idealHypot (F : Fmt) (x y : Fl) : Fl :=
  match x, y with
  | .inf _, _ => .inf false
  | _, .inf _ => .inf false
  | .nan, _ => .nan
  | _, .nan => .nan
  | .zero _, .zero _ => .zero false
  | x, y => rnd F (Real.sqrt ((x.toQ : ℝ) ^ 2 + (y.toQ : ℝ) ^ 2))

noncomputable def ideal : Libm where
  log := idealLog Real.log
  log2 := idealLog (Real.logb 2)
  log10 := idealLog (Real.logb 10)
  log1p := fun F x => match x with
    | .nan => .nan
    | .inf s => if s then .nan else .inf false
    | .zero s => .zero s
    | .num q => if q < -1 then .nan else if q = -1 then .inf true else rnd F (Real.log (1 + q))
  exp := idealFn Real.exp (fun _ => .inf false) (fun _ => .zero false)
  exp2 := idealFn (fun x => (2 : ℝ) ^ x) (fun _ => .inf false) (fun _ => .zero false)
  expm1 := idealOdd (fun x => Real.exp x - 1) (fun _ => .inf false) (fun _ => .num (-1))
  sin := idealOdd Real.sin (fun _ => .nan) (fun _ => .nan)
  cos := idealFn Real.cos (fun _ => .nan) (fun _ => .nan)
  tan := idealOdd Real.tan (fun _ => .nan) (fun _ => .nan)
  asin := fun F x => match x with
    | .num q => if |q| ≤ 1 then rnd F (Real.arcsin q) else .nan
    | .zero s => .zero s
    | _ => .nan
  acos := fun F x => match x with
    | .num q => if |q| ≤ 1 then rnd F (Real.arccos q) else .nan
    | .zero _ => rnd F (Real.pi / 2)
    | _ => .nan
  atan := idealOdd Real.arctan (fun F => rnd F (Real.pi / 2)) (fun F => rnd F (-(Real.pi / 2)))
  sinh := idealOdd Real.sinh (fun _ => .inf false) (fun _ => .inf true)
  cosh := idealFn Real.cosh (fun _ => .inf false) (fun _ => .inf false)
  tanh := idealOdd Real.tanh (fun _ => .num 1) (fun _ => .num (-1))
  asinh := idealOdd Real.arsinh (fun _ => .inf false) (fun _ => .inf true)
  acosh := fun F x => match x with
    | .num q => if q < 1 then .nan else rnd F (Real.log (q + Real.sqrt ((q : ℝ) ^ 2 - 1)))
    | .inf s => if s then .nan else .inf false
    | _ => .nan
  atanh := fun F x => match x with
    | .num q => if 1 < |q| then .nan else if |q| = 1 then .inf (decide (q < 0))
      else rnd F (1 / 2 * Real.log ((1 + q) / (1 - q)))
    | .zero s => .zero s
    | _ => .nan
  pow := idealPow
  atan2 := idealAtan2
  hypot := idealHypot

end Takum
