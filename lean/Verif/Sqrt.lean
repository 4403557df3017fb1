import Mathlib.Data.Nat.Sqrt
import Verif.Fl

/-!
# IEEE-754 square root

No code of the repository is modelled here: `sqrt` and `sqrtl` are basic IEEE-754 operations with a
correctly rounded result (C99 Annex F.9.4.5).
-/

namespace Takum

/-- The square root of `q > 0` rounded to the format, computed on integers: with `e` the exponent of
the last place of the result, the integer part of `sqrt q / 2^e` and a comparison with the midpoint. -/
def Fmt.sqrtQ (F : Fmt) (q : ℚ) : ℚ :=
  let e := max F.emin (Int.log 2 q / 2 - F.prec + 1)
  let x := q / (4 : ℚ) ^ e
  let k := Nat.sqrt ⌊x⌋.toNat
  let h := ((k : ℚ) + 1 / 2) ^ 2
  let k' := if h < x ∨ (h = x ∧ k % 2 = 1) then k + 1 else k
  (k' : ℚ) * (2 : ℚ) ^ e

/-- `sqrt`: NaN for negative non-zero arguments, `±0` and `+inf` are kept. -/
def Fl.sqrt (F : Fmt) : Fl → Fl
  | .nan => .nan
  | .inf s => if s then .nan else .inf false
  | .zero s => .zero s
  | .num q => if q < 0 then .nan else .num (F.sqrtQ q)

end Takum
