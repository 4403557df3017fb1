import Verif.Model.TestUtil
import Verif.Model.Kinds

/-!
# Model of the test programs of the integer power and the root
-/

namespace Takum.Test
open Takum Spec

/-- test/integer_power.c:8-16, `integer_power_reference`. -/
def integerPowerReference (L : Libm) (a : Fl) (b : ℤ) : Fl :=
  if a.isnan || (Fl.eq a (.zero false) && decide (b = 0)) then .nan
  else L.pow x80 a (Fl.ofInt x80 b)

/-- test/root.c:9-17, `root_reference`. -/
def rootReference (L : Libm) (a : Fl) (b : ℤ) : Fl :=
  if b = 0 then .nan
  else L.pow x80 a (Fl.div x80 (.num 1) (Fl.ofInt x80 b))

/-- test/integer_power.c:18-20 and test/root.c:19-21, `integer_test_cases`. -/
def integerCases : List ℤ := [-100, -10, -1, 0, 1, 10, 100]

/-- test/integer_power.c:22-38, `integer_power_utb`, for any list of test cases (each an `int64_t`). -/
def integerPowerBlock (E : Env) (cases : List ℤ) : Block :=
  .takumInt (integerPowerReference E.L)
    (fun k w t n => integerPowerOf E.L k w t (BitVec.ofInt 64 n)) cases

/-- test/root.c:23-39, `root_utb`, for any list of test cases (each an `int64_t`). -/
def rootBlock (E : Env) (cases : List ℤ) : Block :=
  .takumInt (rootReference E.L)
    (fun k w t n => match k with
      | .log => root w t (BitVec.ofInt 64 n)
      | .lin => linRoot E.L w t (BitVec.ofInt 64 n)) cases

/-- test/integer_power.c:40-47, `main`: the exit status. -/
def integerPowerMain (E : Env) : R ℕ := runBlock E (integerPowerBlock E integerCases)

/-- test/root.c:41-48, `main`. -/
def rootMain (E : Env) : R ℕ := runBlock E (rootBlock E integerCases)

end Takum.Test
