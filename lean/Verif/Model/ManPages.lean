import Verif.Model.Interface

/-!
# The scripts that write the manual pages

man/*.sh and man/template/*.sh: every page is a shell script that exports variables and calls the script of the widest type or one of four
templates. `printf "$X"` is taken to print `X`, which is right for the values that occur (neither `%` nor a backslash).
Of the text of a page the synopsis, the condition for NaR, the type of the result and the reference are modelled; the descriptions
(`COMPUTE_DESCRIPTION`, `COMPUTE_LONG_DESCRIPTION`, `FLOAT_LONG_NAME`) are prose and left out. `\n` in a condition is kept as the two
characters of the script.
-/

namespace Takum.Man
open Takum.Iface

/-- The exported variables (man/takum64_sin.sh:1-8, man/takum64_from_takum16.sh:1-2, man/takum64_from_float32.sh:1-4). -/
inductive Var
  | suffix | suffixInput | function | nanCondition | returnType | secondType | seeAlso | floatName | floatType
  deriving DecidableEq, Repr

/-- `export X="..."`, and `export X=$(if [ -n "$X" ]; then printf "$X"; else printf "..."; fi)` (man/takum64_addition.sh:1-8). -/
inductive Export
  | set (x : Var) (s : String) | default (x : Var) (s : String)
  deriving DecidableEq, Repr

/-- The files in man/template. -/
inductive Template
  | mathFunction | conversion | fromFloat | toFloat
  deriving DecidableEq, Repr

/-- The last line of a script: `$SH man/NAME.sh` or `$SH man/template/NAME.sh`. -/
inductive Next
  | script (f : Fn) | template (t : Template)
  deriving DecidableEq, Repr

/-- A script: the exports and the call (man/*.sh). -/
structure Script where
  exports : List Export
  next : Next
  deriving DecidableEq, Repr

/-- man/takum8_*.sh, by the rest of the name. -/
def log8 : List (String × Script) := [
  ("10_raised", ⟨[.set .suffix "8"], .script ⟨.log, .w64, "10_raised"⟩⟩),
  ("10_raised_minus_1", ⟨[.set .suffix "8"], .script ⟨.log, .w64, "10_raised_minus_1"⟩⟩),
  ("2_raised", ⟨[.set .suffix "8"], .script ⟨.log, .w64, "2_raised"⟩⟩),
  ("2_raised_minus_1", ⟨[.set .suffix "8"], .script ⟨.log, .w64, "2_raised_minus_1"⟩⟩),
  ("absolute", ⟨[.set .suffix "8"], .script ⟨.log, .w64, "absolute"⟩⟩),
  ("addition", ⟨[.set .suffix "8", .set .secondType "takum8"], .script ⟨.log, .w64, "addition"⟩⟩),
  ("arccos", ⟨[.set .suffix "8"], .script ⟨.log, .w64, "arccos"⟩⟩),
  ("arccos_over_pi", ⟨[.set .suffix "8"], .script ⟨.log, .w64, "arccos_over_pi"⟩⟩),
  ("arccot", ⟨[.set .suffix "8"], .script ⟨.log, .w64, "arccot"⟩⟩),
  ("arccot_over_pi", ⟨[.set .suffix "8"], .script ⟨.log, .w64, "arccot_over_pi"⟩⟩),
  ("arccsc", ⟨[.set .suffix "8"], .script ⟨.log, .w64, "arccsc"⟩⟩),
  ("arccsc_over_pi", ⟨[.set .suffix "8"], .script ⟨.log, .w64, "arccsc_over_pi"⟩⟩),
  ("arcosh", ⟨[.set .suffix "8"], .script ⟨.log, .w64, "arcosh"⟩⟩),
  ("arcoth", ⟨[.set .suffix "8"], .script ⟨.log, .w64, "arcoth"⟩⟩),
  ("arcsch", ⟨[.set .suffix "8"], .script ⟨.log, .w64, "arcsch"⟩⟩),
  ("arcsec", ⟨[.set .suffix "8"], .script ⟨.log, .w64, "arcsec"⟩⟩),
  ("arcsec_over_pi", ⟨[.set .suffix "8"], .script ⟨.log, .w64, "arcsec_over_pi"⟩⟩),
  ("arcsin", ⟨[.set .suffix "8"], .script ⟨.log, .w64, "arcsin"⟩⟩),
  ("arcsin_over_pi", ⟨[.set .suffix "8"], .script ⟨.log, .w64, "arcsin_over_pi"⟩⟩),
  ("arctan", ⟨[.set .suffix "8"], .script ⟨.log, .w64, "arctan"⟩⟩),
  ("arctan2", ⟨[.set .suffix "8", .set .secondType "takum8"], .script ⟨.log, .w64, "arctan2"⟩⟩),
  ("arctan2_over_pi", ⟨[.set .suffix "8", .set .secondType "takum8"], .script ⟨.log, .w64, "arctan2_over_pi"⟩⟩),
  ("arctan_over_pi", ⟨[.set .suffix "8"], .script ⟨.log, .w64, "arctan_over_pi"⟩⟩),
  ("arsech", ⟨[.set .suffix "8"], .script ⟨.log, .w64, "arsech"⟩⟩),
  ("arsinh", ⟨[.set .suffix "8"], .script ⟨.log, .w64, "arsinh"⟩⟩),
  ("artanh", ⟨[.set .suffix "8"], .script ⟨.log, .w64, "artanh"⟩⟩),
  ("cos", ⟨[.set .suffix "8"], .script ⟨.log, .w64, "cos"⟩⟩),
  ("cos_pi_times", ⟨[.set .suffix "8"], .script ⟨.log, .w64, "cos_pi_times"⟩⟩),
  ("cosh", ⟨[.set .suffix "8"], .script ⟨.log, .w64, "cosh"⟩⟩),
  ("cot", ⟨[.set .suffix "8"], .script ⟨.log, .w64, "cot"⟩⟩),
  ("cot_pi_times", ⟨[.set .suffix "8"], .script ⟨.log, .w64, "cot_pi_times"⟩⟩),
  ("coth", ⟨[.set .suffix "8"], .script ⟨.log, .w64, "coth"⟩⟩),
  ("csc", ⟨[.set .suffix "8"], .script ⟨.log, .w64, "csc"⟩⟩),
  ("csc_pi_times", ⟨[.set .suffix "8"], .script ⟨.log, .w64, "csc_pi_times"⟩⟩),
  ("csch", ⟨[.set .suffix "8"], .script ⟨.log, .w64, "csch"⟩⟩),
  ("division", ⟨[.set .suffix "8", .set .secondType "takum8"], .script ⟨.log, .w64, "division"⟩⟩),
  ("exp", ⟨[.set .suffix "8"], .script ⟨.log, .w64, "exp"⟩⟩),
  ("exp_minus_1", ⟨[.set .suffix "8"], .script ⟨.log, .w64, "exp_minus_1"⟩⟩),
  ("from_extended_float", ⟨[.set .suffix "8"], .script ⟨.log, .w64, "from_extended_float"⟩⟩),
  ("from_float32", ⟨[.set .suffix "8"], .script ⟨.log, .w64, "from_float32"⟩⟩),
  ("from_float64", ⟨[.set .suffix "8"], .script ⟨.log, .w64, "from_float64"⟩⟩),
  ("from_takum16", ⟨[.set .suffix "8"], .script ⟨.log, .w64, "from_takum16"⟩⟩),
  ("from_takum32", ⟨[.set .suffix "8"], .script ⟨.log, .w64, "from_takum32"⟩⟩),
  ("from_takum64", ⟨[.set .suffix "8"], .script ⟨.log, .w32, "from_takum64"⟩⟩),
  ("from_takum_linear16", ⟨[.set .suffix "8"], .script ⟨.log, .w64, "from_takum_linear16"⟩⟩),
  ("from_takum_linear32", ⟨[.set .suffix "8"], .script ⟨.log, .w64, "from_takum_linear32"⟩⟩),
  ("from_takum_linear64", ⟨[.set .suffix "8"], .script ⟨.log, .w64, "from_takum_linear64"⟩⟩),
  ("from_takum_linear8", ⟨[.set .suffix "8"], .script ⟨.log, .w64, "from_takum_linear8"⟩⟩),
  ("hypotenuse", ⟨[.set .suffix "8", .set .secondType "takum8"], .script ⟨.log, .w64, "hypotenuse"⟩⟩),
  ("integer_power", ⟨[.set .suffix "8"], .script ⟨.log, .w64, "integer_power"⟩⟩),
  ("inversion", ⟨[.set .suffix "8"], .script ⟨.log, .w64, "inversion"⟩⟩),
  ("lb", ⟨[.set .suffix "8"], .script ⟨.log, .w64, "lb"⟩⟩),
  ("lb_1_plus", ⟨[.set .suffix "8"], .script ⟨.log, .w64, "lb_1_plus"⟩⟩),
  ("lg", ⟨[.set .suffix "8"], .script ⟨.log, .w64, "lg"⟩⟩),
  ("lg_1_plus", ⟨[.set .suffix "8"], .script ⟨.log, .w64, "lg_1_plus"⟩⟩),
  ("ln", ⟨[.set .suffix "8"], .script ⟨.log, .w64, "ln"⟩⟩),
  ("ln_1_plus", ⟨[.set .suffix "8"], .script ⟨.log, .w64, "ln_1_plus"⟩⟩),
  ("multiplication", ⟨[.set .suffix "8", .set .secondType "takum8"], .script ⟨.log, .w64, "multiplication"⟩⟩),
  ("power", ⟨[.set .suffix "8", .set .secondType "takum8"], .script ⟨.log, .w64, "power"⟩⟩),
  ("precision", ⟨[.set .suffix "8"], .script ⟨.log, .w64, "precision"⟩⟩),
  ("root", ⟨[.set .suffix "8"], .script ⟨.log, .w64, "root"⟩⟩),
  ("sec", ⟨[.set .suffix "8"], .script ⟨.log, .w64, "sec"⟩⟩),
  ("sec_pi_times", ⟨[.set .suffix "8"], .script ⟨.log, .w64, "sec_pi_times"⟩⟩),
  ("sech", ⟨[.set .suffix "8"], .script ⟨.log, .w64, "sech"⟩⟩),
  ("sign", ⟨[.set .suffix "8"], .script ⟨.log, .w64, "sign"⟩⟩),
  ("sin", ⟨[.set .suffix "8"], .script ⟨.log, .w64, "sin"⟩⟩),
  ("sin_pi_times", ⟨[.set .suffix "8"], .script ⟨.log, .w64, "sin_pi_times"⟩⟩),
  ("sinh", ⟨[.set .suffix "8"], .script ⟨.log, .w64, "sinh"⟩⟩),
  ("square_root", ⟨[.set .suffix "8"], .script ⟨.log, .w64, "square_root"⟩⟩),
  ("subtraction", ⟨[.set .suffix "8", .set .secondType "takum8"], .script ⟨.log, .w64, "subtraction"⟩⟩),
  ("tan", ⟨[.set .suffix "8"], .script ⟨.log, .w64, "tan"⟩⟩),
  ("tan_pi_times", ⟨[.set .suffix "8"], .script ⟨.log, .w64, "tan_pi_times"⟩⟩),
  ("tanh", ⟨[.set .suffix "8"], .script ⟨.log, .w64, "tanh"⟩⟩),
  ("to_extended_float", ⟨[.set .suffix "8"], .script ⟨.log, .w64, "to_extended_float"⟩⟩),
  ("to_float32", ⟨[.set .suffix "8"], .script ⟨.log, .w64, "to_float32"⟩⟩),
  ("to_float64", ⟨[.set .suffix "8"], .script ⟨.log, .w64, "to_float64"⟩⟩)]

/-- man/takum16_*.sh, by the rest of the name. -/
def log16 : List (String × Script) := [
  ("10_raised", ⟨[.set .suffix "16"], .script ⟨.log, .w64, "10_raised"⟩⟩),
  ("10_raised_minus_1", ⟨[.set .suffix "16"], .script ⟨.log, .w64, "10_raised_minus_1"⟩⟩),
  ("2_raised", ⟨[.set .suffix "16"], .script ⟨.log, .w64, "2_raised"⟩⟩),
  ("2_raised_minus_1", ⟨[.set .suffix "16"], .script ⟨.log, .w64, "2_raised_minus_1"⟩⟩),
  ("absolute", ⟨[.set .suffix "16"], .script ⟨.log, .w64, "absolute"⟩⟩),
  ("addition", ⟨[.set .suffix "16", .set .secondType "takum16"], .script ⟨.log, .w64, "addition"⟩⟩),
  ("arccos", ⟨[.set .suffix "16"], .script ⟨.log, .w64, "arccos"⟩⟩),
  ("arccos_over_pi", ⟨[.set .suffix "16"], .script ⟨.log, .w64, "arccos_over_pi"⟩⟩),
  ("arccot", ⟨[.set .suffix "16"], .script ⟨.log, .w64, "arccot"⟩⟩),
  ("arccot_over_pi", ⟨[.set .suffix "16"], .script ⟨.log, .w64, "arccot_over_pi"⟩⟩),
  ("arccsc", ⟨[.set .suffix "16"], .script ⟨.log, .w64, "arccsc"⟩⟩),
  ("arccsc_over_pi", ⟨[.set .suffix "16"], .script ⟨.log, .w64, "arccsc_over_pi"⟩⟩),
  ("arcosh", ⟨[.set .suffix "16"], .script ⟨.log, .w64, "arcosh"⟩⟩),
  ("arcoth", ⟨[.set .suffix "16"], .script ⟨.log, .w64, "arcoth"⟩⟩),
  ("arcsch", ⟨[.set .suffix "16"], .script ⟨.log, .w64, "arcsch"⟩⟩),
  ("arcsec", ⟨[.set .suffix "16"], .script ⟨.log, .w64, "arcsec"⟩⟩),
  ("arcsec_over_pi", ⟨[.set .suffix "16"], .script ⟨.log, .w64, "arcsec_over_pi"⟩⟩),
  ("arcsin", ⟨[.set .suffix "16"], .script ⟨.log, .w64, "arcsin"⟩⟩),
  ("arcsin_over_pi", ⟨[.set .suffix "16"], .script ⟨.log, .w64, "arcsin_over_pi"⟩⟩),
  ("arctan", ⟨[.set .suffix "16"], .script ⟨.log, .w64, "arctan"⟩⟩),
  ("arctan2", ⟨[.set .suffix "16", .set .secondType "takum16"], .script ⟨.log, .w64, "arctan2"⟩⟩),
  ("arctan2_over_pi", ⟨[.set .suffix "16", .set .secondType "takum16"], .script ⟨.log, .w64, "arctan2_over_pi"⟩⟩),
  ("arctan_over_pi", ⟨[.set .suffix "16"], .script ⟨.log, .w64, "arctan_over_pi"⟩⟩),
  ("arsech", ⟨[.set .suffix "16"], .script ⟨.log, .w64, "arsech"⟩⟩),
  ("arsinh", ⟨[.set .suffix "16"], .script ⟨.log, .w64, "arsinh"⟩⟩),
  ("artanh", ⟨[.set .suffix "16"], .script ⟨.log, .w64, "artanh"⟩⟩),
  ("cos", ⟨[.set .suffix "16"], .script ⟨.log, .w64, "cos"⟩⟩),
  ("cos_pi_times", ⟨[.set .suffix "16"], .script ⟨.log, .w64, "cos_pi_times"⟩⟩),
  ("cosh", ⟨[.set .suffix "16"], .script ⟨.log, .w64, "cosh"⟩⟩),
  ("cot", ⟨[.set .suffix "16"], .script ⟨.log, .w64, "cot"⟩⟩),
  ("cot_pi_times", ⟨[.set .suffix "16"], .script ⟨.log, .w64, "cot_pi_times"⟩⟩),
  ("coth", ⟨[.set .suffix "16"], .script ⟨.log, .w64, "coth"⟩⟩),
  ("csc", ⟨[.set .suffix "16"], .script ⟨.log, .w64, "csc"⟩⟩),
  ("csc_pi_times", ⟨[.set .suffix "16"], .script ⟨.log, .w64, "csc_pi_times"⟩⟩),
  ("csch", ⟨[.set .suffix "16"], .script ⟨.log, .w64, "csch"⟩⟩),
  ("division", ⟨[.set .suffix "16", .set .secondType "takum16"], .script ⟨.log, .w64, "division"⟩⟩),
  ("exp", ⟨[.set .suffix "16"], .script ⟨.log, .w64, "exp"⟩⟩),
  ("exp_minus_1", ⟨[.set .suffix "16"], .script ⟨.log, .w64, "exp_minus_1"⟩⟩),
  ("from_extended_float", ⟨[.set .suffix "16"], .script ⟨.log, .w64, "from_extended_float"⟩⟩),
  ("from_float32", ⟨[.set .suffix "16"], .script ⟨.log, .w64, "from_float32"⟩⟩),
  ("from_float64", ⟨[.set .suffix "16"], .script ⟨.log, .w64, "from_float64"⟩⟩),
  ("from_takum32", ⟨[.set .suffix "16"], .script ⟨.log, .w64, "from_takum32"⟩⟩),
  ("from_takum64", ⟨[.set .suffix "16"], .script ⟨.log, .w32, "from_takum64"⟩⟩),
  ("from_takum8", ⟨[.set .suffix "16"], .script ⟨.log, .w64, "from_takum8"⟩⟩),
  ("from_takum_linear16", ⟨[.set .suffix "16"], .script ⟨.log, .w64, "from_takum_linear16"⟩⟩),
  ("from_takum_linear32", ⟨[.set .suffix "16"], .script ⟨.log, .w64, "from_takum_linear32"⟩⟩),
  ("from_takum_linear64", ⟨[.set .suffix "16"], .script ⟨.log, .w64, "from_takum_linear64"⟩⟩),
  ("from_takum_linear8", ⟨[.set .suffix "16"], .script ⟨.log, .w64, "from_takum_linear8"⟩⟩),
  ("hypotenuse", ⟨[.set .suffix "16", .set .secondType "takum16"], .script ⟨.log, .w64, "hypotenuse"⟩⟩),
  ("integer_power", ⟨[.set .suffix "16"], .script ⟨.log, .w64, "integer_power"⟩⟩),
  ("inversion", ⟨[.set .suffix "16"], .script ⟨.log, .w64, "inversion"⟩⟩),
  ("lb", ⟨[.set .suffix "16"], .script ⟨.log, .w64, "lb"⟩⟩),
  ("lb_1_plus", ⟨[.set .suffix "16"], .script ⟨.log, .w64, "lb_1_plus"⟩⟩),
  ("lg", ⟨[.set .suffix "16"], .script ⟨.log, .w64, "lg"⟩⟩),
  ("lg_1_plus", ⟨[.set .suffix "16"], .script ⟨.log, .w64, "lg_1_plus"⟩⟩),
  ("ln", ⟨[.set .suffix "16"], .script ⟨.log, .w64, "ln"⟩⟩),
  ("ln_1_plus", ⟨[.set .suffix "16"], .script ⟨.log, .w64, "ln_1_plus"⟩⟩),
  ("multiplication", ⟨[.set .suffix "16", .set .secondType "takum16"], .script ⟨.log, .w64, "multiplication"⟩⟩),
  ("power", ⟨[.set .suffix "16", .set .secondType "takum16"], .script ⟨.log, .w64, "power"⟩⟩),
  ("precision", ⟨[.set .suffix "16"], .script ⟨.log, .w64, "precision"⟩⟩),
  ("root", ⟨[.set .suffix "16"], .script ⟨.log, .w64, "root"⟩⟩),
  ("sec", ⟨[.set .suffix "16"], .script ⟨.log, .w64, "sec"⟩⟩),
  ("sec_pi_times", ⟨[.set .suffix "16"], .script ⟨.log, .w64, "sec_pi_times"⟩⟩),
  ("sech", ⟨[.set .suffix "16"], .script ⟨.log, .w64, "sech"⟩⟩),
  ("sign", ⟨[.set .suffix "16"], .script ⟨.log, .w64, "sign"⟩⟩),
  ("sin", ⟨[.set .suffix "16"], .script ⟨.log, .w64, "sin"⟩⟩),
  ("sin_pi_times", ⟨[.set .suffix "16"], .script ⟨.log, .w64, "sin_pi_times"⟩⟩),
  ("sinh", ⟨[.set .suffix "16"], .script ⟨.log, .w64, "sinh"⟩⟩),
  ("square_root", ⟨[.set .suffix "16"], .script ⟨.log, .w64, "square_root"⟩⟩),
  ("subtraction", ⟨[.set .suffix "16", .set .secondType "takum16"], .script ⟨.log, .w64, "subtraction"⟩⟩),
  ("tan", ⟨[.set .suffix "16"], .script ⟨.log, .w64, "tan"⟩⟩),
  ("tan_pi_times", ⟨[.set .suffix "16"], .script ⟨.log, .w64, "tan_pi_times"⟩⟩),
  ("tanh", ⟨[.set .suffix "16"], .script ⟨.log, .w64, "tanh"⟩⟩),
  ("to_extended_float", ⟨[.set .suffix "16"], .script ⟨.log, .w64, "to_extended_float"⟩⟩),
  ("to_float32", ⟨[.set .suffix "16"], .script ⟨.log, .w64, "to_float32"⟩⟩),
  ("to_float64", ⟨[.set .suffix "16"], .script ⟨.log, .w64, "to_float64"⟩⟩)]

/-- man/takum32_*.sh, by the rest of the name. -/
def log32 : List (String × Script) := [
  ("10_raised", ⟨[.set .suffix "32"], .script ⟨.log, .w64, "10_raised"⟩⟩),
  ("10_raised_minus_1", ⟨[.set .suffix "32"], .script ⟨.log, .w64, "10_raised_minus_1"⟩⟩),
  ("2_raised", ⟨[.set .suffix "32"], .script ⟨.log, .w64, "2_raised"⟩⟩),
  ("2_raised_minus_1", ⟨[.set .suffix "32"], .script ⟨.log, .w64, "2_raised_minus_1"⟩⟩),
  ("absolute", ⟨[.set .suffix "32"], .script ⟨.log, .w64, "absolute"⟩⟩),
  ("addition", ⟨[.set .suffix "32", .set .secondType "takum32"], .script ⟨.log, .w64, "addition"⟩⟩),
  ("arccos", ⟨[.set .suffix "32"], .script ⟨.log, .w64, "arccos"⟩⟩),
  ("arccos_over_pi", ⟨[.set .suffix "32"], .script ⟨.log, .w64, "arccos_over_pi"⟩⟩),
  ("arccot", ⟨[.set .suffix "32"], .script ⟨.log, .w64, "arccot"⟩⟩),
  ("arccot_over_pi", ⟨[.set .suffix "32"], .script ⟨.log, .w64, "arccot_over_pi"⟩⟩),
  ("arccsc", ⟨[.set .suffix "32"], .script ⟨.log, .w64, "arccsc"⟩⟩),
  ("arccsc_over_pi", ⟨[.set .suffix "32"], .script ⟨.log, .w64, "arccsc_over_pi"⟩⟩),
  ("arcosh", ⟨[.set .suffix "32"], .script ⟨.log, .w64, "arcosh"⟩⟩),
  ("arcoth", ⟨[.set .suffix "32"], .script ⟨.log, .w64, "arcoth"⟩⟩),
  ("arcsch", ⟨[.set .suffix "32"], .script ⟨.log, .w64, "arcsch"⟩⟩),
  ("arcsec", ⟨[.set .suffix "32"], .script ⟨.log, .w64, "arcsec"⟩⟩),
  ("arcsec_over_pi", ⟨[.set .suffix "32"], .script ⟨.log, .w64, "arcsec_over_pi"⟩⟩),
  ("arcsin", ⟨[.set .suffix "32"], .script ⟨.log, .w64, "arcsin"⟩⟩),
  ("arcsin_over_pi", ⟨[.set .suffix "32"], .script ⟨.log, .w64, "arcsin_over_pi"⟩⟩),
  ("arctan", ⟨[.set .suffix "32"], .script ⟨.log, .w64, "arctan"⟩⟩),
  ("arctan2", ⟨[.set .suffix "32", .set .secondType "takum32"], .script ⟨.log, .w64, "arctan2"⟩⟩),
  ("arctan2_over_pi", ⟨[.set .suffix "32", .set .secondType "takum32"], .script ⟨.log, .w64, "arctan2_over_pi"⟩⟩),
  ("arctan_over_pi", ⟨[.set .suffix "32"], .script ⟨.log, .w64, "arctan_over_pi"⟩⟩),
  ("arsech", ⟨[.set .suffix "32"], .script ⟨.log, .w64, "arsech"⟩⟩),
  ("arsinh", ⟨[.set .suffix "32"], .script ⟨.log, .w64, "arsinh"⟩⟩),
  ("artanh", ⟨[.set .suffix "32"], .script ⟨.log, .w64, "artanh"⟩⟩),
  ("cos", ⟨[.set .suffix "32"], .script ⟨.log, .w64, "cos"⟩⟩),
  ("cos_pi_times", ⟨[.set .suffix "32"], .script ⟨.log, .w64, "cos_pi_times"⟩⟩),
  ("cosh", ⟨[.set .suffix "32"], .script ⟨.log, .w64, "cosh"⟩⟩),
  ("cot", ⟨[.set .suffix "32"], .script ⟨.log, .w64, "cot"⟩⟩),
  ("cot_pi_times", ⟨[.set .suffix "32"], .script ⟨.log, .w64, "cot_pi_times"⟩⟩),
  ("coth", ⟨[.set .suffix "32"], .script ⟨.log, .w64, "coth"⟩⟩),
  ("csc", ⟨[.set .suffix "32"], .script ⟨.log, .w64, "csc"⟩⟩),
  ("csc_pi_times", ⟨[.set .suffix "32"], .script ⟨.log, .w64, "csc_pi_times"⟩⟩),
  ("csch", ⟨[.set .suffix "32"], .script ⟨.log, .w64, "csch"⟩⟩),
  ("division", ⟨[.set .suffix "32", .set .secondType "takum32"], .script ⟨.log, .w64, "division"⟩⟩),
  ("exp", ⟨[.set .suffix "32"], .script ⟨.log, .w64, "exp"⟩⟩),
  ("exp_minus_1", ⟨[.set .suffix "32"], .script ⟨.log, .w64, "exp_minus_1"⟩⟩),
  ("from_extended_float", ⟨[.set .suffix "32"], .script ⟨.log, .w64, "from_extended_float"⟩⟩),
  ("from_float32", ⟨[.set .suffix "32"], .script ⟨.log, .w64, "from_float32"⟩⟩),
  ("from_float64", ⟨[.set .suffix "32"], .script ⟨.log, .w64, "from_float64"⟩⟩),
  ("from_takum16", ⟨[.set .suffix "32"], .script ⟨.log, .w64, "from_takum16"⟩⟩),
  ("from_takum64", ⟨[.default .suffix "32", .set .suffixInput "64"], .template .conversion⟩),
  ("from_takum8", ⟨[.set .suffix "32"], .script ⟨.log, .w64, "from_takum8"⟩⟩),
  ("from_takum_linear16", ⟨[.set .suffix "32"], .script ⟨.log, .w64, "from_takum_linear16"⟩⟩),
  ("from_takum_linear32", ⟨[.set .suffix "32"], .script ⟨.log, .w64, "from_takum_linear32"⟩⟩),
  ("from_takum_linear64", ⟨[.set .suffix "32"], .script ⟨.log, .w64, "from_takum_linear64"⟩⟩),
  ("from_takum_linear8", ⟨[.set .suffix "32"], .script ⟨.log, .w64, "from_takum_linear8"⟩⟩),
  ("hypotenuse", ⟨[.set .suffix "32", .set .secondType "takum32"], .script ⟨.log, .w64, "hypotenuse"⟩⟩),
  ("integer_power", ⟨[.set .suffix "32"], .script ⟨.log, .w64, "integer_power"⟩⟩),
  ("inversion", ⟨[.set .suffix "32"], .script ⟨.log, .w64, "inversion"⟩⟩),
  ("lb", ⟨[.set .suffix "32"], .script ⟨.log, .w64, "lb"⟩⟩),
  ("lb_1_plus", ⟨[.set .suffix "32"], .script ⟨.log, .w64, "lb_1_plus"⟩⟩),
  ("lg", ⟨[.set .suffix "32"], .script ⟨.log, .w64, "lg"⟩⟩),
  ("lg_1_plus", ⟨[.set .suffix "32"], .script ⟨.log, .w64, "lg_1_plus"⟩⟩),
  ("ln", ⟨[.set .suffix "32"], .script ⟨.log, .w64, "ln"⟩⟩),
  ("ln_1_plus", ⟨[.set .suffix "32"], .script ⟨.log, .w64, "ln_1_plus"⟩⟩),
  ("multiplication", ⟨[.set .suffix "32", .set .secondType "takum32"], .script ⟨.log, .w64, "multiplication"⟩⟩),
  ("power", ⟨[.set .suffix "32", .set .secondType "takum32"], .script ⟨.log, .w64, "power"⟩⟩),
  ("precision", ⟨[.set .suffix "32"], .script ⟨.log, .w64, "precision"⟩⟩),
  ("root", ⟨[.set .suffix "32"], .script ⟨.log, .w64, "root"⟩⟩),
  ("sec", ⟨[.set .suffix "32"], .script ⟨.log, .w64, "sec"⟩⟩),
  ("sec_pi_times", ⟨[.set .suffix "32"], .script ⟨.log, .w64, "sec_pi_times"⟩⟩),
  ("sech", ⟨[.set .suffix "32"], .script ⟨.log, .w64, "sech"⟩⟩),
  ("sign", ⟨[.set .suffix "32"], .script ⟨.log, .w64, "sign"⟩⟩),
  ("sin", ⟨[.set .suffix "32"], .script ⟨.log, .w64, "sin"⟩⟩),
  ("sin_pi_times", ⟨[.set .suffix "32"], .script ⟨.log, .w64, "sin_pi_times"⟩⟩),
  ("sinh", ⟨[.set .suffix "32"], .script ⟨.log, .w64, "sinh"⟩⟩),
  ("square_root", ⟨[.set .suffix "32"], .script ⟨.log, .w64, "square_root"⟩⟩),
  ("subtraction", ⟨[.set .suffix "32", .set .secondType "takum32"], .script ⟨.log, .w64, "subtraction"⟩⟩),
  ("tan", ⟨[.set .suffix "32"], .script ⟨.log, .w64, "tan"⟩⟩),
  ("tan_pi_times", ⟨[.set .suffix "32"], .script ⟨.log, .w64, "tan_pi_times"⟩⟩),
  ("tanh", ⟨[.set .suffix "32"], .script ⟨.log, .w64, "tanh"⟩⟩),
  ("to_extended_float", ⟨[.set .suffix "32"], .script ⟨.log, .w64, "to_extended_float"⟩⟩),
  ("to_float32", ⟨[.set .suffix "32"], .script ⟨.log, .w64, "to_float32"⟩⟩),
  ("to_float64", ⟨[.set .suffix "32"], .script ⟨.log, .w64, "to_float64"⟩⟩)]

/-- man/takum64_*.sh, by the rest of the name. -/
def log64 : List (String × Script) := [
  ("10_raised", ⟨[.default .suffix "64", .set .function "10_raised", .set .nanCondition "", .set .returnType "", .set .secondType "", .set .seeAlso "10_raised_minus_1"], .template .mathFunction⟩),
  ("10_raised_minus_1", ⟨[.default .suffix "64", .set .function "10_raised_minus_1", .set .nanCondition "", .set .returnType "", .set .secondType "", .set .seeAlso "10_raised"], .template .mathFunction⟩),
  ("2_raised", ⟨[.default .suffix "64", .set .function "2_raised", .set .nanCondition "", .set .returnType "", .set .secondType "", .set .seeAlso "2_raised_minus_1"], .template .mathFunction⟩),
  ("2_raised_minus_1", ⟨[.default .suffix "64", .set .function "2_raised_minus_1", .set .nanCondition "", .set .returnType "", .set .secondType "", .set .seeAlso "2_raised"], .template .mathFunction⟩),
  ("absolute", ⟨[.default .suffix "64", .set .function "absolute", .set .nanCondition "", .set .returnType "", .set .secondType "", .set .seeAlso ""], .template .mathFunction⟩),
  ("addition", ⟨[.default .suffix "64", .set .function "addition", .set .nanCondition "", .set .returnType "", .default .secondType "takum64", .set .seeAlso ""], .template .mathFunction⟩),
  ("arccos", ⟨[.default .suffix "64", .set .function "arccos", .set .nanCondition "\\n.Va a\\nis outside [-1, 1]", .set .returnType "", .set .secondType "", .set .seeAlso "arccos_over_pi"], .template .mathFunction⟩),
  ("arccos_over_pi", ⟨[.default .suffix "64", .set .function "arccos_over_pi", .set .nanCondition "\\n.Va a\\nis outside [-1, 1]", .set .returnType "", .set .secondType "", .set .seeAlso "arccos"], .template .mathFunction⟩),
  ("arccot", ⟨[.default .suffix "64", .set .function "arccot", .set .nanCondition "", .set .returnType "", .set .secondType "", .set .seeAlso "arccot_over_pi"], .template .mathFunction⟩),
  ("arccot_over_pi", ⟨[.default .suffix "64", .set .function "arccot_over_pi", .set .nanCondition "", .set .returnType "", .set .secondType "", .set .seeAlso "arccot"], .template .mathFunction⟩),
  ("arccsc", ⟨[.default .suffix "64", .set .function "arccsc", .set .nanCondition "\\n.Va a\\nis in (-1, 1)", .set .returnType "", .set .secondType "", .set .seeAlso "arccsc_over_pi"], .template .mathFunction⟩),
  ("arccsc_over_pi", ⟨[.default .suffix "64", .set .function "arccsc_over_pi", .set .nanCondition "\\n.Va a\\nis in (-1, 1)", .set .returnType "", .set .secondType "", .set .seeAlso "arccsc"], .template .mathFunction⟩),
  ("arcosh", ⟨[.default .suffix "64", .set .function "arcosh", .set .nanCondition "\\n.Va a\\nis smaller than one", .set .returnType "", .set .secondType "", .set .seeAlso ""], .template .mathFunction⟩),
  ("arcoth", ⟨[.default .suffix "64", .set .function "arcoth", .set .nanCondition "\\n.Va a\\nis in [-1, 1]", .set .returnType "", .set .secondType "", .set .seeAlso ""], .template .mathFunction⟩),
  ("arcsch", ⟨[.default .suffix "64", .set .function "arcsch", .set .nanCondition "\\n.Va a\\nis in zero", .set .returnType "", .set .secondType "", .set .seeAlso ""], .template .mathFunction⟩),
  ("arcsec", ⟨[.default .suffix "64", .set .function "arcsec", .set .nanCondition "\\n.Va a\\nis in (-1, 1)", .set .returnType "", .set .secondType "", .set .seeAlso "arcsec_over_pi"], .template .mathFunction⟩),
  ("arcsec_over_pi", ⟨[.default .suffix "64", .set .function "arcsec_over_pi", .set .nanCondition "\\n.Va a\\nis outside [-1, 1]", .set .returnType "", .set .secondType "", .set .seeAlso "arcsec"], .template .mathFunction⟩),
  ("arcsin", ⟨[.default .suffix "64", .set .function "arcsin", .set .nanCondition "\\n.Va a\\nis outside [-1, 1]", .set .returnType "", .set .secondType "", .set .seeAlso "arcsin_over_pi"], .template .mathFunction⟩),
  ("arcsin_over_pi", ⟨[.default .suffix "64", .set .function "arcsin_over_pi", .set .nanCondition "\\n.Va a\\nis outside [-1, 1]", .set .returnType "", .set .secondType "", .set .seeAlso "arcsin"], .template .mathFunction⟩),
  ("arctan", ⟨[.default .suffix "64", .set .function "arctan", .set .nanCondition "", .set .returnType "", .set .secondType "", .set .seeAlso "arctan_over_pi"], .template .mathFunction⟩),
  ("arctan2", ⟨[.default .suffix "64", .set .function "arctan2", .set .nanCondition "", .set .returnType "", .default .secondType "takum64", .set .seeAlso "arctan2_over_pi"], .template .mathFunction⟩),
  ("arctan2_over_pi", ⟨[.default .suffix "64", .set .function "arctan2_over_pi", .set .nanCondition "", .set .returnType "", .default .secondType "takum64", .set .seeAlso "arctan2"], .template .mathFunction⟩),
  ("arctan_over_pi", ⟨[.default .suffix "64", .set .function "arctan_over_pi", .set .nanCondition "", .set .returnType "", .set .secondType "", .set .seeAlso "arctan"], .template .mathFunction⟩),
  ("arsech", ⟨[.default .suffix "64", .set .function "arsech", .set .nanCondition "\\n.Va a\\nis outside (0,1]", .set .returnType "", .set .secondType "", .set .seeAlso ""], .template .mathFunction⟩),
  ("arsinh", ⟨[.default .suffix "64", .set .function "arsinh", .set .nanCondition "", .set .returnType "", .set .secondType "", .set .seeAlso ""], .template .mathFunction⟩),
  ("artanh", ⟨[.default .suffix "64", .set .function "artanh", .set .nanCondition "\\n.Va a\\nis outside (-1,1)", .set .returnType "", .set .secondType "", .set .seeAlso ""], .template .mathFunction⟩),
  ("cos", ⟨[.default .suffix "64", .set .function "cos", .set .nanCondition "", .set .returnType "", .set .secondType "", .set .seeAlso "cos_pi_times"], .template .mathFunction⟩),
  ("cos_pi_times", ⟨[.default .suffix "64", .set .function "cos_pi_times", .set .nanCondition "", .set .returnType "", .set .secondType "", .set .seeAlso "cos"], .template .mathFunction⟩),
  ("cosh", ⟨[.default .suffix "64", .set .function "cosh", .set .nanCondition "", .set .returnType "", .set .secondType "", .set .seeAlso ""], .template .mathFunction⟩),
  ("cot", ⟨[.default .suffix "64", .set .function "cot", .set .nanCondition "\\n.Va a\\nis zero", .set .returnType "", .set .secondType "", .set .seeAlso "cot_pi_times"], .template .mathFunction⟩),
  ("cot_pi_times", ⟨[.default .suffix "64", .set .function "cot_pi_times", .set .nanCondition "\\n.Va a\\nis an integral value", .set .returnType "", .set .secondType "", .set .seeAlso "cot"], .template .mathFunction⟩),
  ("coth", ⟨[.default .suffix "64", .set .function "coth", .set .nanCondition "\\n.Va a\\n is zero", .set .returnType "", .set .secondType "", .set .seeAlso ""], .template .mathFunction⟩),
  ("csc", ⟨[.default .suffix "64", .set .function "csc", .set .nanCondition "", .set .returnType "", .set .secondType "", .set .seeAlso "csc_pi_times"], .template .mathFunction⟩),
  ("csc_pi_times", ⟨[.default .suffix "64", .set .function "csc_pi_times", .set .nanCondition "\\n.Va a\\nis an integral value", .set .returnType "", .set .secondType "", .set .seeAlso "csc"], .template .mathFunction⟩),
  ("csch", ⟨[.default .suffix "64", .set .function "csch", .set .nanCondition "\\n.Va a\\nis zero", .set .returnType "", .set .secondType "", .set .seeAlso ""], .template .mathFunction⟩),
  ("division", ⟨[.default .suffix "64", .set .function "division", .set .nanCondition "\\n.Va b\\nis zero", .set .returnType "", .default .secondType "takum64", .set .seeAlso ""], .template .mathFunction⟩),
  ("exp", ⟨[.default .suffix "64", .set .function "exp", .set .nanCondition "", .set .returnType "", .set .secondType "", .set .seeAlso "exp_minus_1"], .template .mathFunction⟩),
  ("exp_minus_1", ⟨[.default .suffix "64", .set .function "exp_minus_1", .set .nanCondition "", .set .returnType "", .set .secondType "", .set .seeAlso "exp"], .template .mathFunction⟩),
  ("from_extended_float", ⟨[.default .suffix "64", .set .floatName "extended_float", .set .floatType "long double"], .template .fromFloat⟩),
  ("from_float32", ⟨[.default .suffix "64", .set .floatName "float32", .set .floatType "float"], .template .fromFloat⟩),
  ("from_float64", ⟨[.default .suffix "64", .set .floatName "float64", .set .floatType "double"], .template .fromFloat⟩),
  ("from_takum16", ⟨[.default .suffix "64", .set .suffixInput "16"], .template .conversion⟩),
  ("from_takum32", ⟨[.default .suffix "64", .set .suffixInput "32"], .template .conversion⟩),
  ("from_takum8", ⟨[.default .suffix "64", .set .suffixInput "8"], .template .conversion⟩),
  ("from_takum_linear16", ⟨[.default .suffix "64", .set .suffixInput "_linear16"], .template .conversion⟩),
  ("from_takum_linear32", ⟨[.default .suffix "64", .set .suffixInput "_linear32"], .template .conversion⟩),
  ("from_takum_linear64", ⟨[.default .suffix "64", .set .suffixInput "_linear64"], .template .conversion⟩),
  ("from_takum_linear8", ⟨[.default .suffix "64", .set .suffixInput "_linear8"], .template .conversion⟩),
  ("hypotenuse", ⟨[.default .suffix "64", .set .function "hypotenuse", .set .nanCondition "", .set .returnType "", .default .secondType "takum64", .set .seeAlso ""], .template .mathFunction⟩),
  ("integer_power", ⟨[.default .suffix "64", .set .function "integer_power", .set .nanCondition "\\n.Va a\\nis zero and\\n.Va b\\nis less than or equal to zero", .set .returnType "", .set .secondType "int64_t", .set .seeAlso "power"], .template .mathFunction⟩),
  ("inversion", ⟨[.default .suffix "64", .set .function "inversion", .set .nanCondition "\\n.Va a\\nis zero", .set .returnType "", .set .secondType "", .set .seeAlso ""], .template .mathFunction⟩),
  ("lb", ⟨[.default .suffix "64", .set .function "lb", .set .nanCondition "\\n.Va a\\nis smaller than or equal to zero", .set .returnType "", .set .secondType "", .set .seeAlso "lb_1_plus"], .template .mathFunction⟩),
  ("lb_1_plus", ⟨[.default .suffix "64", .set .function "lb_1_plus", .set .nanCondition "\\n.Va a\\nis smaller than or equal to minus one", .set .returnType "", .set .secondType "", .set .seeAlso "lb"], .template .mathFunction⟩),
  ("lg", ⟨[.default .suffix "64", .set .function "lg", .set .nanCondition "\\n.Va a\\nis smaller than or equal to zero", .set .returnType "", .set .secondType "", .set .seeAlso "lg_1_plus"], .template .mathFunction⟩),
  ("lg_1_plus", ⟨[.default .suffix "64", .set .function "lg_1_plus", .set .nanCondition "\\n.Va a\\nis smaller than or equal to minus one", .set .returnType "", .set .secondType "", .set .seeAlso "lg"], .template .mathFunction⟩),
  ("ln", ⟨[.default .suffix "64", .set .function "ln", .set .nanCondition "\\n.Va a\\nis smaller than or equal to zero", .set .returnType "", .set .secondType "", .set .seeAlso "ln_1_plus"], .template .mathFunction⟩),
  ("ln_1_plus", ⟨[.default .suffix "64", .set .function "ln_1_plus", .set .nanCondition "\\n.Va a\\nis smaller than or equal to minus one", .set .returnType "", .set .secondType "", .set .seeAlso "ln"], .template .mathFunction⟩),
  ("multiplication", ⟨[.default .suffix "64", .set .function "multiplication", .set .nanCondition "", .set .returnType "", .default .secondType "takum64", .set .seeAlso ""], .template .mathFunction⟩),
  ("power", ⟨[.default .suffix "64", .set .function "power", .set .nanCondition "\\n.Va a\\nis zero and\\n.Va b\\nis less than or equal to zero", .set .returnType "", .default .secondType "takum64", .set .seeAlso "integer_power"], .template .mathFunction⟩),
  ("precision", ⟨[.default .suffix "64", .set .function "precision", .set .nanCondition "", .set .returnType "uint8_t", .set .secondType "", .set .seeAlso ""], .template .mathFunction⟩),
  ("root", ⟨[.default .suffix "64", .set .function "root", .set .nanCondition "\\n.Va a\\nand\\n.Va b\\nare zero, or\\n.Va a\\nis smaller than zero and\\n.Va b\\nis even", .set .returnType "", .set .secondType "int64_t", .set .seeAlso "square_root"], .template .mathFunction⟩),
  ("sec", ⟨[.default .suffix "64", .set .function "sec", .set .nanCondition "", .set .returnType "", .set .secondType "", .set .seeAlso "sec_pi_times"], .template .mathFunction⟩),
  ("sec_pi_times", ⟨[.default .suffix "64", .set .function "sec_pi_times", .set .nanCondition "", .set .returnType "", .set .secondType "", .set .seeAlso "sec"], .template .mathFunction⟩),
  ("sech", ⟨[.default .suffix "64", .set .function "sech", .set .nanCondition "", .set .returnType "", .set .secondType "", .set .seeAlso ""], .template .mathFunction⟩),
  ("sign", ⟨[.default .suffix "64", .set .function "sign", .set .nanCondition "", .set .returnType "", .set .secondType "", .set .seeAlso ""], .template .mathFunction⟩),
  ("sin", ⟨[.default .suffix "64", .set .function "sin", .set .nanCondition "", .set .returnType "", .set .secondType "", .set .seeAlso "sin_pi_times"], .template .mathFunction⟩),
  ("sin_pi_times", ⟨[.default .suffix "64", .set .function "sin_pi_times", .set .nanCondition "", .set .returnType "", .set .secondType "", .set .seeAlso "sin"], .template .mathFunction⟩),
  ("sinh", ⟨[.default .suffix "64", .set .function "sinh", .set .nanCondition "", .set .returnType "", .set .secondType "", .set .seeAlso ""], .template .mathFunction⟩),
  ("square_root", ⟨[.default .suffix "64", .set .function "square_root", .set .nanCondition "\\n.Va a\\nis smaller than zero", .set .returnType "", .set .secondType "", .set .seeAlso ""], .template .mathFunction⟩),
  ("subtraction", ⟨[.default .suffix "64", .set .function "subtraction", .set .nanCondition "", .set .returnType "", .default .secondType "takum64", .set .seeAlso ""], .template .mathFunction⟩),
  ("tan", ⟨[.default .suffix "64", .set .function "tan", .set .nanCondition "", .set .returnType "", .set .secondType "", .set .seeAlso "tan_pi_times"], .template .mathFunction⟩),
  ("tan_pi_times", ⟨[.default .suffix "64", .set .function "tan_pi_times", .set .nanCondition "", .set .returnType "", .set .secondType "", .set .seeAlso "tan"], .template .mathFunction⟩),
  ("tanh", ⟨[.default .suffix "64", .set .function "tanh", .set .nanCondition "", .set .returnType "", .set .secondType "", .set .seeAlso ""], .template .mathFunction⟩),
  ("to_extended_float", ⟨[.default .suffix "64", .set .floatName "extended_float", .set .floatType "long double"], .template .toFloat⟩),
  ("to_float32", ⟨[.default .suffix "64", .set .floatName "float32", .set .floatType "float"], .template .toFloat⟩),
  ("to_float64", ⟨[.default .suffix "64", .set .floatName "float64", .set .floatType "double"], .template .toFloat⟩)]

/-- man/takum_linear8_*.sh, by the rest of the name. -/
def lin8 : List (String × Script) := [
  ("10_raised", ⟨[.set .suffix "_linear8"], .script ⟨.lin, .w64, "10_raised"⟩⟩),
  ("10_raised_minus_1", ⟨[.set .suffix "_linear8"], .script ⟨.lin, .w64, "10_raised_minus_1"⟩⟩),
  ("2_raised", ⟨[.set .suffix "_linear8"], .script ⟨.lin, .w64, "2_raised"⟩⟩),
  ("2_raised_minus_1", ⟨[.set .suffix "_linear8"], .script ⟨.lin, .w64, "2_raised_minus_1"⟩⟩),
  ("absolute", ⟨[.set .suffix "_linear8"], .script ⟨.lin, .w64, "absolute"⟩⟩),
  ("addition", ⟨[.set .suffix "_linear8", .set .secondType "takum_linear8"], .script ⟨.lin, .w64, "addition"⟩⟩),
  ("arccos", ⟨[.set .suffix "_linear8"], .script ⟨.lin, .w64, "arccos"⟩⟩),
  ("arccos_over_pi", ⟨[.set .suffix "_linear8"], .script ⟨.lin, .w64, "arccos_over_pi"⟩⟩),
  ("arccot", ⟨[.set .suffix "_linear8"], .script ⟨.lin, .w64, "arccot"⟩⟩),
  ("arccot_over_pi", ⟨[.set .suffix "_linear8"], .script ⟨.lin, .w64, "arccot_over_pi"⟩⟩),
  ("arccsc", ⟨[.set .suffix "_linear8"], .script ⟨.lin, .w64, "arccsc"⟩⟩),
  ("arccsc_over_pi", ⟨[.set .suffix "_linear8"], .script ⟨.lin, .w64, "arccsc_over_pi"⟩⟩),
  ("arcosh", ⟨[.set .suffix "_linear8"], .script ⟨.lin, .w64, "arcosh"⟩⟩),
  ("arcoth", ⟨[.set .suffix "_linear8"], .script ⟨.lin, .w64, "arcoth"⟩⟩),
  ("arcsch", ⟨[.set .suffix "_linear8"], .script ⟨.lin, .w64, "arcsch"⟩⟩),
  ("arcsec", ⟨[.set .suffix "_linear8"], .script ⟨.lin, .w64, "arcsec"⟩⟩),
  ("arcsec_over_pi", ⟨[.set .suffix "_linear8"], .script ⟨.lin, .w64, "arcsec_over_pi"⟩⟩),
  ("arcsin", ⟨[.set .suffix "_linear8"], .script ⟨.lin, .w64, "arcsin"⟩⟩),
  ("arcsin_over_pi", ⟨[.set .suffix "_linear8"], .script ⟨.lin, .w64, "arcsin_over_pi"⟩⟩),
  ("arctan", ⟨[.set .suffix "_linear8"], .script ⟨.lin, .w64, "arctan"⟩⟩),
  ("arctan2", ⟨[.set .suffix "_linear8", .set .secondType "takum_linear8"], .script ⟨.lin, .w64, "arctan2"⟩⟩),
  ("arctan2_over_pi", ⟨[.set .suffix "_linear8", .set .secondType "takum_linear8"], .script ⟨.lin, .w64, "arctan2_over_pi"⟩⟩),
  ("arctan_over_pi", ⟨[.set .suffix "_linear8"], .script ⟨.lin, .w64, "arctan_over_pi"⟩⟩),
  ("arsech", ⟨[.set .suffix "_linear8"], .script ⟨.lin, .w64, "arsech"⟩⟩),
  ("arsinh", ⟨[.set .suffix "_linear8"], .script ⟨.lin, .w64, "arsinh"⟩⟩),
  ("artanh", ⟨[.set .suffix "_linear8"], .script ⟨.lin, .w64, "artanh"⟩⟩),
  ("cos", ⟨[.set .suffix "_linear8"], .script ⟨.lin, .w64, "cos"⟩⟩),
  ("cos_pi_times", ⟨[.set .suffix "_linear8"], .script ⟨.lin, .w64, "cos_pi_times"⟩⟩),
  ("cosh", ⟨[.set .suffix "_linear8"], .script ⟨.lin, .w64, "cosh"⟩⟩),
  ("cot", ⟨[.set .suffix "_linear8"], .script ⟨.lin, .w64, "cot"⟩⟩),
  ("cot_pi_times", ⟨[.set .suffix "_linear8"], .script ⟨.lin, .w64, "cot_pi_times"⟩⟩),
  ("coth", ⟨[.set .suffix "_linear8"], .script ⟨.lin, .w64, "coth"⟩⟩),
  ("csc", ⟨[.set .suffix "_linear8"], .script ⟨.lin, .w64, "csc"⟩⟩),
  ("csc_pi_times", ⟨[.set .suffix "_linear8"], .script ⟨.lin, .w64, "csc_pi_times"⟩⟩),
  ("csch", ⟨[.set .suffix "_linear8"], .script ⟨.lin, .w64, "csch"⟩⟩),
  ("division", ⟨[.set .suffix "_linear8", .set .secondType "takum_linear8"], .script ⟨.lin, .w64, "division"⟩⟩),
  ("exp", ⟨[.set .suffix "_linear8"], .script ⟨.lin, .w64, "exp"⟩⟩),
  ("exp_minus_1", ⟨[.set .suffix "_linear8"], .script ⟨.lin, .w64, "exp_minus_1"⟩⟩),
  ("from_extended_float", ⟨[.set .suffix "_linear8"], .script ⟨.lin, .w64, "from_extended_float"⟩⟩),
  ("from_float32", ⟨[.set .suffix "_linear8"], .script ⟨.lin, .w64, "from_float32"⟩⟩),
  ("from_float64", ⟨[.set .suffix "_linear8"], .script ⟨.lin, .w64, "from_float64"⟩⟩),
  ("from_takum16", ⟨[.set .suffix "_linear8"], .script ⟨.lin, .w64, "from_takum16"⟩⟩),
  ("from_takum32", ⟨[.set .suffix "_linear8"], .script ⟨.lin, .w64, "from_takum32"⟩⟩),
  ("from_takum64", ⟨[.set .suffix "_linear8"], .script ⟨.lin, .w64, "from_takum64"⟩⟩),
  ("from_takum8", ⟨[.set .suffix "_linear8"], .script ⟨.lin, .w64, "from_takum8"⟩⟩),
  ("from_takum_linear16", ⟨[.set .suffix "_linear8"], .script ⟨.lin, .w64, "from_takum_linear16"⟩⟩),
  ("from_takum_linear32", ⟨[.set .suffix "_linear8"], .script ⟨.lin, .w64, "from_takum_linear32"⟩⟩),
  ("from_takum_linear64", ⟨[.set .suffix "_linear8"], .script ⟨.lin, .w32, "from_takum_linear64"⟩⟩),
  ("hypotenuse", ⟨[.set .suffix "_linear8", .set .secondType "takum_linear8"], .script ⟨.lin, .w64, "hypotenuse"⟩⟩),
  ("integer_power", ⟨[.set .suffix "_linear8"], .script ⟨.lin, .w64, "integer_power"⟩⟩),
  ("inversion", ⟨[.set .suffix "_linear8"], .script ⟨.lin, .w64, "inversion"⟩⟩),
  ("lb", ⟨[.set .suffix "_linear8"], .script ⟨.lin, .w64, "lb"⟩⟩),
  ("lb_1_plus", ⟨[.set .suffix "_linear8"], .script ⟨.lin, .w64, "lb_1_plus"⟩⟩),
  ("lg", ⟨[.set .suffix "_linear8"], .script ⟨.lin, .w64, "lg"⟩⟩),
  ("lg_1_plus", ⟨[.set .suffix "_linear8"], .script ⟨.lin, .w64, "lg_1_plus"⟩⟩),
  ("ln", ⟨[.set .suffix "_linear8"], .script ⟨.lin, .w64, "ln"⟩⟩),
  ("ln_1_plus", ⟨[.set .suffix "_linear8"], .script ⟨.lin, .w64, "ln_1_plus"⟩⟩),
  ("multiplication", ⟨[.set .suffix "_linear8", .set .secondType "takum_linear8"], .script ⟨.lin, .w64, "multiplication"⟩⟩),
  ("power", ⟨[.set .suffix "_linear8", .set .secondType "takum_linear8"], .script ⟨.lin, .w64, "power"⟩⟩),
  ("precision", ⟨[.set .suffix "_linear8"], .script ⟨.lin, .w64, "precision"⟩⟩),
  ("root", ⟨[.set .suffix "_linear8"], .script ⟨.lin, .w64, "root"⟩⟩),
  ("sec", ⟨[.set .suffix "_linear8"], .script ⟨.lin, .w64, "sec"⟩⟩),
  ("sec_pi_times", ⟨[.set .suffix "_linear8"], .script ⟨.lin, .w64, "sec_pi_times"⟩⟩),
  ("sech", ⟨[.set .suffix "_linear8"], .script ⟨.lin, .w64, "sech"⟩⟩),
  ("sign", ⟨[.set .suffix "_linear8"], .script ⟨.lin, .w64, "sign"⟩⟩),
  ("sin", ⟨[.set .suffix "_linear8"], .script ⟨.lin, .w64, "sin"⟩⟩),
  ("sin_pi_times", ⟨[.set .suffix "_linear8"], .script ⟨.lin, .w64, "sin_pi_times"⟩⟩),
  ("sinh", ⟨[.set .suffix "_linear8"], .script ⟨.lin, .w64, "sinh"⟩⟩),
  ("square_root", ⟨[.set .suffix "_linear8"], .script ⟨.lin, .w64, "square_root"⟩⟩),
  ("subtraction", ⟨[.set .suffix "_linear8", .set .secondType "takum_linear8"], .script ⟨.lin, .w64, "subtraction"⟩⟩),
  ("tan", ⟨[.set .suffix "_linear8"], .script ⟨.lin, .w64, "tan"⟩⟩),
  ("tan_pi_times", ⟨[.set .suffix "_linear8"], .script ⟨.lin, .w64, "tan_pi_times"⟩⟩),
  ("tanh", ⟨[.set .suffix "_linear8"], .script ⟨.lin, .w64, "tanh"⟩⟩),
  ("to_extended_float", ⟨[.set .suffix "_linear8"], .script ⟨.lin, .w64, "to_extended_float"⟩⟩),
  ("to_float32", ⟨[.set .suffix "_linear8"], .script ⟨.lin, .w64, "to_float32"⟩⟩),
  ("to_float64", ⟨[.set .suffix "_linear8"], .script ⟨.lin, .w64, "to_float64"⟩⟩)]

/-- man/takum_linear16_*.sh, by the rest of the name. -/
def lin16 : List (String × Script) := [
  ("10_raised", ⟨[.set .suffix "_linear16"], .script ⟨.lin, .w64, "10_raised"⟩⟩),
  ("10_raised_minus_1", ⟨[.set .suffix "_linear16"], .script ⟨.lin, .w64, "10_raised_minus_1"⟩⟩),
  ("2_raised", ⟨[.set .suffix "_linear16"], .script ⟨.lin, .w64, "2_raised"⟩⟩),
  ("2_raised_minus_1", ⟨[.set .suffix "_linear16"], .script ⟨.lin, .w64, "2_raised_minus_1"⟩⟩),
  ("absolute", ⟨[.set .suffix "_linear16"], .script ⟨.lin, .w64, "absolute"⟩⟩),
  ("addition", ⟨[.set .suffix "_linear16", .set .secondType "takum_linear16"], .script ⟨.lin, .w64, "addition"⟩⟩),
  ("arccos", ⟨[.set .suffix "_linear16"], .script ⟨.lin, .w64, "arccos"⟩⟩),
  ("arccos_over_pi", ⟨[.set .suffix "_linear16"], .script ⟨.lin, .w64, "arccos_over_pi"⟩⟩),
  ("arccot", ⟨[.set .suffix "_linear16"], .script ⟨.lin, .w64, "arccot"⟩⟩),
  ("arccot_over_pi", ⟨[.set .suffix "_linear16"], .script ⟨.lin, .w64, "arccot_over_pi"⟩⟩),
  ("arccsc", ⟨[.set .suffix "_linear16"], .script ⟨.lin, .w64, "arccsc"⟩⟩),
  ("arccsc_over_pi", ⟨[.set .suffix "_linear16"], .script ⟨.lin, .w64, "arccsc_over_pi"⟩⟩),
  ("arcosh", ⟨[.set .suffix "_linear16"], .script ⟨.lin, .w64, "arcosh"⟩⟩),
  ("arcoth", ⟨[.set .suffix "_linear16"], .script ⟨.lin, .w64, "arcoth"⟩⟩),
  ("arcsch", ⟨[.set .suffix "_linear16"], .script ⟨.lin, .w64, "arcsch"⟩⟩),
  ("arcsec", ⟨[.set .suffix "_linear16"], .script ⟨.lin, .w64, "arcsec"⟩⟩),
  ("arcsec_over_pi", ⟨[.set .suffix "_linear16"], .script ⟨.lin, .w64, "arcsec_over_pi"⟩⟩),
  ("arcsin", ⟨[.set .suffix "_linear16"], .script ⟨.lin, .w64, "arcsin"⟩⟩),
  ("arcsin_over_pi", ⟨[.set .suffix "_linear16"], .script ⟨.lin, .w64, "arcsin_over_pi"⟩⟩),
  ("arctan", ⟨[.set .suffix "_linear16"], .script ⟨.lin, .w64, "arctan"⟩⟩),
  ("arctan2", ⟨[.set .suffix "_linear16", .set .secondType "takum_linear16"], .script ⟨.lin, .w64, "arctan2"⟩⟩),
  ("arctan2_over_pi", ⟨[.set .suffix "_linear16", .set .secondType "takum_linear16"], .script ⟨.lin, .w64, "arctan2_over_pi"⟩⟩),
  ("arctan_over_pi", ⟨[.set .suffix "_linear16"], .script ⟨.lin, .w64, "arctan_over_pi"⟩⟩),
  ("arsech", ⟨[.set .suffix "_linear16"], .script ⟨.lin, .w64, "arsech"⟩⟩),
  ("arsinh", ⟨[.set .suffix "_linear16"], .script ⟨.lin, .w64, "arsinh"⟩⟩),
  ("artanh", ⟨[.set .suffix "_linear16"], .script ⟨.lin, .w64, "artanh"⟩⟩),
  ("cos", ⟨[.set .suffix "_linear16"], .script ⟨.lin, .w64, "cos"⟩⟩),
  ("cos_pi_times", ⟨[.set .suffix "_linear16"], .script ⟨.lin, .w64, "cos_pi_times"⟩⟩),
  ("cosh", ⟨[.set .suffix "_linear16"], .script ⟨.lin, .w64, "cosh"⟩⟩),
  ("cot", ⟨[.set .suffix "_linear16"], .script ⟨.lin, .w64, "cot"⟩⟩),
  ("cot_pi_times", ⟨[.set .suffix "_linear16"], .script ⟨.lin, .w64, "cot_pi_times"⟩⟩),
  ("coth", ⟨[.set .suffix "_linear16"], .script ⟨.lin, .w64, "coth"⟩⟩),
  ("csc", ⟨[.set .suffix "_linear16"], .script ⟨.lin, .w64, "csc"⟩⟩),
  ("csc_pi_times", ⟨[.set .suffix "_linear16"], .script ⟨.lin, .w64, "csc_pi_times"⟩⟩),
  ("csch", ⟨[.set .suffix "_linear16"], .script ⟨.lin, .w64, "csch"⟩⟩),
  ("division", ⟨[.set .suffix "_linear16", .set .secondType "takum_linear16"], .script ⟨.lin, .w64, "division"⟩⟩),
  ("exp", ⟨[.set .suffix "_linear16"], .script ⟨.lin, .w64, "exp"⟩⟩),
  ("exp_minus_1", ⟨[.set .suffix "_linear16"], .script ⟨.lin, .w64, "exp_minus_1"⟩⟩),
  ("from_extended_float", ⟨[.set .suffix "_linear16"], .script ⟨.lin, .w64, "from_extended_float"⟩⟩),
  ("from_float32", ⟨[.set .suffix "_linear16"], .script ⟨.lin, .w64, "from_float32"⟩⟩),
  ("from_float64", ⟨[.set .suffix "_linear16"], .script ⟨.lin, .w64, "from_float64"⟩⟩),
  ("from_takum16", ⟨[.set .suffix "_linear16"], .script ⟨.lin, .w64, "from_takum16"⟩⟩),
  ("from_takum32", ⟨[.set .suffix "_linear16"], .script ⟨.lin, .w64, "from_takum32"⟩⟩),
  ("from_takum64", ⟨[.set .suffix "_linear16"], .script ⟨.lin, .w64, "from_takum64"⟩⟩),
  ("from_takum8", ⟨[.set .suffix "_linear16"], .script ⟨.lin, .w64, "from_takum8"⟩⟩),
  ("from_takum_linear32", ⟨[.set .suffix "_linear16"], .script ⟨.lin, .w64, "from_takum_linear32"⟩⟩),
  ("from_takum_linear64", ⟨[.set .suffix "_linear16"], .script ⟨.lin, .w32, "from_takum_linear64"⟩⟩),
  ("from_takum_linear8", ⟨[.set .suffix "_linear16"], .script ⟨.lin, .w64, "from_takum_linear8"⟩⟩),
  ("hypotenuse", ⟨[.set .suffix "_linear16", .set .secondType "takum_linear16"], .script ⟨.lin, .w64, "hypotenuse"⟩⟩),
  ("integer_power", ⟨[.set .suffix "_linear16"], .script ⟨.lin, .w64, "integer_power"⟩⟩),
  ("inversion", ⟨[.set .suffix "_linear16"], .script ⟨.lin, .w64, "inversion"⟩⟩),
  ("lb", ⟨[.set .suffix "_linear16"], .script ⟨.lin, .w64, "lb"⟩⟩),
  ("lb_1_plus", ⟨[.set .suffix "_linear16"], .script ⟨.lin, .w64, "lb_1_plus"⟩⟩),
  ("lg", ⟨[.set .suffix "_linear16"], .script ⟨.lin, .w64, "lg"⟩⟩),
  ("lg_1_plus", ⟨[.set .suffix "_linear16"], .script ⟨.lin, .w64, "lg_1_plus"⟩⟩),
  ("ln", ⟨[.set .suffix "_linear16"], .script ⟨.lin, .w64, "ln"⟩⟩),
  ("ln_1_plus", ⟨[.set .suffix "_linear16"], .script ⟨.lin, .w64, "ln_1_plus"⟩⟩),
  ("multiplication", ⟨[.set .suffix "_linear16", .set .secondType "takum_linear16"], .script ⟨.lin, .w64, "multiplication"⟩⟩),
  ("power", ⟨[.set .suffix "_linear16", .set .secondType "takum_linear16"], .script ⟨.lin, .w64, "power"⟩⟩),
  ("precision", ⟨[.set .suffix "_linear16"], .script ⟨.lin, .w64, "precision"⟩⟩),
  ("root", ⟨[.set .suffix "_linear16"], .script ⟨.lin, .w64, "root"⟩⟩),
  ("sec", ⟨[.set .suffix "_linear16"], .script ⟨.lin, .w64, "sec"⟩⟩),
  ("sec_pi_times", ⟨[.set .suffix "_linear16"], .script ⟨.lin, .w64, "sec_pi_times"⟩⟩),
  ("sech", ⟨[.set .suffix "_linear16"], .script ⟨.lin, .w64, "sech"⟩⟩),
  ("sign", ⟨[.set .suffix "_linear16"], .script ⟨.lin, .w64, "sign"⟩⟩),
  ("sin", ⟨[.set .suffix "_linear16"], .script ⟨.lin, .w64, "sin"⟩⟩),
  ("sin_pi_times", ⟨[.set .suffix "_linear16"], .script ⟨.lin, .w64, "sin_pi_times"⟩⟩),
  ("sinh", ⟨[.set .suffix "_linear16"], .script ⟨.lin, .w64, "sinh"⟩⟩),
  ("square_root", ⟨[.set .suffix "_linear16"], .script ⟨.lin, .w64, "square_root"⟩⟩),
  ("subtraction", ⟨[.set .suffix "_linear16", .set .secondType "takum_linear16"], .script ⟨.lin, .w64, "subtraction"⟩⟩),
  ("tan", ⟨[.set .suffix "_linear16"], .script ⟨.lin, .w64, "tan"⟩⟩),
  ("tan_pi_times", ⟨[.set .suffix "_linear16"], .script ⟨.lin, .w64, "tan_pi_times"⟩⟩),
  ("tanh", ⟨[.set .suffix "_linear16"], .script ⟨.lin, .w64, "tanh"⟩⟩),
  ("to_extended_float", ⟨[.set .suffix "_linear16"], .script ⟨.lin, .w64, "to_extended_float"⟩⟩),
  ("to_float32", ⟨[.set .suffix "_linear16"], .script ⟨.lin, .w64, "to_float32"⟩⟩),
  ("to_float64", ⟨[.set .suffix "_linear16"], .script ⟨.lin, .w64, "to_float64"⟩⟩)]

/-- man/takum_linear32_*.sh, by the rest of the name. -/
def lin32 : List (String × Script) := [
  ("10_raised", ⟨[.set .suffix "_linear32"], .script ⟨.lin, .w64, "10_raised"⟩⟩),
  ("10_raised_minus_1", ⟨[.set .suffix "_linear32"], .script ⟨.lin, .w64, "10_raised_minus_1"⟩⟩),
  ("2_raised", ⟨[.set .suffix "_linear32"], .script ⟨.lin, .w64, "2_raised"⟩⟩),
  ("2_raised_minus_1", ⟨[.set .suffix "_linear32"], .script ⟨.lin, .w64, "2_raised_minus_1"⟩⟩),
  ("absolute", ⟨[.set .suffix "_linear32"], .script ⟨.lin, .w64, "absolute"⟩⟩),
  ("addition", ⟨[.set .suffix "_linear32", .set .secondType "takum_linear32"], .script ⟨.lin, .w64, "addition"⟩⟩),
  ("arccos", ⟨[.set .suffix "_linear32"], .script ⟨.lin, .w64, "arccos"⟩⟩),
  ("arccos_over_pi", ⟨[.set .suffix "_linear32"], .script ⟨.lin, .w64, "arccos_over_pi"⟩⟩),
  ("arccot", ⟨[.set .suffix "_linear32"], .script ⟨.lin, .w64, "arccot"⟩⟩),
  ("arccot_over_pi", ⟨[.set .suffix "_linear32"], .script ⟨.lin, .w64, "arccot_over_pi"⟩⟩),
  ("arccsc", ⟨[.set .suffix "_linear32"], .script ⟨.lin, .w64, "arccsc"⟩⟩),
  ("arccsc_over_pi", ⟨[.set .suffix "_linear32"], .script ⟨.lin, .w64, "arccsc_over_pi"⟩⟩),
  ("arcosh", ⟨[.set .suffix "_linear32"], .script ⟨.lin, .w64, "arcosh"⟩⟩),
  ("arcoth", ⟨[.set .suffix "_linear32"], .script ⟨.lin, .w64, "arcoth"⟩⟩),
  ("arcsch", ⟨[.set .suffix "_linear32"], .script ⟨.lin, .w64, "arcsch"⟩⟩),
  ("arcsec", ⟨[.set .suffix "_linear32"], .script ⟨.lin, .w64, "arcsec"⟩⟩),
  ("arcsec_over_pi", ⟨[.set .suffix "_linear32"], .script ⟨.lin, .w64, "arcsec_over_pi"⟩⟩),
  ("arcsin", ⟨[.set .suffix "_linear32"], .script ⟨.lin, .w64, "arcsin"⟩⟩),
  ("arcsin_over_pi", ⟨[.set .suffix "_linear32"], .script ⟨.lin, .w64, "arcsin_over_pi"⟩⟩),
  ("arctan", ⟨[.set .suffix "_linear32"], .script ⟨.lin, .w64, "arctan"⟩⟩),
  ("arctan2", ⟨[.set .suffix "_linear32", .set .secondType "takum_linear32"], .script ⟨.lin, .w64, "arctan2"⟩⟩),
  ("arctan2_over_pi", ⟨[.set .suffix "_linear32", .set .secondType "takum_linear32"], .script ⟨.lin, .w64, "arctan2_over_pi"⟩⟩),
  ("arctan_over_pi", ⟨[.set .suffix "_linear32"], .script ⟨.lin, .w64, "arctan_over_pi"⟩⟩),
  ("arsech", ⟨[.set .suffix "_linear32"], .script ⟨.lin, .w64, "arsech"⟩⟩),
  ("arsinh", ⟨[.set .suffix "_linear32"], .script ⟨.lin, .w64, "arsinh"⟩⟩),
  ("artanh", ⟨[.set .suffix "_linear32"], .script ⟨.lin, .w64, "artanh"⟩⟩),
  ("cos", ⟨[.set .suffix "_linear32"], .script ⟨.lin, .w64, "cos"⟩⟩),
  ("cos_pi_times", ⟨[.set .suffix "_linear32"], .script ⟨.lin, .w64, "cos_pi_times"⟩⟩),
  ("cosh", ⟨[.set .suffix "_linear32"], .script ⟨.lin, .w64, "cosh"⟩⟩),
  ("cot", ⟨[.set .suffix "_linear32"], .script ⟨.lin, .w64, "cot"⟩⟩),
  ("cot_pi_times", ⟨[.set .suffix "_linear32"], .script ⟨.lin, .w64, "cot_pi_times"⟩⟩),
  ("coth", ⟨[.set .suffix "_linear32"], .script ⟨.lin, .w64, "coth"⟩⟩),
  ("csc", ⟨[.set .suffix "_linear32"], .script ⟨.lin, .w64, "csc"⟩⟩),
  ("csc_pi_times", ⟨[.set .suffix "_linear32"], .script ⟨.lin, .w64, "csc_pi_times"⟩⟩),
  ("csch", ⟨[.set .suffix "_linear32"], .script ⟨.lin, .w64, "csch"⟩⟩),
  ("division", ⟨[.set .suffix "_linear32", .set .secondType "takum_linear32"], .script ⟨.lin, .w64, "division"⟩⟩),
  ("exp", ⟨[.set .suffix "_linear32"], .script ⟨.lin, .w64, "exp"⟩⟩),
  ("exp_minus_1", ⟨[.set .suffix "_linear32"], .script ⟨.lin, .w64, "exp_minus_1"⟩⟩),
  ("from_extended_float", ⟨[.set .suffix "_linear32"], .script ⟨.lin, .w64, "from_extended_float"⟩⟩),
  ("from_float32", ⟨[.set .suffix "_linear32"], .script ⟨.lin, .w64, "from_float32"⟩⟩),
  ("from_float64", ⟨[.set .suffix "_linear32"], .script ⟨.lin, .w64, "from_float64"⟩⟩),
  ("from_takum16", ⟨[.set .suffix "_linear32"], .script ⟨.lin, .w64, "from_takum16"⟩⟩),
  ("from_takum32", ⟨[.set .suffix "_linear32"], .script ⟨.lin, .w64, "from_takum32"⟩⟩),
  ("from_takum64", ⟨[.set .suffix "_linear32"], .script ⟨.lin, .w64, "from_takum64"⟩⟩),
  ("from_takum8", ⟨[.set .suffix "_linear32"], .script ⟨.lin, .w64, "from_takum8"⟩⟩),
  ("from_takum_linear16", ⟨[.set .suffix "_linear32"], .script ⟨.lin, .w64, "from_takum_linear16"⟩⟩),
  ("from_takum_linear64", ⟨[.default .suffix "_linear32", .set .suffixInput "_linear64"], .template .conversion⟩),
  ("from_takum_linear8", ⟨[.set .suffix "_linear32"], .script ⟨.lin, .w64, "from_takum_linear8"⟩⟩),
  ("hypotenuse", ⟨[.set .suffix "_linear32", .set .secondType "takum_linear32"], .script ⟨.lin, .w64, "hypotenuse"⟩⟩),
  ("integer_power", ⟨[.set .suffix "_linear32"], .script ⟨.lin, .w64, "integer_power"⟩⟩),
  ("inversion", ⟨[.set .suffix "_linear32"], .script ⟨.lin, .w64, "inversion"⟩⟩),
  ("lb", ⟨[.set .suffix "_linear32"], .script ⟨.lin, .w64, "lb"⟩⟩),
  ("lb_1_plus", ⟨[.set .suffix "_linear32"], .script ⟨.lin, .w64, "lb_1_plus"⟩⟩),
  ("lg", ⟨[.set .suffix "_linear32"], .script ⟨.lin, .w64, "lg"⟩⟩),
  ("lg_1_plus", ⟨[.set .suffix "_linear32"], .script ⟨.lin, .w64, "lg_1_plus"⟩⟩),
  ("ln", ⟨[.set .suffix "_linear32"], .script ⟨.lin, .w64, "ln"⟩⟩),
  ("ln_1_plus", ⟨[.set .suffix "_linear32"], .script ⟨.lin, .w64, "ln_1_plus"⟩⟩),
  ("multiplication", ⟨[.set .suffix "_linear32", .set .secondType "takum_linear32"], .script ⟨.lin, .w64, "multiplication"⟩⟩),
  ("power", ⟨[.set .suffix "_linear32", .set .secondType "takum_linear32"], .script ⟨.lin, .w64, "power"⟩⟩),
  ("precision", ⟨[.set .suffix "_linear32"], .script ⟨.lin, .w64, "precision"⟩⟩),
  ("root", ⟨[.set .suffix "_linear32"], .script ⟨.lin, .w64, "root"⟩⟩),
  ("sec", ⟨[.set .suffix "_linear32"], .script ⟨.lin, .w64, "sec"⟩⟩),
  ("sec_pi_times", ⟨[.set .suffix "_linear32"], .script ⟨.lin, .w64, "sec_pi_times"⟩⟩),
  ("sech", ⟨[.set .suffix "_linear32"], .script ⟨.lin, .w64, "sech"⟩⟩),
  ("sign", ⟨[.set .suffix "_linear32"], .script ⟨.lin, .w64, "sign"⟩⟩),
  ("sin", ⟨[.set .suffix "_linear32"], .script ⟨.lin, .w64, "sin"⟩⟩),
  ("sin_pi_times", ⟨[.set .suffix "_linear32"], .script ⟨.lin, .w64, "sin_pi_times"⟩⟩),
  ("sinh", ⟨[.set .suffix "_linear32"], .script ⟨.lin, .w64, "sinh"⟩⟩),
  ("square_root", ⟨[.set .suffix "_linear32"], .script ⟨.lin, .w64, "square_root"⟩⟩),
  ("subtraction", ⟨[.set .suffix "_linear32", .set .secondType "takum_linear32"], .script ⟨.lin, .w64, "subtraction"⟩⟩),
  ("tan", ⟨[.set .suffix "_linear32"], .script ⟨.lin, .w64, "tan"⟩⟩),
  ("tan_pi_times", ⟨[.set .suffix "_linear32"], .script ⟨.lin, .w64, "tan_pi_times"⟩⟩),
  ("tanh", ⟨[.set .suffix "_linear32"], .script ⟨.lin, .w64, "tanh"⟩⟩),
  ("to_extended_float", ⟨[.set .suffix "_linear32"], .script ⟨.lin, .w64, "to_extended_float"⟩⟩),
  ("to_float32", ⟨[.set .suffix "_linear32"], .script ⟨.lin, .w64, "to_float32"⟩⟩),
  ("to_float64", ⟨[.set .suffix "_linear32"], .script ⟨.lin, .w64, "to_float64"⟩⟩)]

/-- man/takum_linear64_*.sh, by the rest of the name. -/
def lin64 : List (String × Script) := [
  ("10_raised", ⟨[.default .suffix "_linear64", .set .function "10_raised", .set .nanCondition "", .set .returnType "", .set .secondType "", .set .seeAlso "10_raised_minus_1"], .template .mathFunction⟩),
  ("10_raised_minus_1", ⟨[.default .suffix "_linear64", .set .function "10_raised_minus_1", .set .nanCondition "", .set .returnType "", .set .secondType "", .set .seeAlso "10_raised"], .template .mathFunction⟩),
  ("2_raised", ⟨[.default .suffix "_linear64", .set .function "2_raised", .set .nanCondition "", .set .returnType "", .set .secondType "", .set .seeAlso "2_raised_minus_1"], .template .mathFunction⟩),
  ("2_raised_minus_1", ⟨[.default .suffix "_linear64", .set .function "2_raised_minus_1", .set .nanCondition "", .set .returnType "", .set .secondType "", .set .seeAlso "2_raised"], .template .mathFunction⟩),
  ("absolute", ⟨[.default .suffix "_linear64", .set .function "absolute", .set .nanCondition "", .set .returnType "", .set .secondType "", .set .seeAlso ""], .template .mathFunction⟩),
  ("addition", ⟨[.default .suffix "_linear64", .set .function "addition", .set .nanCondition "", .set .returnType "", .default .secondType "takum_linear64", .set .seeAlso ""], .template .mathFunction⟩),
  ("arccos", ⟨[.default .suffix "_linear64", .set .function "arccos", .set .nanCondition "\\n.Va a\\nis outside [-1, 1]", .set .returnType "", .set .secondType "", .set .seeAlso "arccos_over_pi"], .template .mathFunction⟩),
  ("arccos_over_pi", ⟨[.default .suffix "_linear64", .set .function "arccos_over_pi", .set .nanCondition "\\n.Va a\\nis outside [-1, 1]", .set .returnType "", .set .secondType "", .set .seeAlso "arccos"], .template .mathFunction⟩),
  ("arccot", ⟨[.default .suffix "_linear64", .set .function "arccot", .set .nanCondition "", .set .returnType "", .set .secondType "", .set .seeAlso "arccot_over_pi"], .template .mathFunction⟩),
  ("arccot_over_pi", ⟨[.default .suffix "_linear64", .set .function "arccot_over_pi", .set .nanCondition "", .set .returnType "", .set .secondType "", .set .seeAlso "arccot"], .template .mathFunction⟩),
  ("arccsc", ⟨[.default .suffix "_linear64", .set .function "arccsc", .set .nanCondition "\\n.Va a\\nis in (-1, 1)", .set .returnType "", .set .secondType "", .set .seeAlso "arccsc_over_pi"], .template .mathFunction⟩),
  ("arccsc_over_pi", ⟨[.default .suffix "_linear64", .set .function "arccsc_over_pi", .set .nanCondition "\\n.Va a\\nis in (-1, 1)", .set .returnType "", .set .secondType "", .set .seeAlso "arccsc"], .template .mathFunction⟩),
  ("arcosh", ⟨[.default .suffix "_linear64", .set .function "arcosh", .set .nanCondition "\\n.Va a\\nis smaller than one", .set .returnType "", .set .secondType "", .set .seeAlso ""], .template .mathFunction⟩),
  ("arcoth", ⟨[.default .suffix "_linear64", .set .function "arcoth", .set .nanCondition "\\n.Va a\\nis in [-1, 1]", .set .returnType "", .set .secondType "", .set .seeAlso ""], .template .mathFunction⟩),
  ("arcsch", ⟨[.default .suffix "_linear64", .set .function "arcsch", .set .nanCondition "\\n.Va a\\nis in zero", .set .returnType "", .set .secondType "", .set .seeAlso ""], .template .mathFunction⟩),
  ("arcsec", ⟨[.default .suffix "_linear64", .set .function "arcsec", .set .nanCondition "\\n.Va a\\nis in (-1, 1)", .set .returnType "", .set .secondType "", .set .seeAlso "arcsec_over_pi"], .template .mathFunction⟩),
  ("arcsec_over_pi", ⟨[.default .suffix "_linear64", .set .function "arcsec_over_pi", .set .nanCondition "\\n.Va a\\nis outside [-1, 1]", .set .returnType "", .set .secondType "", .set .seeAlso "arcsec"], .template .mathFunction⟩),
  ("arcsin", ⟨[.default .suffix "_linear64", .set .function "arcsin", .set .nanCondition "\\n.Va a\\nis outside [-1, 1]", .set .returnType "", .set .secondType "", .set .seeAlso "arcsin_over_pi"], .template .mathFunction⟩),
  ("arcsin_over_pi", ⟨[.default .suffix "_linear64", .set .function "arcsin_over_pi", .set .nanCondition "\\n.Va a\\nis outside [-1, 1]", .set .returnType "", .set .secondType "", .set .seeAlso "arcsin"], .template .mathFunction⟩),
  ("arctan", ⟨[.default .suffix "_linear64", .set .function "arctan", .set .nanCondition "", .set .returnType "", .set .secondType "", .set .seeAlso "arctan_over_pi"], .template .mathFunction⟩),
  ("arctan2", ⟨[.default .suffix "_linear64", .set .function "arctan2", .set .nanCondition "", .set .returnType "", .default .secondType "takum_linear64", .set .seeAlso "arctan2_over_pi"], .template .mathFunction⟩),
  ("arctan2_over_pi", ⟨[.default .suffix "_linear64", .set .function "arctan2_over_pi", .set .nanCondition "", .set .returnType "", .default .secondType "takum_linear64", .set .seeAlso "arctan2"], .template .mathFunction⟩),
  ("arctan_over_pi", ⟨[.default .suffix "_linear64", .set .function "arctan_over_pi", .set .nanCondition "", .set .returnType "", .set .secondType "", .set .seeAlso "arctan"], .template .mathFunction⟩),
  ("arsech", ⟨[.default .suffix "_linear64", .set .function "arsech", .set .nanCondition "\\n.Va a\\nis outside (0,1]", .set .returnType "", .set .secondType "", .set .seeAlso ""], .template .mathFunction⟩),
  ("arsinh", ⟨[.default .suffix "_linear64", .set .function "arsinh", .set .nanCondition "", .set .returnType "", .set .secondType "", .set .seeAlso ""], .template .mathFunction⟩),
  ("artanh", ⟨[.default .suffix "_linear64", .set .function "artanh", .set .nanCondition "\\n.Va a\\nis outside (-1,1)", .set .returnType "", .set .secondType "", .set .seeAlso ""], .template .mathFunction⟩),
  ("cos", ⟨[.default .suffix "_linear64", .set .function "cos", .set .nanCondition "", .set .returnType "", .set .secondType "", .set .seeAlso "cos_pi_times"], .template .mathFunction⟩),
  ("cos_pi_times", ⟨[.default .suffix "_linear64", .set .function "cos_pi_times", .set .nanCondition "", .set .returnType "", .set .secondType "", .set .seeAlso "cos"], .template .mathFunction⟩),
  ("cosh", ⟨[.default .suffix "_linear64", .set .function "cosh", .set .nanCondition "", .set .returnType "", .set .secondType "", .set .seeAlso ""], .template .mathFunction⟩),
  ("cot", ⟨[.default .suffix "_linear64", .set .function "cot", .set .nanCondition "\\n.Va a\\nis zero", .set .returnType "", .set .secondType "", .set .seeAlso "cot_pi_times"], .template .mathFunction⟩),
  ("cot_pi_times", ⟨[.default .suffix "_linear64", .set .function "cot_pi_times", .set .nanCondition "\\n.Va a\\nis an integral value", .set .returnType "", .set .secondType "", .set .seeAlso "cot"], .template .mathFunction⟩),
  ("coth", ⟨[.default .suffix "_linear64", .set .function "coth", .set .nanCondition "\\n.Va a\\n is zero", .set .returnType "", .set .secondType "", .set .seeAlso ""], .template .mathFunction⟩),
  ("csc", ⟨[.default .suffix "_linear64", .set .function "csc", .set .nanCondition "", .set .returnType "", .set .secondType "", .set .seeAlso "csc_pi_times"], .template .mathFunction⟩),
  ("csc_pi_times", ⟨[.default .suffix "_linear64", .set .function "csc_pi_times", .set .nanCondition "\\n.Va a\\nis an integral value", .set .returnType "", .set .secondType "", .set .seeAlso "csc"], .template .mathFunction⟩),
  ("csch", ⟨[.default .suffix "_linear64", .set .function "csch", .set .nanCondition "\\n.Va a\\nis zero", .set .returnType "", .set .secondType "", .set .seeAlso ""], .template .mathFunction⟩),
  ("division", ⟨[.default .suffix "_linear64", .set .function "division", .set .nanCondition "\\n.Va b\\nis zero", .set .returnType "", .default .secondType "takum_linear64", .set .seeAlso ""], .template .mathFunction⟩),
  ("exp", ⟨[.default .suffix "_linear64", .set .function "exp", .set .nanCondition "", .set .returnType "", .set .secondType "", .set .seeAlso "exp_minus_1"], .template .mathFunction⟩),
  ("exp_minus_1", ⟨[.default .suffix "_linear64", .set .function "exp_minus_1", .set .nanCondition "", .set .returnType "", .set .secondType "", .set .seeAlso "exp"], .template .mathFunction⟩),
  ("from_extended_float", ⟨[.default .suffix "_linear64", .set .floatName "extended_float", .set .floatType "long double"], .template .fromFloat⟩),
  ("from_float32", ⟨[.default .suffix "_linear64", .set .floatName "float32", .set .floatType "float"], .template .fromFloat⟩),
  ("from_float64", ⟨[.default .suffix "_linear64", .set .floatName "float64", .set .floatType "double"], .template .fromFloat⟩),
  ("from_takum16", ⟨[.default .suffix "_linear64", .set .suffixInput "16"], .template .conversion⟩),
  ("from_takum32", ⟨[.default .suffix "_linear64", .set .suffixInput "32"], .template .conversion⟩),
  ("from_takum64", ⟨[.default .suffix "_linear64", .set .suffixInput "64"], .template .conversion⟩),
  ("from_takum8", ⟨[.default .suffix "_linear64", .set .suffixInput "8"], .template .conversion⟩),
  ("from_takum_linear16", ⟨[.default .suffix "_linear64", .set .suffixInput "_linear16"], .template .conversion⟩),
  ("from_takum_linear32", ⟨[.default .suffix "_linear64", .set .suffixInput "_linear32"], .template .conversion⟩),
  ("from_takum_linear8", ⟨[.default .suffix "_linear64", .set .suffixInput "_linear8"], .template .conversion⟩),
  ("hypotenuse", ⟨[.default .suffix "_linear64", .set .function "hypotenuse", .set .nanCondition "", .set .returnType "", .default .secondType "takum_linear64", .set .seeAlso ""], .template .mathFunction⟩),
  ("integer_power", ⟨[.default .suffix "_linear64", .set .function "integer_power", .set .nanCondition "\\n.Va a\\nis zero and\\n.Va b\\nis less than or equal to zero", .set .returnType "", .set .secondType "int64_t", .set .seeAlso "power"], .template .mathFunction⟩),
  ("inversion", ⟨[.default .suffix "_linear64", .set .function "inversion", .set .nanCondition "\\n.Va a\\nis zero", .set .returnType "", .set .secondType "", .set .seeAlso ""], .template .mathFunction⟩),
  ("lb", ⟨[.default .suffix "_linear64", .set .function "lb", .set .nanCondition "\\n.Va a\\nis smaller than or equal to zero", .set .returnType "", .set .secondType "", .set .seeAlso "lb_1_plus"], .template .mathFunction⟩),
  ("lb_1_plus", ⟨[.default .suffix "_linear64", .set .function "lb_1_plus", .set .nanCondition "\\n.Va a\\nis smaller than or equal to minus one", .set .returnType "", .set .secondType "", .set .seeAlso "lb"], .template .mathFunction⟩),
  ("lg", ⟨[.default .suffix "_linear64", .set .function "lg", .set .nanCondition "\\n.Va a\\nis smaller than or equal to zero", .set .returnType "", .set .secondType "", .set .seeAlso "lg_1_plus"], .template .mathFunction⟩),
  ("lg_1_plus", ⟨[.default .suffix "_linear64", .set .function "lg_1_plus", .set .nanCondition "\\n.Va a\\nis smaller than or equal to minus one", .set .returnType "", .set .secondType "", .set .seeAlso "lg"], .template .mathFunction⟩),
  ("ln", ⟨[.default .suffix "_linear64", .set .function "ln", .set .nanCondition "\\n.Va a\\nis smaller than or equal to zero", .set .returnType "", .set .secondType "", .set .seeAlso "ln_1_plus"], .template .mathFunction⟩),
  ("ln_1_plus", ⟨[.default .suffix "_linear64", .set .function "ln_1_plus", .set .nanCondition "\\n.Va a\\nis smaller than or equal to minus one", .set .returnType "", .set .secondType "", .set .seeAlso "ln"], .template .mathFunction⟩),
  ("multiplication", ⟨[.default .suffix "_linear64", .set .function "multiplication", .set .nanCondition "", .set .returnType "", .default .secondType "takum_linear64", .set .seeAlso ""], .template .mathFunction⟩),
  ("power", ⟨[.default .suffix "_linear64", .set .function "power", .set .nanCondition "\\n.Va a\\nis zero and\\n.Va b\\nis less than or equal to zero", .set .returnType "", .default .secondType "takum_linear64", .set .seeAlso "integer_power"], .template .mathFunction⟩),
  ("precision", ⟨[.default .suffix "_linear64", .set .function "precision", .set .nanCondition "", .set .returnType "uint8_t", .set .secondType "", .set .seeAlso ""], .template .mathFunction⟩),
  ("root", ⟨[.default .suffix "_linear64", .set .function "root", .set .nanCondition "\\n.Va a\\nand\\n.Va b\\nare zero, or\\n.Va a\\nis smaller than zero and\\n.Va b\\nis even", .set .returnType "", .set .secondType "int64_t", .set .seeAlso "square_root"], .template .mathFunction⟩),
  ("sec", ⟨[.default .suffix "_linear64", .set .function "sec", .set .nanCondition "", .set .returnType "", .set .secondType "", .set .seeAlso "sec_pi_times"], .template .mathFunction⟩),
  ("sec_pi_times", ⟨[.default .suffix "_linear64", .set .function "sec_pi_times", .set .nanCondition "", .set .returnType "", .set .secondType "", .set .seeAlso "sec"], .template .mathFunction⟩),
  ("sech", ⟨[.default .suffix "_linear64", .set .function "sech", .set .nanCondition "", .set .returnType "", .set .secondType "", .set .seeAlso ""], .template .mathFunction⟩),
  ("sign", ⟨[.default .suffix "_linear64", .set .function "sign", .set .nanCondition "", .set .returnType "", .set .secondType "", .set .seeAlso ""], .template .mathFunction⟩),
  ("sin", ⟨[.default .suffix "_linear64", .set .function "sin", .set .nanCondition "", .set .returnType "", .set .secondType "", .set .seeAlso "sin_pi_times"], .template .mathFunction⟩),
  ("sin_pi_times", ⟨[.default .suffix "_linear64", .set .function "sin_pi_times", .set .nanCondition "", .set .returnType "", .set .secondType "", .set .seeAlso "sin"], .template .mathFunction⟩),
  ("sinh", ⟨[.default .suffix "_linear64", .set .function "sinh", .set .nanCondition "", .set .returnType "", .set .secondType "", .set .seeAlso ""], .template .mathFunction⟩),
  ("square_root", ⟨[.default .suffix "_linear64", .set .function "square_root", .set .nanCondition "\\n.Va a\\nis smaller than zero", .set .returnType "", .set .secondType "", .set .seeAlso ""], .template .mathFunction⟩),
  ("subtraction", ⟨[.default .suffix "_linear64", .set .function "subtraction", .set .nanCondition "", .set .returnType "", .default .secondType "takum_linear64", .set .seeAlso ""], .template .mathFunction⟩),
  ("tan", ⟨[.default .suffix "_linear64", .set .function "tan", .set .nanCondition "", .set .returnType "", .set .secondType "", .set .seeAlso "tan_pi_times"], .template .mathFunction⟩),
  ("tan_pi_times", ⟨[.default .suffix "_linear64", .set .function "tan_pi_times", .set .nanCondition "", .set .returnType "", .set .secondType "", .set .seeAlso "tan"], .template .mathFunction⟩),
  ("tanh", ⟨[.default .suffix "_linear64", .set .function "tanh", .set .nanCondition "", .set .returnType "", .set .secondType "", .set .seeAlso ""], .template .mathFunction⟩),
  ("to_extended_float", ⟨[.default .suffix "_linear64", .set .floatName "extended_float", .set .floatType "long double"], .template .toFloat⟩),
  ("to_float32", ⟨[.default .suffix "_linear64", .set .floatName "float32", .set .floatType "float"], .template .toFloat⟩),
  ("to_float64", ⟨[.default .suffix "_linear64", .set .floatName "float64", .set .floatType "double"], .template .toFloat⟩)]

/-- man/takum*.sh: the file system. -/
def script (f : Fn) : Option Script :=
  let l := match f.k, f.w with
    | .log, .w8 => log8 | .log, .w16 => log16 | .log, .w32 => log32 | .log, .w64 => log64
    | .lin, .w8 => lin8 | .lin, .w16 => lin16 | .lin, .w32 => lin32 | .lin, .w64 => lin64
  l.lookup f.base

/-- The environment: the value of each variable, empty when it is not set. -/
abbrev Env := Var → String

/-- `export X=...`: see `Export` (man/takum64_addition.sh:1-8). -/
def Export.run (e : Env) : Export → Env
  | .set x s => fun y => if y = x then s else e y
  | .default x s => fun y => if y = x then (if e x = "" then s else e x) else e y

/-- The parts of a page that are modelled: the synopsis (`.Ft`, `.Fn`), the condition after "If" and the constant that is returned then, the type
after "as a", the reference under SEE ALSO other than libtakum. -/
structure Page where
  ret : String
  name : String
  args : List String
  nan : Option (String × String)
  resultType : Option String
  seeAlso : Option String
  deriving DecidableEq, Repr

/-- `tr [:lower:] [:upper:]` of a type suffix (man/template/math_function.sh:20). -/
def upper (s : String) : String := if s.startsWith "_linear" then "_LINEAR" ++ s.drop 7 else s

/-- man/template/math_function.sh:10-22, conversion.sh:10-25, conversion_from_float.sh:10-24, conversion_to_float.sh:10-26. The names of the
arguments are left out. -/
def Template.page (e : Env) : Template → Page
  | .mathFunction =>
    { ret := if e .returnType = "" then "takum" ++ e .suffix else e .returnType
      name := "takum" ++ e .suffix ++ "_" ++ e .function
      args := ("takum" ++ e .suffix) :: if e .secondType = "" then [] else [e .secondType]
      nan := if e .nanCondition = "" then none else some (e .nanCondition, "TAKUM" ++ upper (e .suffix) ++ "_NAR")
      resultType := some ("takum" ++ e .suffix)
      seeAlso := if e .seeAlso = "" then none else some ("takum" ++ e .suffix ++ "_" ++ e .seeAlso) }
  | .conversion =>
    { ret := "takum" ++ e .suffix
      name := "takum" ++ e .suffix ++ "_from_takum" ++ e .suffixInput
      args := ["takum" ++ e .suffixInput]
      nan := some ("t is TAKUM" ++ upper (e .suffixInput) ++ "_NAR", "TAKUM" ++ upper (e .suffix) ++ "_NAR")
      resultType := some ("takum" ++ e .suffix)
      seeAlso := none }
  | .fromFloat =>
    { ret := "takum" ++ e .suffix
      name := "takum" ++ e .suffix ++ "_from_" ++ e .floatName
      args := [e .floatType]
      nan := some ("f is NAN", "TAKUM" ++ upper (e .suffix) ++ "_NAR")
      resultType := some ("takum" ++ e .suffix)
      seeAlso := none }
  | .toFloat =>
    { ret := e .floatType
      name := "takum" ++ e .suffix ++ "_to_" ++ e .floatName
      args := ["takum" ++ e .suffix]
      nan := some ("t is TAKUM" ++ upper (e .suffix) ++ "_NAR", "NAN")
      resultType := some (e .floatType)
      seeAlso := none }

/-- `$SH man/NAME.sh`: exports, then the call. `none` when a script does not exist or the calls nest deeper than the fuel. -/
def run : ℕ → Env → Fn → Option Page
  | 0, _, _ => none
  | n + 1, e, f => do
    let s ← script f
    let e := s.exports.foldl Export.run e
    match s.next with
    | .template t => return t.page e
    | .script g => run n e g

/-- Makefile:1241-1242: the page of a function, `env -i`. -/
def page (f : Fn) : Option Page := run 4 (fun _ => "") f

end Takum.Man
