import Verif.Model.ManPages

/-!
# The prerequisites in the Makefile, and what the targets are made from

Makefile:735-1215 lists the prerequisites of the objects and of the manual pages; the recipes (Makefile:1219-1242) name the source of an object and
the script of a page without making it a prerequisite. The includes are those with quotes in the C files; the C library's headers are left out.
-/

namespace Takum.Make
open Takum.Iface Takum.Man

/-- Makefile:15, `EXAMPLE`. -/
def exampleNames : List String := [
  "example/calculator"]

/-- Makefile:18, `SRC`. -/
def srcNames : List String := [
  "src/10_raised", "src/2_raised", "src/absolute", "src/addition", "src/arccos", "src/arccot",
  "src/arccsc", "src/arcosh", "src/arcoth", "src/arcsch", "src/arcsec", "src/arcsin",
  "src/arctan", "src/arctan2", "src/arsech", "src/arsinh", "src/artanh", "src/codec",
  "src/conversion", "src/cos", "src/cosh", "src/cot", "src/coth", "src/csc",
  "src/csch", "src/integer_power", "src/division", "src/exp", "src/hypotenuse", "src/inversion",
  "src/lb", "src/lg", "src/ln", "src/multiplication", "src/power", "src/precision",
  "src/root", "src/sec", "src/sech", "src/sign", "src/sin", "src/sinh",
  "src/square_root", "src/subtraction", "src/tan", "src/tanh", "src/util"]

/-- Makefile:67, `TEST`. -/
def testNames : List String := [
  "test/10_raised", "test/2_raised", "test/absolute", "test/addition", "test/arccos", "test/arccot",
  "test/arccsc", "test/arcosh", "test/arcoth", "test/arcsch", "test/arcsec", "test/arcsin",
  "test/arctan", "test/arctan2", "test/arsech", "test/arsinh", "test/artanh", "test/codec",
  "test/constants", "test/conversion", "test/cos", "test/cosh", "test/cot", "test/coth",
  "test/csc", "test/csch", "test/division", "test/exp", "test/hypotenuse", "test/integer_power",
  "test/inversion", "test/lb", "test/lg", "test/ln", "test/multiplication", "test/power",
  "test/precision", "test/root", "test/sec", "test/sech", "test/sign", "test/sin",
  "test/sinh", "test/square_root", "test/subtraction", "test/tan", "test/tanh"]

/-- Makefile:121, `MAN3`, without `man/`. -/
def man3 : List Fn := [
  ⟨.log, .w8, "10_raised"⟩, ⟨.log, .w16, "10_raised"⟩, ⟨.log, .w32, "10_raised"⟩, ⟨.log, .w64, "10_raised"⟩,
  ⟨.lin, .w8, "10_raised"⟩, ⟨.lin, .w16, "10_raised"⟩, ⟨.lin, .w32, "10_raised"⟩, ⟨.lin, .w64, "10_raised"⟩,
  ⟨.log, .w8, "10_raised_minus_1"⟩, ⟨.log, .w16, "10_raised_minus_1"⟩, ⟨.log, .w32, "10_raised_minus_1"⟩, ⟨.log, .w64, "10_raised_minus_1"⟩,
  ⟨.lin, .w8, "10_raised_minus_1"⟩, ⟨.lin, .w16, "10_raised_minus_1"⟩, ⟨.lin, .w32, "10_raised_minus_1"⟩, ⟨.lin, .w64, "10_raised_minus_1"⟩,
  ⟨.log, .w8, "2_raised"⟩, ⟨.log, .w16, "2_raised"⟩, ⟨.log, .w32, "2_raised"⟩, ⟨.log, .w64, "2_raised"⟩,
  ⟨.lin, .w8, "2_raised"⟩, ⟨.lin, .w16, "2_raised"⟩, ⟨.lin, .w32, "2_raised"⟩, ⟨.lin, .w64, "2_raised"⟩,
  ⟨.log, .w8, "2_raised_minus_1"⟩, ⟨.log, .w16, "2_raised_minus_1"⟩, ⟨.log, .w32, "2_raised_minus_1"⟩, ⟨.log, .w64, "2_raised_minus_1"⟩,
  ⟨.lin, .w8, "2_raised_minus_1"⟩, ⟨.lin, .w16, "2_raised_minus_1"⟩, ⟨.lin, .w32, "2_raised_minus_1"⟩, ⟨.lin, .w64, "2_raised_minus_1"⟩,
  ⟨.log, .w8, "absolute"⟩, ⟨.log, .w16, "absolute"⟩, ⟨.log, .w32, "absolute"⟩, ⟨.log, .w64, "absolute"⟩,
  ⟨.lin, .w8, "absolute"⟩, ⟨.lin, .w16, "absolute"⟩, ⟨.lin, .w32, "absolute"⟩, ⟨.lin, .w64, "absolute"⟩,
  ⟨.log, .w8, "addition"⟩, ⟨.log, .w16, "addition"⟩, ⟨.log, .w32, "addition"⟩, ⟨.log, .w64, "addition"⟩,
  ⟨.lin, .w8, "addition"⟩, ⟨.lin, .w16, "addition"⟩, ⟨.lin, .w32, "addition"⟩, ⟨.lin, .w64, "addition"⟩,
  ⟨.log, .w8, "arccos"⟩, ⟨.log, .w16, "arccos"⟩, ⟨.log, .w32, "arccos"⟩, ⟨.log, .w64, "arccos"⟩,
  ⟨.lin, .w8, "arccos"⟩, ⟨.lin, .w16, "arccos"⟩, ⟨.lin, .w32, "arccos"⟩, ⟨.lin, .w64, "arccos"⟩,
  ⟨.log, .w8, "arccos_over_pi"⟩, ⟨.log, .w16, "arccos_over_pi"⟩, ⟨.log, .w32, "arccos_over_pi"⟩, ⟨.log, .w64, "arccos_over_pi"⟩,
  ⟨.lin, .w8, "arccos_over_pi"⟩, ⟨.lin, .w16, "arccos_over_pi"⟩, ⟨.lin, .w32, "arccos_over_pi"⟩, ⟨.lin, .w64, "arccos_over_pi"⟩,
  ⟨.log, .w8, "arccot"⟩, ⟨.log, .w16, "arccot"⟩, ⟨.log, .w32, "arccot"⟩, ⟨.log, .w64, "arccot"⟩,
  ⟨.lin, .w8, "arccot"⟩, ⟨.lin, .w16, "arccot"⟩, ⟨.lin, .w32, "arccot"⟩, ⟨.lin, .w64, "arccot"⟩,
  ⟨.log, .w8, "arccot_over_pi"⟩, ⟨.log, .w16, "arccot_over_pi"⟩, ⟨.log, .w32, "arccot_over_pi"⟩, ⟨.log, .w64, "arccot_over_pi"⟩,
  ⟨.lin, .w8, "arccot_over_pi"⟩, ⟨.lin, .w16, "arccot_over_pi"⟩, ⟨.lin, .w32, "arccot_over_pi"⟩, ⟨.lin, .w64, "arccot_over_pi"⟩,
  ⟨.log, .w8, "arccsc"⟩, ⟨.log, .w16, "arccsc"⟩, ⟨.log, .w32, "arccsc"⟩, ⟨.log, .w64, "arccsc"⟩,
  ⟨.lin, .w8, "arccsc"⟩, ⟨.lin, .w16, "arccsc"⟩, ⟨.lin, .w32, "arccsc"⟩, ⟨.lin, .w64, "arccsc"⟩,
  ⟨.log, .w8, "arccsc_over_pi"⟩, ⟨.log, .w16, "arccsc_over_pi"⟩, ⟨.log, .w32, "arccsc_over_pi"⟩, ⟨.log, .w64, "arccsc_over_pi"⟩,
  ⟨.lin, .w8, "arccsc_over_pi"⟩, ⟨.lin, .w16, "arccsc_over_pi"⟩, ⟨.lin, .w32, "arccsc_over_pi"⟩, ⟨.lin, .w64, "arccsc_over_pi"⟩,
  ⟨.log, .w8, "arcosh"⟩, ⟨.log, .w16, "arcosh"⟩, ⟨.log, .w32, "arcosh"⟩, ⟨.log, .w64, "arcosh"⟩,
  ⟨.lin, .w8, "arcosh"⟩, ⟨.lin, .w16, "arcosh"⟩, ⟨.lin, .w32, "arcosh"⟩, ⟨.lin, .w64, "arcosh"⟩,
  ⟨.log, .w8, "arcoth"⟩, ⟨.log, .w16, "arcoth"⟩, ⟨.log, .w32, "arcoth"⟩, ⟨.log, .w64, "arcoth"⟩,
  ⟨.lin, .w8, "arcoth"⟩, ⟨.lin, .w16, "arcoth"⟩, ⟨.lin, .w32, "arcoth"⟩, ⟨.lin, .w64, "arcoth"⟩,
  ⟨.log, .w8, "arcsch"⟩, ⟨.log, .w16, "arcsch"⟩, ⟨.log, .w32, "arcsch"⟩, ⟨.log, .w64, "arcsch"⟩,
  ⟨.lin, .w8, "arcsch"⟩, ⟨.lin, .w16, "arcsch"⟩, ⟨.lin, .w32, "arcsch"⟩, ⟨.lin, .w64, "arcsch"⟩,
  ⟨.log, .w8, "arcsec"⟩, ⟨.log, .w16, "arcsec"⟩, ⟨.log, .w32, "arcsec"⟩, ⟨.log, .w64, "arcsec"⟩,
  ⟨.lin, .w8, "arcsec"⟩, ⟨.lin, .w16, "arcsec"⟩, ⟨.lin, .w32, "arcsec"⟩, ⟨.lin, .w64, "arcsec"⟩,
  ⟨.log, .w8, "arcsec_over_pi"⟩, ⟨.log, .w16, "arcsec_over_pi"⟩, ⟨.log, .w32, "arcsec_over_pi"⟩, ⟨.log, .w64, "arcsec_over_pi"⟩,
  ⟨.lin, .w8, "arcsec_over_pi"⟩, ⟨.lin, .w16, "arcsec_over_pi"⟩, ⟨.lin, .w32, "arcsec_over_pi"⟩, ⟨.lin, .w64, "arcsec_over_pi"⟩,
  ⟨.log, .w8, "arcsin"⟩, ⟨.log, .w16, "arcsin"⟩, ⟨.log, .w32, "arcsin"⟩, ⟨.log, .w64, "arcsin"⟩,
  ⟨.lin, .w8, "arcsin"⟩, ⟨.lin, .w16, "arcsin"⟩, ⟨.lin, .w32, "arcsin"⟩, ⟨.lin, .w64, "arcsin"⟩,
  ⟨.log, .w8, "arcsin_over_pi"⟩, ⟨.log, .w16, "arcsin_over_pi"⟩, ⟨.log, .w32, "arcsin_over_pi"⟩, ⟨.log, .w64, "arcsin_over_pi"⟩,
  ⟨.lin, .w8, "arcsin_over_pi"⟩, ⟨.lin, .w16, "arcsin_over_pi"⟩, ⟨.lin, .w32, "arcsin_over_pi"⟩, ⟨.lin, .w64, "arcsin_over_pi"⟩,
  ⟨.log, .w8, "arctan2"⟩, ⟨.log, .w16, "arctan2"⟩, ⟨.log, .w32, "arctan2"⟩, ⟨.log, .w64, "arctan2"⟩,
  ⟨.lin, .w8, "arctan2"⟩, ⟨.lin, .w16, "arctan2"⟩, ⟨.lin, .w32, "arctan2"⟩, ⟨.lin, .w64, "arctan2"⟩,
  ⟨.log, .w8, "arctan2_over_pi"⟩, ⟨.log, .w16, "arctan2_over_pi"⟩, ⟨.log, .w32, "arctan2_over_pi"⟩, ⟨.log, .w64, "arctan2_over_pi"⟩,
  ⟨.lin, .w8, "arctan2_over_pi"⟩, ⟨.lin, .w16, "arctan2_over_pi"⟩, ⟨.lin, .w32, "arctan2_over_pi"⟩, ⟨.lin, .w64, "arctan2_over_pi"⟩,
  ⟨.log, .w8, "arctan"⟩, ⟨.log, .w16, "arctan"⟩, ⟨.log, .w32, "arctan"⟩, ⟨.log, .w64, "arctan"⟩,
  ⟨.lin, .w8, "arctan"⟩, ⟨.lin, .w16, "arctan"⟩, ⟨.lin, .w32, "arctan"⟩, ⟨.lin, .w64, "arctan"⟩,
  ⟨.log, .w8, "arctan_over_pi"⟩, ⟨.log, .w16, "arctan_over_pi"⟩, ⟨.log, .w32, "arctan_over_pi"⟩, ⟨.log, .w64, "arctan_over_pi"⟩,
  ⟨.lin, .w8, "arctan_over_pi"⟩, ⟨.lin, .w16, "arctan_over_pi"⟩, ⟨.lin, .w32, "arctan_over_pi"⟩, ⟨.lin, .w64, "arctan_over_pi"⟩,
  ⟨.log, .w8, "arsech"⟩, ⟨.log, .w16, "arsech"⟩, ⟨.log, .w32, "arsech"⟩, ⟨.log, .w64, "arsech"⟩,
  ⟨.lin, .w8, "arsech"⟩, ⟨.lin, .w16, "arsech"⟩, ⟨.lin, .w32, "arsech"⟩, ⟨.lin, .w64, "arsech"⟩,
  ⟨.log, .w8, "arsinh"⟩, ⟨.log, .w16, "arsinh"⟩, ⟨.log, .w32, "arsinh"⟩, ⟨.log, .w64, "arsinh"⟩,
  ⟨.lin, .w8, "arsinh"⟩, ⟨.lin, .w16, "arsinh"⟩, ⟨.lin, .w32, "arsinh"⟩, ⟨.lin, .w64, "arsinh"⟩,
  ⟨.log, .w8, "artanh"⟩, ⟨.log, .w16, "artanh"⟩, ⟨.log, .w32, "artanh"⟩, ⟨.log, .w64, "artanh"⟩,
  ⟨.lin, .w8, "artanh"⟩, ⟨.lin, .w16, "artanh"⟩, ⟨.lin, .w32, "artanh"⟩, ⟨.lin, .w64, "artanh"⟩,
  ⟨.log, .w8, "cos"⟩, ⟨.log, .w16, "cos"⟩, ⟨.log, .w32, "cos"⟩, ⟨.log, .w64, "cos"⟩,
  ⟨.lin, .w8, "cos"⟩, ⟨.lin, .w16, "cos"⟩, ⟨.lin, .w32, "cos"⟩, ⟨.lin, .w64, "cos"⟩,
  ⟨.log, .w8, "cos_pi_times"⟩, ⟨.log, .w16, "cos_pi_times"⟩, ⟨.log, .w32, "cos_pi_times"⟩, ⟨.log, .w64, "cos_pi_times"⟩,
  ⟨.lin, .w8, "cos_pi_times"⟩, ⟨.lin, .w16, "cos_pi_times"⟩, ⟨.lin, .w32, "cos_pi_times"⟩, ⟨.lin, .w64, "cos_pi_times"⟩,
  ⟨.log, .w8, "cosh"⟩, ⟨.log, .w16, "cosh"⟩, ⟨.log, .w32, "cosh"⟩, ⟨.log, .w64, "cosh"⟩,
  ⟨.lin, .w8, "cosh"⟩, ⟨.lin, .w16, "cosh"⟩, ⟨.lin, .w32, "cosh"⟩, ⟨.lin, .w64, "cosh"⟩,
  ⟨.log, .w8, "cot"⟩, ⟨.log, .w16, "cot"⟩, ⟨.log, .w32, "cot"⟩, ⟨.log, .w64, "cot"⟩,
  ⟨.lin, .w8, "cot"⟩, ⟨.lin, .w16, "cot"⟩, ⟨.lin, .w32, "cot"⟩, ⟨.lin, .w64, "cot"⟩,
  ⟨.log, .w8, "cot_pi_times"⟩, ⟨.log, .w16, "cot_pi_times"⟩, ⟨.log, .w32, "cot_pi_times"⟩, ⟨.log, .w64, "cot_pi_times"⟩,
  ⟨.lin, .w8, "cot_pi_times"⟩, ⟨.lin, .w16, "cot_pi_times"⟩, ⟨.lin, .w32, "cot_pi_times"⟩, ⟨.lin, .w64, "cot_pi_times"⟩,
  ⟨.log, .w8, "coth"⟩, ⟨.log, .w16, "coth"⟩, ⟨.log, .w32, "coth"⟩, ⟨.log, .w64, "coth"⟩,
  ⟨.lin, .w8, "coth"⟩, ⟨.lin, .w16, "coth"⟩, ⟨.lin, .w32, "coth"⟩, ⟨.lin, .w64, "coth"⟩,
  ⟨.log, .w8, "csc"⟩, ⟨.log, .w16, "csc"⟩, ⟨.log, .w32, "csc"⟩, ⟨.log, .w64, "csc"⟩,
  ⟨.lin, .w8, "csc"⟩, ⟨.lin, .w16, "csc"⟩, ⟨.lin, .w32, "csc"⟩, ⟨.lin, .w64, "csc"⟩,
  ⟨.log, .w8, "csc_pi_times"⟩, ⟨.log, .w16, "csc_pi_times"⟩, ⟨.log, .w32, "csc_pi_times"⟩, ⟨.log, .w64, "csc_pi_times"⟩,
  ⟨.lin, .w8, "csc_pi_times"⟩, ⟨.lin, .w16, "csc_pi_times"⟩, ⟨.lin, .w32, "csc_pi_times"⟩, ⟨.lin, .w64, "csc_pi_times"⟩,
  ⟨.log, .w8, "csch"⟩, ⟨.log, .w16, "csch"⟩, ⟨.log, .w32, "csch"⟩, ⟨.log, .w64, "csch"⟩,
  ⟨.lin, .w8, "csch"⟩, ⟨.lin, .w16, "csch"⟩, ⟨.lin, .w32, "csch"⟩, ⟨.lin, .w64, "csch"⟩,
  ⟨.log, .w8, "division"⟩, ⟨.log, .w16, "division"⟩, ⟨.log, .w32, "division"⟩, ⟨.log, .w64, "division"⟩,
  ⟨.lin, .w8, "division"⟩, ⟨.lin, .w16, "division"⟩, ⟨.lin, .w32, "division"⟩, ⟨.lin, .w64, "division"⟩,
  ⟨.log, .w8, "exp"⟩, ⟨.log, .w16, "exp"⟩, ⟨.log, .w32, "exp"⟩, ⟨.log, .w64, "exp"⟩,
  ⟨.lin, .w8, "exp"⟩, ⟨.lin, .w16, "exp"⟩, ⟨.lin, .w32, "exp"⟩, ⟨.lin, .w64, "exp"⟩,
  ⟨.log, .w8, "exp_minus_1"⟩, ⟨.log, .w16, "exp_minus_1"⟩, ⟨.log, .w32, "exp_minus_1"⟩, ⟨.log, .w64, "exp_minus_1"⟩,
  ⟨.lin, .w8, "exp_minus_1"⟩, ⟨.lin, .w16, "exp_minus_1"⟩, ⟨.lin, .w32, "exp_minus_1"⟩, ⟨.lin, .w64, "exp_minus_1"⟩,
  ⟨.log, .w8, "from_extended_float"⟩, ⟨.log, .w16, "from_extended_float"⟩, ⟨.log, .w32, "from_extended_float"⟩, ⟨.log, .w64, "from_extended_float"⟩,
  ⟨.lin, .w8, "from_extended_float"⟩, ⟨.lin, .w16, "from_extended_float"⟩, ⟨.lin, .w32, "from_extended_float"⟩, ⟨.lin, .w64, "from_extended_float"⟩,
  ⟨.log, .w8, "from_float32"⟩, ⟨.log, .w16, "from_float32"⟩, ⟨.log, .w32, "from_float32"⟩, ⟨.log, .w64, "from_float32"⟩,
  ⟨.lin, .w8, "from_float32"⟩, ⟨.lin, .w16, "from_float32"⟩, ⟨.lin, .w32, "from_float32"⟩, ⟨.lin, .w64, "from_float32"⟩,
  ⟨.log, .w8, "from_float64"⟩, ⟨.log, .w16, "from_float64"⟩, ⟨.log, .w32, "from_float64"⟩, ⟨.log, .w64, "from_float64"⟩,
  ⟨.lin, .w8, "from_float64"⟩, ⟨.lin, .w16, "from_float64"⟩, ⟨.lin, .w32, "from_float64"⟩, ⟨.lin, .w64, "from_float64"⟩,
  ⟨.log, .w16, "from_takum8"⟩, ⟨.log, .w32, "from_takum8"⟩, ⟨.log, .w64, "from_takum8"⟩, ⟨.lin, .w8, "from_takum8"⟩,
  ⟨.lin, .w16, "from_takum8"⟩, ⟨.lin, .w32, "from_takum8"⟩, ⟨.lin, .w64, "from_takum8"⟩, ⟨.log, .w8, "from_takum16"⟩,
  ⟨.log, .w32, "from_takum16"⟩, ⟨.log, .w64, "from_takum16"⟩, ⟨.lin, .w8, "from_takum16"⟩, ⟨.lin, .w16, "from_takum16"⟩,
  ⟨.lin, .w32, "from_takum16"⟩, ⟨.lin, .w64, "from_takum16"⟩, ⟨.log, .w8, "from_takum32"⟩, ⟨.log, .w16, "from_takum32"⟩,
  ⟨.log, .w64, "from_takum32"⟩, ⟨.lin, .w8, "from_takum32"⟩, ⟨.lin, .w16, "from_takum32"⟩, ⟨.lin, .w32, "from_takum32"⟩,
  ⟨.lin, .w64, "from_takum32"⟩, ⟨.log, .w8, "from_takum64"⟩, ⟨.log, .w16, "from_takum64"⟩, ⟨.log, .w32, "from_takum64"⟩,
  ⟨.lin, .w8, "from_takum64"⟩, ⟨.lin, .w16, "from_takum64"⟩, ⟨.lin, .w32, "from_takum64"⟩, ⟨.lin, .w64, "from_takum64"⟩,
  ⟨.log, .w8, "from_takum_linear8"⟩, ⟨.log, .w16, "from_takum_linear8"⟩, ⟨.log, .w32, "from_takum_linear8"⟩, ⟨.log, .w64, "from_takum_linear8"⟩,
  ⟨.lin, .w16, "from_takum_linear8"⟩, ⟨.lin, .w32, "from_takum_linear8"⟩, ⟨.lin, .w64, "from_takum_linear8"⟩, ⟨.log, .w8, "from_takum_linear16"⟩,
  ⟨.log, .w16, "from_takum_linear16"⟩, ⟨.log, .w32, "from_takum_linear16"⟩, ⟨.log, .w64, "from_takum_linear16"⟩, ⟨.lin, .w8, "from_takum_linear16"⟩,
  ⟨.lin, .w32, "from_takum_linear16"⟩, ⟨.lin, .w64, "from_takum_linear16"⟩, ⟨.log, .w8, "from_takum_linear32"⟩, ⟨.log, .w16, "from_takum_linear32"⟩,
  ⟨.log, .w32, "from_takum_linear32"⟩, ⟨.log, .w64, "from_takum_linear32"⟩, ⟨.lin, .w8, "from_takum_linear32"⟩, ⟨.lin, .w16, "from_takum_linear32"⟩,
  ⟨.lin, .w64, "from_takum_linear32"⟩, ⟨.log, .w8, "from_takum_linear64"⟩, ⟨.log, .w16, "from_takum_linear64"⟩, ⟨.log, .w32, "from_takum_linear64"⟩,
  ⟨.log, .w64, "from_takum_linear64"⟩, ⟨.lin, .w8, "from_takum_linear64"⟩, ⟨.lin, .w16, "from_takum_linear64"⟩, ⟨.lin, .w32, "from_takum_linear64"⟩,
  ⟨.log, .w8, "hypotenuse"⟩, ⟨.log, .w16, "hypotenuse"⟩, ⟨.log, .w32, "hypotenuse"⟩, ⟨.log, .w64, "hypotenuse"⟩,
  ⟨.lin, .w8, "hypotenuse"⟩, ⟨.lin, .w16, "hypotenuse"⟩, ⟨.lin, .w32, "hypotenuse"⟩, ⟨.lin, .w64, "hypotenuse"⟩,
  ⟨.log, .w8, "integer_power"⟩, ⟨.log, .w16, "integer_power"⟩, ⟨.log, .w32, "integer_power"⟩, ⟨.log, .w64, "integer_power"⟩,
  ⟨.lin, .w8, "integer_power"⟩, ⟨.lin, .w16, "integer_power"⟩, ⟨.lin, .w32, "integer_power"⟩, ⟨.lin, .w64, "integer_power"⟩,
  ⟨.log, .w8, "inversion"⟩, ⟨.log, .w16, "inversion"⟩, ⟨.log, .w32, "inversion"⟩, ⟨.log, .w64, "inversion"⟩,
  ⟨.lin, .w8, "inversion"⟩, ⟨.lin, .w16, "inversion"⟩, ⟨.lin, .w32, "inversion"⟩, ⟨.lin, .w64, "inversion"⟩,
  ⟨.log, .w8, "lb"⟩, ⟨.log, .w16, "lb"⟩, ⟨.log, .w32, "lb"⟩, ⟨.log, .w64, "lb"⟩,
  ⟨.lin, .w8, "lb"⟩, ⟨.lin, .w16, "lb"⟩, ⟨.lin, .w32, "lb"⟩, ⟨.lin, .w64, "lb"⟩,
  ⟨.log, .w8, "lb_1_plus"⟩, ⟨.log, .w16, "lb_1_plus"⟩, ⟨.log, .w32, "lb_1_plus"⟩, ⟨.log, .w64, "lb_1_plus"⟩,
  ⟨.lin, .w8, "lb_1_plus"⟩, ⟨.lin, .w16, "lb_1_plus"⟩, ⟨.lin, .w32, "lb_1_plus"⟩, ⟨.lin, .w64, "lb_1_plus"⟩,
  ⟨.log, .w8, "lg"⟩, ⟨.log, .w16, "lg"⟩, ⟨.log, .w32, "lg"⟩, ⟨.log, .w64, "lg"⟩,
  ⟨.lin, .w8, "lg"⟩, ⟨.lin, .w16, "lg"⟩, ⟨.lin, .w32, "lg"⟩, ⟨.lin, .w64, "lg"⟩,
  ⟨.log, .w8, "lg_1_plus"⟩, ⟨.log, .w16, "lg_1_plus"⟩, ⟨.log, .w32, "lg_1_plus"⟩, ⟨.log, .w64, "lg_1_plus"⟩,
  ⟨.lin, .w8, "lg_1_plus"⟩, ⟨.lin, .w16, "lg_1_plus"⟩, ⟨.lin, .w32, "lg_1_plus"⟩, ⟨.lin, .w64, "lg_1_plus"⟩,
  ⟨.log, .w8, "ln"⟩, ⟨.log, .w16, "ln"⟩, ⟨.log, .w32, "ln"⟩, ⟨.log, .w64, "ln"⟩,
  ⟨.lin, .w8, "ln"⟩, ⟨.lin, .w16, "ln"⟩, ⟨.lin, .w32, "ln"⟩, ⟨.lin, .w64, "ln"⟩,
  ⟨.log, .w8, "ln_1_plus"⟩, ⟨.log, .w16, "ln_1_plus"⟩, ⟨.log, .w32, "ln_1_plus"⟩, ⟨.log, .w64, "ln_1_plus"⟩,
  ⟨.lin, .w8, "ln_1_plus"⟩, ⟨.lin, .w16, "ln_1_plus"⟩, ⟨.lin, .w32, "ln_1_plus"⟩, ⟨.lin, .w64, "ln_1_plus"⟩,
  ⟨.log, .w8, "multiplication"⟩, ⟨.log, .w16, "multiplication"⟩, ⟨.log, .w32, "multiplication"⟩, ⟨.log, .w64, "multiplication"⟩,
  ⟨.lin, .w8, "multiplication"⟩, ⟨.lin, .w16, "multiplication"⟩, ⟨.lin, .w32, "multiplication"⟩, ⟨.lin, .w64, "multiplication"⟩,
  ⟨.log, .w8, "power"⟩, ⟨.log, .w16, "power"⟩, ⟨.log, .w32, "power"⟩, ⟨.log, .w64, "power"⟩,
  ⟨.lin, .w8, "power"⟩, ⟨.lin, .w16, "power"⟩, ⟨.lin, .w32, "power"⟩, ⟨.lin, .w64, "power"⟩,
  ⟨.log, .w8, "precision"⟩, ⟨.log, .w16, "precision"⟩, ⟨.log, .w32, "precision"⟩, ⟨.log, .w64, "precision"⟩,
  ⟨.lin, .w8, "precision"⟩, ⟨.lin, .w16, "precision"⟩, ⟨.lin, .w32, "precision"⟩, ⟨.lin, .w64, "precision"⟩,
  ⟨.log, .w8, "root"⟩, ⟨.log, .w16, "root"⟩, ⟨.log, .w32, "root"⟩, ⟨.log, .w64, "root"⟩,
  ⟨.lin, .w8, "root"⟩, ⟨.lin, .w16, "root"⟩, ⟨.lin, .w32, "root"⟩, ⟨.lin, .w64, "root"⟩,
  ⟨.log, .w8, "sec"⟩, ⟨.log, .w16, "sec"⟩, ⟨.log, .w32, "sec"⟩, ⟨.log, .w64, "sec"⟩,
  ⟨.lin, .w8, "sec"⟩, ⟨.lin, .w16, "sec"⟩, ⟨.lin, .w32, "sec"⟩, ⟨.lin, .w64, "sec"⟩,
  ⟨.log, .w8, "sec_pi_times"⟩, ⟨.log, .w16, "sec_pi_times"⟩, ⟨.log, .w32, "sec_pi_times"⟩, ⟨.log, .w64, "sec_pi_times"⟩,
  ⟨.lin, .w8, "sec_pi_times"⟩, ⟨.lin, .w16, "sec_pi_times"⟩, ⟨.lin, .w32, "sec_pi_times"⟩, ⟨.lin, .w64, "sec_pi_times"⟩,
  ⟨.log, .w8, "sech"⟩, ⟨.log, .w16, "sech"⟩, ⟨.log, .w32, "sech"⟩, ⟨.log, .w64, "sech"⟩,
  ⟨.lin, .w8, "sech"⟩, ⟨.lin, .w16, "sech"⟩, ⟨.lin, .w32, "sech"⟩, ⟨.lin, .w64, "sech"⟩,
  ⟨.log, .w8, "sign"⟩, ⟨.log, .w16, "sign"⟩, ⟨.log, .w32, "sign"⟩, ⟨.log, .w64, "sign"⟩,
  ⟨.lin, .w8, "sign"⟩, ⟨.lin, .w16, "sign"⟩, ⟨.lin, .w32, "sign"⟩, ⟨.lin, .w64, "sign"⟩,
  ⟨.log, .w8, "sin"⟩, ⟨.log, .w16, "sin"⟩, ⟨.log, .w32, "sin"⟩, ⟨.log, .w64, "sin"⟩,
  ⟨.lin, .w8, "sin"⟩, ⟨.lin, .w16, "sin"⟩, ⟨.lin, .w32, "sin"⟩, ⟨.lin, .w64, "sin"⟩,
  ⟨.log, .w8, "sin_pi_times"⟩, ⟨.log, .w16, "sin_pi_times"⟩, ⟨.log, .w32, "sin_pi_times"⟩, ⟨.log, .w64, "sin_pi_times"⟩,
  ⟨.lin, .w8, "sin_pi_times"⟩, ⟨.lin, .w16, "sin_pi_times"⟩, ⟨.lin, .w32, "sin_pi_times"⟩, ⟨.lin, .w64, "sin_pi_times"⟩,
  ⟨.log, .w8, "sinh"⟩, ⟨.log, .w16, "sinh"⟩, ⟨.log, .w32, "sinh"⟩, ⟨.log, .w64, "sinh"⟩,
  ⟨.lin, .w8, "sinh"⟩, ⟨.lin, .w16, "sinh"⟩, ⟨.lin, .w32, "sinh"⟩, ⟨.lin, .w64, "sinh"⟩,
  ⟨.log, .w8, "square_root"⟩, ⟨.log, .w16, "square_root"⟩, ⟨.log, .w32, "square_root"⟩, ⟨.log, .w64, "square_root"⟩,
  ⟨.lin, .w8, "square_root"⟩, ⟨.lin, .w16, "square_root"⟩, ⟨.lin, .w32, "square_root"⟩, ⟨.lin, .w64, "square_root"⟩,
  ⟨.log, .w8, "subtraction"⟩, ⟨.log, .w16, "subtraction"⟩, ⟨.log, .w32, "subtraction"⟩, ⟨.log, .w64, "subtraction"⟩,
  ⟨.lin, .w8, "subtraction"⟩, ⟨.lin, .w16, "subtraction"⟩, ⟨.lin, .w32, "subtraction"⟩, ⟨.lin, .w64, "subtraction"⟩,
  ⟨.log, .w8, "tan"⟩, ⟨.log, .w16, "tan"⟩, ⟨.log, .w32, "tan"⟩, ⟨.log, .w64, "tan"⟩,
  ⟨.lin, .w8, "tan"⟩, ⟨.lin, .w16, "tan"⟩, ⟨.lin, .w32, "tan"⟩, ⟨.lin, .w64, "tan"⟩,
  ⟨.log, .w8, "tan_pi_times"⟩, ⟨.log, .w16, "tan_pi_times"⟩, ⟨.log, .w32, "tan_pi_times"⟩, ⟨.log, .w64, "tan_pi_times"⟩,
  ⟨.lin, .w8, "tan_pi_times"⟩, ⟨.lin, .w16, "tan_pi_times"⟩, ⟨.lin, .w32, "tan_pi_times"⟩, ⟨.lin, .w64, "tan_pi_times"⟩,
  ⟨.log, .w8, "tanh"⟩, ⟨.log, .w16, "tanh"⟩, ⟨.log, .w32, "tanh"⟩, ⟨.log, .w64, "tanh"⟩,
  ⟨.lin, .w8, "tanh"⟩, ⟨.lin, .w16, "tanh"⟩, ⟨.lin, .w32, "tanh"⟩, ⟨.lin, .w64, "tanh"⟩,
  ⟨.log, .w8, "to_extended_float"⟩, ⟨.log, .w16, "to_extended_float"⟩, ⟨.log, .w32, "to_extended_float"⟩, ⟨.log, .w64, "to_extended_float"⟩,
  ⟨.lin, .w8, "to_extended_float"⟩, ⟨.lin, .w16, "to_extended_float"⟩, ⟨.lin, .w32, "to_extended_float"⟩, ⟨.lin, .w64, "to_extended_float"⟩,
  ⟨.log, .w8, "to_float32"⟩, ⟨.log, .w16, "to_float32"⟩, ⟨.log, .w32, "to_float32"⟩, ⟨.log, .w64, "to_float32"⟩,
  ⟨.lin, .w8, "to_float32"⟩, ⟨.lin, .w16, "to_float32"⟩, ⟨.lin, .w32, "to_float32"⟩, ⟨.lin, .w64, "to_float32"⟩,
  ⟨.log, .w8, "to_float64"⟩, ⟨.log, .w16, "to_float64"⟩, ⟨.log, .w32, "to_float64"⟩, ⟨.log, .w64, "to_float64"⟩,
  ⟨.lin, .w8, "to_float64"⟩, ⟨.lin, .w16, "to_float64"⟩, ⟨.lin, .w32, "to_float64"⟩, ⟨.lin, .w64, "to_float64"⟩]

/-- Makefile:735-827: the prerequisites of the objects; the name without `.o`. -/
def objectRules : List (String × List String) := [
  ("example/calculator", ["example/calculator.c", "Makefile", "config.mk", "takum.h", "example/util.h"]),
  ("example/util", ["example/util.c", "Makefile", "config.mk", "takum.h", "example/util.h"]),
  ("src/addition", ["src/addition.c", "Makefile", "config.mk", "takum.h", "src/util.h"]),
  ("src/arccos", ["src/arccos.c", "Makefile", "config.mk", "takum.h", "src/util.h"]),
  ("src/arccot", ["src/arccot.c", "Makefile", "config.mk", "takum.h", "src/util.h"]),
  ("src/arccsc", ["src/arccsc.c", "Makefile", "config.mk", "takum.h", "src/util.h"]),
  ("src/arcosh", ["src/arcosh.c", "Makefile", "config.mk", "takum.h", "src/util.h"]),
  ("src/arcoth", ["src/arcoth.c", "Makefile", "config.mk", "takum.h", "src/util.h"]),
  ("src/arcsch", ["src/arcsch.c", "Makefile", "config.mk", "takum.h", "src/util.h"]),
  ("src/arcsec", ["src/arcsec.c", "Makefile", "config.mk", "takum.h", "src/util.h"]),
  ("src/arcsin", ["src/arcsin.c", "Makefile", "config.mk", "takum.h", "src/util.h"]),
  ("src/arctan", ["src/arctan.c", "Makefile", "config.mk", "takum.h", "src/util.h"]),
  ("src/arctan2", ["src/arctan2.c", "Makefile", "config.mk", "takum.h", "src/util.h"]),
  ("src/arsech", ["src/arsech.c", "Makefile", "config.mk", "takum.h", "src/util.h"]),
  ("src/arsinh", ["src/arsinh.c", "Makefile", "config.mk", "takum.h", "src/util.h"]),
  ("src/artanh", ["src/artanh.c", "Makefile", "config.mk", "takum.h", "src/util.h"]),
  ("src/codec", ["src/codec.c", "Makefile", "config.mk", "takum.h", "src/util.h"]),
  ("src/conversion", ["src/conversion.c", "Makefile", "config.mk", "takum.h", "src/util.h"]),
  ("src/cos", ["src/cos.c", "Makefile", "config.mk", "takum.h", "src/util.h"]),
  ("src/cot", ["src/cot.c", "Makefile", "config.mk", "takum.h", "src/util.h"]),
  ("src/cosh", ["src/cosh.c", "Makefile", "config.mk", "takum.h", "src/util.h"]),
  ("src/coth", ["src/coth.c", "Makefile", "config.mk", "takum.h", "src/util.h"]),
  ("src/csc", ["src/csc.c", "Makefile", "config.mk", "takum.h", "src/util.h"]),
  ("src/csch", ["src/csch.c", "Makefile", "config.mk", "takum.h", "src/util.h"]),
  ("src/division", ["src/division.c", "Makefile", "config.mk", "takum.h", "src/util.h"]),
  ("src/exp", ["src/exp.c", "Makefile", "config.mk", "takum.h", "src/util.h"]),
  ("src/exp2", ["src/exp2.c", "Makefile", "config.mk", "takum.h", "src/util.h"]),
  ("src/exp10", ["src/exp10.c", "Makefile", "config.mk", "takum.h", "src/util.h"]),
  ("src/hypotenuse", ["src/hypotenuse.c", "Makefile", "config.mk", "takum.h", "src/util.h"]),
  ("src/inversion", ["src/inversion.c", "Makefile", "config.mk", "takum.h", "src/util.h"]),
  ("src/lb", ["src/lb.c", "Makefile", "config.mk", "takum.h", "src/util.h"]),
  ("src/lg", ["src/lg.c", "Makefile", "config.mk", "takum.h", "src/util.h"]),
  ("src/ln", ["src/ln.c", "Makefile", "config.mk", "takum.h", "src/util.h"]),
  ("src/multiplication", ["src/multiplication.c", "Makefile", "config.mk", "takum.h", "src/util.h"]),
  ("src/power", ["src/power.c", "Makefile", "config.mk", "takum.h", "src/util.h"]),
  ("src/precision", ["src/precision.c", "Makefile", "config.mk", "takum.h", "src/util.h"]),
  ("src/sec", ["src/sec.c", "Makefile", "config.mk", "takum.h", "src/util.h"]),
  ("src/sech", ["src/sech.c", "Makefile", "config.mk", "takum.h", "src/util.h"]),
  ("src/sin", ["src/sin.c", "Makefile", "config.mk", "takum.h", "src/util.h"]),
  ("src/sinh", ["src/sinh.c", "Makefile", "config.mk", "takum.h", "src/util.h"]),
  ("src/square_root", ["src/square_root.c", "Makefile", "config.mk", "takum.h", "src/util.h"]),
  ("src/subtraction", ["src/subtraction.c", "Makefile", "config.mk", "takum.h", "src/util.h"]),
  ("src/tan", ["src/tan.c", "Makefile", "config.mk", "takum.h", "src/util.h"]),
  ("src/tanh", ["src/tanh.c", "Makefile", "config.mk", "takum.h", "src/util.h"]),
  ("src/util", ["src/util.c", "Makefile", "config.mk", "takum.h", "src/util.h"]),
  ("test/10_raised", ["test/10_raised.c", "Makefile", "config.mk", "takum.h", "test/util.h"]),
  ("test/2_raised", ["test/2_raised.c", "Makefile", "config.mk", "takum.h", "test/util.h"]),
  ("test/absolute", ["test/absolute.c", "Makefile", "config.mk", "takum.h", "test/util.h"]),
  ("test/addition", ["test/addition.c", "Makefile", "config.mk", "takum.h", "test/util.h"]),
  ("test/arccos", ["test/arccos.c", "Makefile", "config.mk", "takum.h", "test/util.h"]),
  ("test/arccot", ["test/arccot.c", "Makefile", "config.mk", "takum.h", "test/util.h"]),
  ("test/arccsc", ["test/arccsc.c", "Makefile", "config.mk", "takum.h", "test/util.h"]),
  ("test/arcosh", ["test/arcosh.c", "Makefile", "config.mk", "takum.h", "test/util.h"]),
  ("test/arcoth", ["test/arcoth.c", "Makefile", "config.mk", "takum.h", "test/util.h"]),
  ("test/arcsch", ["test/arcsch.c", "Makefile", "config.mk", "takum.h", "test/util.h"]),
  ("test/arcsec", ["test/arcsec.c", "Makefile", "config.mk", "takum.h", "test/util.h"]),
  ("test/arcsin", ["test/arcsin.c", "Makefile", "config.mk", "takum.h", "test/util.h"]),
  ("test/arctan", ["test/arctan.c", "Makefile", "config.mk", "takum.h", "test/util.h"]),
  ("test/arctan2", ["test/arctan2.c", "Makefile", "config.mk", "takum.h", "test/util.h"]),
  ("test/arsech", ["test/arsech.c", "Makefile", "config.mk", "takum.h", "test/util.h"]),
  ("test/arsinh", ["test/arsinh.c", "Makefile", "config.mk", "takum.h", "test/util.h"]),
  ("test/artanh", ["test/artanh.c", "Makefile", "config.mk", "takum.h", "test/util.h"]),
  ("test/codec", ["test/codec.c", "Makefile", "config.mk", "takum.h", "test/util.h"]),
  ("test/constants", ["test/constants.c", "Makefile", "config.mk", "takum.h", "test/util.h"]),
  ("test/conversion", ["test/conversion.c", "Makefile", "config.mk", "takum.h", "test/util.h"]),
  ("test/cos", ["test/cos.c", "Makefile", "config.mk", "takum.h", "test/util.h"]),
  ("test/cosh", ["test/cosh.c", "Makefile", "config.mk", "takum.h", "test/util.h"]),
  ("test/cot", ["test/cot.c", "Makefile", "config.mk", "takum.h", "test/util.h"]),
  ("test/coth", ["test/coth.c", "Makefile", "config.mk", "takum.h", "test/util.h"]),
  ("test/csc", ["test/csc.c", "Makefile", "config.mk", "takum.h", "test/util.h"]),
  ("test/csch", ["test/csch.c", "Makefile", "config.mk", "takum.h", "test/util.h"]),
  ("test/division", ["test/division.c", "Makefile", "config.mk", "takum.h", "test/util.h"]),
  ("test/exp", ["test/exp.c", "Makefile", "config.mk", "takum.h", "test/util.h"]),
  ("test/hypotenuse", ["test/hypotenuse.c", "Makefile", "config.mk", "takum.h", "test/util.h"]),
  ("test/integer_power", ["test/integer_power.c", "Makefile", "config.mk", "takum.h", "test/util.h"]),
  ("test/inversion", ["test/inversion.c", "Makefile", "config.mk", "takum.h", "test/util.h"]),
  ("test/lb", ["test/lb.c", "Makefile", "config.mk", "takum.h", "test/util.h"]),
  ("test/lg", ["test/lg.c", "Makefile", "config.mk", "takum.h", "test/util.h"]),
  ("test/ln", ["test/ln.c", "Makefile", "config.mk", "takum.h", "test/util.h"]),
  ("test/multiplication", ["test/multiplication.c", "Makefile", "config.mk", "takum.h", "test/util.h"]),
  ("test/power", ["test/power.c", "Makefile", "config.mk", "takum.h", "test/util.h"]),
  ("test/precision", ["test/precision.c", "Makefile", "config.mk", "takum.h", "test/util.h"]),
  ("test/root", ["test/root.c", "Makefile", "config.mk", "takum.h", "test/util.h"]),
  ("test/sec", ["test/sec.c", "Makefile", "config.mk", "takum.h", "test/util.h"]),
  ("test/sech", ["test/sech.c", "Makefile", "config.mk", "takum.h", "test/util.h"]),
  ("test/sign", ["test/sign.c", "Makefile", "config.mk", "takum.h", "test/util.h"]),
  ("test/sin", ["test/sin.c", "Makefile", "config.mk", "takum.h", "test/util.h"]),
  ("test/sinh", ["test/sinh.c", "Makefile", "config.mk", "takum.h", "test/util.h"]),
  ("test/square_root", ["test/square_root.c", "Makefile", "config.mk", "takum.h", "test/util.h"]),
  ("test/subtraction", ["test/subtraction.c", "Makefile", "config.mk", "takum.h", "test/util.h"]),
  ("test/tan", ["test/tan.c", "Makefile", "config.mk", "takum.h", "test/util.h"]),
  ("test/tanh", ["test/tanh.c", "Makefile", "config.mk", "takum.h", "test/util.h"]),
  ("test/util", ["test/util.c", "Makefile", "config.mk", "takum.h", "test/util.h"])]

/-- Makefile:928-1215: the prerequisites of the pages other than Makefile and config.mk. -/
def pageRules : List (Fn × List Next) := [
  (⟨.log, .w8, "10_raised"⟩, [.script ⟨.log, .w8, "10_raised"⟩, .script ⟨.log, .w64, "10_raised"⟩, .template .mathFunction]),
  (⟨.log, .w16, "10_raised"⟩, [.script ⟨.log, .w16, "10_raised"⟩, .script ⟨.log, .w64, "10_raised"⟩, .template .mathFunction]),
  (⟨.log, .w32, "10_raised"⟩, [.script ⟨.log, .w32, "10_raised"⟩, .script ⟨.log, .w64, "10_raised"⟩, .template .mathFunction]),
  (⟨.log, .w64, "10_raised"⟩, [.script ⟨.log, .w64, "10_raised"⟩, .template .mathFunction]),
  (⟨.log, .w8, "10_raised_minus_1"⟩, [.script ⟨.log, .w8, "10_raised_minus_1"⟩, .script ⟨.log, .w64, "10_raised_minus_1"⟩, .template .mathFunction]),
  (⟨.log, .w16, "10_raised_minus_1"⟩, [.script ⟨.log, .w16, "10_raised_minus_1"⟩, .script ⟨.log, .w64, "10_raised_minus_1"⟩, .template .mathFunction]),
  (⟨.log, .w32, "10_raised_minus_1"⟩, [.script ⟨.log, .w32, "10_raised_minus_1"⟩, .script ⟨.log, .w64, "10_raised_minus_1"⟩, .template .mathFunction]),
  (⟨.log, .w64, "10_raised_minus_1"⟩, [.script ⟨.log, .w64, "10_raised_minus_1"⟩, .template .mathFunction]),
  (⟨.log, .w8, "2_raised"⟩, [.script ⟨.log, .w8, "2_raised"⟩, .script ⟨.log, .w64, "2_raised"⟩, .template .mathFunction]),
  (⟨.log, .w16, "2_raised"⟩, [.script ⟨.log, .w16, "2_raised"⟩, .script ⟨.log, .w64, "2_raised"⟩, .template .mathFunction]),
  (⟨.log, .w32, "2_raised"⟩, [.script ⟨.log, .w32, "2_raised"⟩, .script ⟨.log, .w64, "2_raised"⟩, .template .mathFunction]),
  (⟨.log, .w64, "2_raised"⟩, [.script ⟨.log, .w64, "2_raised"⟩, .template .mathFunction]),
  (⟨.log, .w8, "2_raised_minus_1"⟩, [.script ⟨.log, .w8, "2_raised_minus_1"⟩, .script ⟨.log, .w64, "2_raised_minus_1"⟩, .template .mathFunction]),
  (⟨.log, .w16, "2_raised_minus_1"⟩, [.script ⟨.log, .w16, "2_raised_minus_1"⟩, .script ⟨.log, .w64, "2_raised_minus_1"⟩, .template .mathFunction]),
  (⟨.log, .w32, "2_raised_minus_1"⟩, [.script ⟨.log, .w32, "2_raised_minus_1"⟩, .script ⟨.log, .w64, "2_raised_minus_1"⟩, .template .mathFunction]),
  (⟨.log, .w64, "2_raised_minus_1"⟩, [.script ⟨.log, .w64, "2_raised_minus_1"⟩, .template .mathFunction]),
  (⟨.log, .w8, "absolute"⟩, [.script ⟨.log, .w8, "absolute"⟩, .script ⟨.log, .w64, "absolute"⟩, .template .mathFunction]),
  (⟨.log, .w16, "absolute"⟩, [.script ⟨.log, .w16, "absolute"⟩, .script ⟨.log, .w64, "absolute"⟩, .template .mathFunction]),
  (⟨.log, .w32, "absolute"⟩, [.script ⟨.log, .w32, "absolute"⟩, .script ⟨.log, .w64, "absolute"⟩, .template .mathFunction]),
  (⟨.log, .w64, "absolute"⟩, [.script ⟨.log, .w64, "absolute"⟩, .template .mathFunction]),
  (⟨.log, .w8, "addition"⟩, [.script ⟨.log, .w8, "addition"⟩, .script ⟨.log, .w64, "addition"⟩, .template .mathFunction]),
  (⟨.log, .w16, "addition"⟩, [.script ⟨.log, .w16, "addition"⟩, .script ⟨.log, .w64, "addition"⟩, .template .mathFunction]),
  (⟨.log, .w32, "addition"⟩, [.script ⟨.log, .w32, "addition"⟩, .script ⟨.log, .w64, "addition"⟩, .template .mathFunction]),
  (⟨.log, .w64, "addition"⟩, [.script ⟨.log, .w64, "addition"⟩, .template .mathFunction]),
  (⟨.log, .w8, "arccos"⟩, [.script ⟨.log, .w8, "arccos"⟩, .script ⟨.log, .w64, "arccos"⟩, .template .mathFunction]),
  (⟨.log, .w16, "arccos"⟩, [.script ⟨.log, .w16, "arccos"⟩, .script ⟨.log, .w64, "arccos"⟩, .template .mathFunction]),
  (⟨.log, .w32, "arccos"⟩, [.script ⟨.log, .w32, "arccos"⟩, .script ⟨.log, .w64, "arccos"⟩, .template .mathFunction]),
  (⟨.log, .w64, "arccos"⟩, [.script ⟨.log, .w64, "arccos"⟩, .template .mathFunction]),
  (⟨.log, .w8, "arccos_over_pi"⟩, [.script ⟨.log, .w8, "arccos_over_pi"⟩, .script ⟨.log, .w64, "arccos_over_pi"⟩, .template .mathFunction]),
  (⟨.log, .w16, "arccos_over_pi"⟩, [.script ⟨.log, .w16, "arccos_over_pi"⟩, .script ⟨.log, .w64, "arccos_over_pi"⟩, .template .mathFunction]),
  (⟨.log, .w32, "arccos_over_pi"⟩, [.script ⟨.log, .w32, "arccos_over_pi"⟩, .script ⟨.log, .w64, "arccos_over_pi"⟩, .template .mathFunction]),
  (⟨.log, .w64, "arccos_over_pi"⟩, [.script ⟨.log, .w64, "arccos_over_pi"⟩, .template .mathFunction]),
  (⟨.log, .w8, "arccot"⟩, [.script ⟨.log, .w8, "arccot"⟩, .script ⟨.log, .w64, "arccot"⟩, .template .mathFunction]),
  (⟨.log, .w16, "arccot"⟩, [.script ⟨.log, .w16, "arccot"⟩, .script ⟨.log, .w64, "arccot"⟩, .template .mathFunction]),
  (⟨.log, .w32, "arccot"⟩, [.script ⟨.log, .w32, "arccot"⟩, .script ⟨.log, .w64, "arccot"⟩, .template .mathFunction]),
  (⟨.log, .w64, "arccot"⟩, [.script ⟨.log, .w64, "arccot"⟩, .template .mathFunction]),
  (⟨.log, .w8, "arccot_over_pi"⟩, [.script ⟨.log, .w8, "arccot_over_pi"⟩, .script ⟨.log, .w64, "arccot_over_pi"⟩, .template .mathFunction]),
  (⟨.log, .w16, "arccot_over_pi"⟩, [.script ⟨.log, .w16, "arccot_over_pi"⟩, .script ⟨.log, .w64, "arccot_over_pi"⟩, .template .mathFunction]),
  (⟨.log, .w32, "arccot_over_pi"⟩, [.script ⟨.log, .w32, "arccot_over_pi"⟩, .script ⟨.log, .w64, "arccot_over_pi"⟩, .template .mathFunction]),
  (⟨.log, .w64, "arccot_over_pi"⟩, [.script ⟨.log, .w64, "arccot_over_pi"⟩, .template .mathFunction]),
  (⟨.log, .w8, "arccsc"⟩, [.script ⟨.log, .w8, "arccsc"⟩, .script ⟨.log, .w64, "arccsc"⟩, .template .mathFunction]),
  (⟨.log, .w16, "arccsc"⟩, [.script ⟨.log, .w16, "arccsc"⟩, .script ⟨.log, .w64, "arccsc"⟩, .template .mathFunction]),
  (⟨.log, .w32, "arccsc"⟩, [.script ⟨.log, .w32, "arccsc"⟩, .script ⟨.log, .w64, "arccsc"⟩, .template .mathFunction]),
  (⟨.log, .w64, "arccsc"⟩, [.script ⟨.log, .w64, "arccsc"⟩, .template .mathFunction]),
  (⟨.log, .w8, "arccsc_over_pi"⟩, [.script ⟨.log, .w8, "arccsc_over_pi"⟩, .script ⟨.log, .w64, "arccsc_over_pi"⟩, .template .mathFunction]),
  (⟨.log, .w16, "arccsc_over_pi"⟩, [.script ⟨.log, .w16, "arccsc_over_pi"⟩, .script ⟨.log, .w64, "arccsc_over_pi"⟩, .template .mathFunction]),
  (⟨.log, .w32, "arccsc_over_pi"⟩, [.script ⟨.log, .w32, "arccsc_over_pi"⟩, .script ⟨.log, .w64, "arccsc_over_pi"⟩, .template .mathFunction]),
  (⟨.log, .w64, "arccsc_over_pi"⟩, [.script ⟨.log, .w64, "arccsc_over_pi"⟩, .template .mathFunction]),
  (⟨.log, .w8, "arcosh"⟩, [.script ⟨.log, .w8, "arcosh"⟩, .script ⟨.log, .w64, "arcosh"⟩, .template .mathFunction]),
  (⟨.log, .w16, "arcosh"⟩, [.script ⟨.log, .w16, "arcosh"⟩, .script ⟨.log, .w64, "arcosh"⟩, .template .mathFunction]),
  (⟨.log, .w32, "arcosh"⟩, [.script ⟨.log, .w32, "arcosh"⟩, .script ⟨.log, .w64, "arcosh"⟩, .template .mathFunction]),
  (⟨.log, .w64, "arcosh"⟩, [.script ⟨.log, .w64, "arcosh"⟩, .template .mathFunction]),
  (⟨.log, .w8, "arcoth"⟩, [.script ⟨.log, .w8, "arcoth"⟩, .script ⟨.log, .w64, "arcoth"⟩, .template .mathFunction]),
  (⟨.log, .w16, "arcoth"⟩, [.script ⟨.log, .w16, "arcoth"⟩, .script ⟨.log, .w64, "arcoth"⟩, .template .mathFunction]),
  (⟨.log, .w32, "arcoth"⟩, [.script ⟨.log, .w32, "arcoth"⟩, .script ⟨.log, .w64, "arcoth"⟩, .template .mathFunction]),
  (⟨.log, .w64, "arcoth"⟩, [.script ⟨.log, .w64, "arcoth"⟩, .template .mathFunction]),
  (⟨.log, .w8, "arcsch"⟩, [.script ⟨.log, .w8, "arcsch"⟩, .script ⟨.log, .w64, "arcsch"⟩, .template .mathFunction]),
  (⟨.log, .w16, "arcsch"⟩, [.script ⟨.log, .w16, "arcsch"⟩, .script ⟨.log, .w64, "arcsch"⟩, .template .mathFunction]),
  (⟨.log, .w32, "arcsch"⟩, [.script ⟨.log, .w32, "arcsch"⟩, .script ⟨.log, .w64, "arcsch"⟩, .template .mathFunction]),
  (⟨.log, .w64, "arcsch"⟩, [.script ⟨.log, .w64, "arcsch"⟩, .template .mathFunction]),
  (⟨.log, .w8, "arcsec"⟩, [.script ⟨.log, .w8, "arcsec"⟩, .script ⟨.log, .w64, "arcsec"⟩, .template .mathFunction]),
  (⟨.log, .w16, "arcsec"⟩, [.script ⟨.log, .w16, "arcsec"⟩, .script ⟨.log, .w64, "arcsec"⟩, .template .mathFunction]),
  (⟨.log, .w32, "arcsec"⟩, [.script ⟨.log, .w32, "arcsec"⟩, .script ⟨.log, .w64, "arcsec"⟩, .template .mathFunction]),
  (⟨.log, .w64, "arcsec"⟩, [.script ⟨.log, .w64, "arcsec"⟩, .template .mathFunction]),
  (⟨.log, .w8, "arcsec_over_pi"⟩, [.script ⟨.log, .w8, "arcsec_over_pi"⟩, .script ⟨.log, .w64, "arcsec_over_pi"⟩, .template .mathFunction]),
  (⟨.log, .w16, "arcsec_over_pi"⟩, [.script ⟨.log, .w16, "arcsec_over_pi"⟩, .script ⟨.log, .w64, "arcsec_over_pi"⟩, .template .mathFunction]),
  (⟨.log, .w32, "arcsec_over_pi"⟩, [.script ⟨.log, .w32, "arcsec_over_pi"⟩, .script ⟨.log, .w64, "arcsec_over_pi"⟩, .template .mathFunction]),
  (⟨.log, .w64, "arcsec_over_pi"⟩, [.script ⟨.log, .w64, "arcsec_over_pi"⟩, .template .mathFunction]),
  (⟨.log, .w8, "arcsin"⟩, [.script ⟨.log, .w8, "arcsin"⟩, .script ⟨.log, .w64, "arcsin"⟩, .template .mathFunction]),
  (⟨.log, .w16, "arcsin"⟩, [.script ⟨.log, .w16, "arcsin"⟩, .script ⟨.log, .w64, "arcsin"⟩, .template .mathFunction]),
  (⟨.log, .w32, "arcsin"⟩, [.script ⟨.log, .w32, "arcsin"⟩, .script ⟨.log, .w64, "arcsin"⟩, .template .mathFunction]),
  (⟨.log, .w64, "arcsin"⟩, [.script ⟨.log, .w64, "arcsin"⟩, .template .mathFunction]),
  (⟨.log, .w8, "arcsin_over_pi"⟩, [.script ⟨.log, .w8, "arcsin_over_pi"⟩, .script ⟨.log, .w64, "arcsin_over_pi"⟩, .template .mathFunction]),
  (⟨.log, .w16, "arcsin_over_pi"⟩, [.script ⟨.log, .w16, "arcsin_over_pi"⟩, .script ⟨.log, .w64, "arcsin_over_pi"⟩, .template .mathFunction]),
  (⟨.log, .w32, "arcsin_over_pi"⟩, [.script ⟨.log, .w32, "arcsin_over_pi"⟩, .script ⟨.log, .w64, "arcsin_over_pi"⟩, .template .mathFunction]),
  (⟨.log, .w64, "arcsin_over_pi"⟩, [.script ⟨.log, .w64, "arcsin_over_pi"⟩, .template .mathFunction]),
  (⟨.log, .w8, "arctan2"⟩, [.script ⟨.log, .w8, "arctan2"⟩, .script ⟨.log, .w64, "arctan2"⟩, .template .mathFunction]),
  (⟨.log, .w16, "arctan2"⟩, [.script ⟨.log, .w16, "arctan2"⟩, .script ⟨.log, .w64, "arctan2"⟩, .template .mathFunction]),
  (⟨.log, .w32, "arctan2"⟩, [.script ⟨.log, .w32, "arctan2"⟩, .script ⟨.log, .w64, "arctan2"⟩, .template .mathFunction]),
  (⟨.log, .w64, "arctan2"⟩, [.script ⟨.log, .w64, "arctan2"⟩, .template .mathFunction]),
  (⟨.log, .w8, "arctan2_over_pi"⟩, [.script ⟨.log, .w8, "arctan2_over_pi"⟩, .script ⟨.log, .w64, "arctan2_over_pi"⟩, .template .mathFunction]),
  (⟨.log, .w16, "arctan2_over_pi"⟩, [.script ⟨.log, .w16, "arctan2_over_pi"⟩, .script ⟨.log, .w64, "arctan2_over_pi"⟩, .template .mathFunction]),
  (⟨.log, .w32, "arctan2_over_pi"⟩, [.script ⟨.log, .w32, "arctan2_over_pi"⟩, .script ⟨.log, .w64, "arctan2_over_pi"⟩, .template .mathFunction]),
  (⟨.log, .w64, "arctan2_over_pi"⟩, [.script ⟨.log, .w64, "arctan2_over_pi"⟩, .template .mathFunction]),
  (⟨.log, .w8, "arctan"⟩, [.script ⟨.log, .w8, "arctan"⟩, .script ⟨.log, .w64, "arctan"⟩, .template .mathFunction]),
  (⟨.log, .w16, "arctan"⟩, [.script ⟨.log, .w16, "arctan"⟩, .script ⟨.log, .w64, "arctan"⟩, .template .mathFunction]),
  (⟨.log, .w32, "arctan"⟩, [.script ⟨.log, .w32, "arctan"⟩, .script ⟨.log, .w64, "arctan"⟩, .template .mathFunction]),
  (⟨.log, .w64, "arctan"⟩, [.script ⟨.log, .w64, "arctan"⟩, .template .mathFunction]),
  (⟨.log, .w8, "arctan_over_pi"⟩, [.script ⟨.log, .w8, "arctan_over_pi"⟩, .script ⟨.log, .w64, "arctan_over_pi"⟩, .template .mathFunction]),
  (⟨.log, .w16, "arctan_over_pi"⟩, [.script ⟨.log, .w16, "arctan_over_pi"⟩, .script ⟨.log, .w64, "arctan_over_pi"⟩, .template .mathFunction]),
  (⟨.log, .w32, "arctan_over_pi"⟩, [.script ⟨.log, .w32, "arctan_over_pi"⟩, .script ⟨.log, .w64, "arctan_over_pi"⟩, .template .mathFunction]),
  (⟨.log, .w64, "arctan_over_pi"⟩, [.script ⟨.log, .w64, "arctan_over_pi"⟩, .template .mathFunction]),
  (⟨.log, .w8, "arsech"⟩, [.script ⟨.log, .w8, "arsech"⟩, .script ⟨.log, .w64, "arsech"⟩, .template .mathFunction]),
  (⟨.log, .w16, "arsech"⟩, [.script ⟨.log, .w16, "arsech"⟩, .script ⟨.log, .w64, "arsech"⟩, .template .mathFunction]),
  (⟨.log, .w32, "arsech"⟩, [.script ⟨.log, .w32, "arsech"⟩, .script ⟨.log, .w64, "arsech"⟩, .template .mathFunction]),
  (⟨.log, .w64, "arsech"⟩, [.script ⟨.log, .w64, "arsech"⟩, .template .mathFunction]),
  (⟨.log, .w8, "arsinh"⟩, [.script ⟨.log, .w8, "arsinh"⟩, .script ⟨.log, .w64, "arsinh"⟩, .template .mathFunction]),
  (⟨.log, .w16, "arsinh"⟩, [.script ⟨.log, .w16, "arsinh"⟩, .script ⟨.log, .w64, "arsinh"⟩, .template .mathFunction]),
  (⟨.log, .w32, "arsinh"⟩, [.script ⟨.log, .w32, "arsinh"⟩, .script ⟨.log, .w64, "arsinh"⟩, .template .mathFunction]),
  (⟨.log, .w64, "arsinh"⟩, [.script ⟨.log, .w64, "arsinh"⟩, .template .mathFunction]),
  (⟨.log, .w8, "artanh"⟩, [.script ⟨.log, .w8, "artanh"⟩, .script ⟨.log, .w64, "artanh"⟩, .template .mathFunction]),
  (⟨.log, .w16, "artanh"⟩, [.script ⟨.log, .w16, "artanh"⟩, .script ⟨.log, .w64, "artanh"⟩, .template .mathFunction]),
  (⟨.log, .w32, "artanh"⟩, [.script ⟨.log, .w32, "artanh"⟩, .script ⟨.log, .w64, "artanh"⟩, .template .mathFunction]),
  (⟨.log, .w64, "artanh"⟩, [.script ⟨.log, .w64, "artanh"⟩, .template .mathFunction]),
  (⟨.log, .w8, "cos"⟩, [.script ⟨.log, .w8, "cos"⟩, .script ⟨.log, .w64, "cos"⟩, .template .mathFunction]),
  (⟨.log, .w16, "cos"⟩, [.script ⟨.log, .w16, "cos"⟩, .script ⟨.log, .w64, "cos"⟩, .template .mathFunction]),
  (⟨.log, .w32, "cos"⟩, [.script ⟨.log, .w32, "cos"⟩, .script ⟨.log, .w64, "cos"⟩, .template .mathFunction]),
  (⟨.log, .w64, "cos"⟩, [.script ⟨.log, .w64, "cos"⟩, .template .mathFunction]),
  (⟨.log, .w8, "cos_pi_times"⟩, [.script ⟨.log, .w8, "cos_pi_times"⟩, .script ⟨.log, .w64, "cos_pi_times"⟩, .template .mathFunction]),
  (⟨.log, .w16, "cos_pi_times"⟩, [.script ⟨.log, .w16, "cos_pi_times"⟩, .script ⟨.log, .w64, "cos_pi_times"⟩, .template .mathFunction]),
  (⟨.log, .w32, "cos_pi_times"⟩, [.script ⟨.log, .w32, "cos_pi_times"⟩, .script ⟨.log, .w64, "cos_pi_times"⟩, .template .mathFunction]),
  (⟨.log, .w64, "cos_pi_times"⟩, [.script ⟨.log, .w64, "cos_pi_times"⟩, .template .mathFunction]),
  (⟨.log, .w8, "cosh"⟩, [.script ⟨.log, .w8, "cosh"⟩, .script ⟨.log, .w64, "cosh"⟩, .template .mathFunction]),
  (⟨.log, .w16, "cosh"⟩, [.script ⟨.log, .w16, "cosh"⟩, .script ⟨.log, .w64, "cosh"⟩, .template .mathFunction]),
  (⟨.log, .w32, "cosh"⟩, [.script ⟨.log, .w32, "cosh"⟩, .script ⟨.log, .w64, "cosh"⟩, .template .mathFunction]),
  (⟨.log, .w64, "cosh"⟩, [.script ⟨.log, .w64, "cosh"⟩, .template .mathFunction]),
  (⟨.log, .w8, "cot"⟩, [.script ⟨.log, .w8, "cot"⟩, .script ⟨.log, .w64, "cot"⟩, .template .mathFunction]),
  (⟨.log, .w16, "cot"⟩, [.script ⟨.log, .w16, "cot"⟩, .script ⟨.log, .w64, "cot"⟩, .template .mathFunction]),
  (⟨.log, .w32, "cot"⟩, [.script ⟨.log, .w32, "cot"⟩, .script ⟨.log, .w64, "cot"⟩, .template .mathFunction]),
  (⟨.log, .w64, "cot"⟩, [.script ⟨.log, .w64, "cot"⟩, .template .mathFunction]),
  (⟨.log, .w8, "cot_pi_times"⟩, [.script ⟨.log, .w8, "cot_pi_times"⟩, .script ⟨.log, .w64, "cot_pi_times"⟩, .template .mathFunction]),
  (⟨.log, .w16, "cot_pi_times"⟩, [.script ⟨.log, .w16, "cot_pi_times"⟩, .script ⟨.log, .w64, "cot_pi_times"⟩, .template .mathFunction]),
  (⟨.log, .w32, "cot_pi_times"⟩, [.script ⟨.log, .w32, "cot_pi_times"⟩, .script ⟨.log, .w64, "cot_pi_times"⟩, .template .mathFunction]),
  (⟨.log, .w64, "cot_pi_times"⟩, [.script ⟨.log, .w64, "cot_pi_times"⟩, .template .mathFunction]),
  (⟨.log, .w8, "coth"⟩, [.script ⟨.log, .w8, "coth"⟩, .script ⟨.log, .w64, "coth"⟩, .template .mathFunction]),
  (⟨.log, .w16, "coth"⟩, [.script ⟨.log, .w16, "coth"⟩, .script ⟨.log, .w64, "coth"⟩, .template .mathFunction]),
  (⟨.log, .w32, "coth"⟩, [.script ⟨.log, .w32, "coth"⟩, .script ⟨.log, .w64, "coth"⟩, .template .mathFunction]),
  (⟨.log, .w64, "coth"⟩, [.script ⟨.log, .w64, "coth"⟩, .template .mathFunction]),
  (⟨.log, .w8, "csc"⟩, [.script ⟨.log, .w8, "csc"⟩, .script ⟨.log, .w64, "csc"⟩, .template .mathFunction]),
  (⟨.log, .w16, "csc"⟩, [.script ⟨.log, .w16, "csc"⟩, .script ⟨.log, .w64, "csc"⟩, .template .mathFunction]),
  (⟨.log, .w32, "csc"⟩, [.script ⟨.log, .w32, "csc"⟩, .script ⟨.log, .w64, "csc"⟩, .template .mathFunction]),
  (⟨.log, .w64, "csc"⟩, [.script ⟨.log, .w64, "csc"⟩, .template .mathFunction]),
  (⟨.log, .w8, "csc_pi_times"⟩, [.script ⟨.log, .w8, "csc_pi_times"⟩, .script ⟨.log, .w64, "csc_pi_times"⟩, .template .mathFunction]),
  (⟨.log, .w16, "csc_pi_times"⟩, [.script ⟨.log, .w16, "csc_pi_times"⟩, .script ⟨.log, .w64, "csc_pi_times"⟩, .template .mathFunction]),
  (⟨.log, .w32, "csc_pi_times"⟩, [.script ⟨.log, .w32, "csc_pi_times"⟩, .script ⟨.log, .w64, "csc_pi_times"⟩, .template .mathFunction]),
  (⟨.log, .w64, "csc_pi_times"⟩, [.script ⟨.log, .w64, "csc_pi_times"⟩, .template .mathFunction]),
  (⟨.log, .w8, "csch"⟩, [.script ⟨.log, .w8, "csch"⟩, .script ⟨.log, .w64, "csch"⟩, .template .mathFunction]),
  (⟨.log, .w16, "csch"⟩, [.script ⟨.log, .w16, "csch"⟩, .script ⟨.log, .w64, "csch"⟩, .template .mathFunction]),
  (⟨.log, .w32, "csch"⟩, [.script ⟨.log, .w32, "csch"⟩, .script ⟨.log, .w64, "csch"⟩, .template .mathFunction]),
  (⟨.log, .w64, "csch"⟩, [.script ⟨.log, .w64, "csch"⟩, .template .mathFunction]),
  (⟨.log, .w8, "division"⟩, [.script ⟨.log, .w8, "division"⟩, .script ⟨.log, .w64, "division"⟩, .template .mathFunction]),
  (⟨.log, .w16, "division"⟩, [.script ⟨.log, .w16, "division"⟩, .script ⟨.log, .w64, "division"⟩, .template .mathFunction]),
  (⟨.log, .w32, "division"⟩, [.script ⟨.log, .w32, "division"⟩, .script ⟨.log, .w64, "division"⟩, .template .mathFunction]),
  (⟨.log, .w64, "division"⟩, [.script ⟨.log, .w64, "division"⟩, .template .mathFunction]),
  (⟨.log, .w8, "exp"⟩, [.script ⟨.log, .w8, "exp"⟩, .script ⟨.log, .w64, "exp"⟩, .template .mathFunction]),
  (⟨.log, .w16, "exp"⟩, [.script ⟨.log, .w16, "exp"⟩, .script ⟨.log, .w64, "exp"⟩, .template .mathFunction]),
  (⟨.log, .w32, "exp"⟩, [.script ⟨.log, .w32, "exp"⟩, .script ⟨.log, .w64, "exp"⟩, .template .mathFunction]),
  (⟨.log, .w64, "exp"⟩, [.script ⟨.log, .w64, "exp"⟩, .template .mathFunction]),
  (⟨.log, .w8, "exp_minus_1"⟩, [.script ⟨.log, .w8, "exp_minus_1"⟩, .script ⟨.log, .w64, "exp_minus_1"⟩, .template .mathFunction]),
  (⟨.log, .w16, "exp_minus_1"⟩, [.script ⟨.log, .w16, "exp_minus_1"⟩, .script ⟨.log, .w64, "exp_minus_1"⟩, .template .mathFunction]),
  (⟨.log, .w32, "exp_minus_1"⟩, [.script ⟨.log, .w32, "exp_minus_1"⟩, .script ⟨.log, .w64, "exp_minus_1"⟩, .template .mathFunction]),
  (⟨.log, .w64, "exp_minus_1"⟩, [.script ⟨.log, .w64, "exp_minus_1"⟩, .template .mathFunction]),
  (⟨.log, .w8, "from_extended_float"⟩, [.script ⟨.log, .w8, "from_extended_float"⟩, .script ⟨.log, .w64, "from_extended_float"⟩, .template .fromFloat]),
  (⟨.log, .w16, "from_extended_float"⟩, [.script ⟨.log, .w16, "from_extended_float"⟩, .script ⟨.log, .w64, "from_extended_float"⟩, .template .fromFloat]),
  (⟨.log, .w32, "from_extended_float"⟩, [.script ⟨.log, .w32, "from_extended_float"⟩, .script ⟨.log, .w64, "from_extended_float"⟩, .template .fromFloat]),
  (⟨.log, .w64, "from_extended_float"⟩, [.script ⟨.log, .w64, "from_extended_float"⟩, .template .fromFloat]),
  (⟨.log, .w8, "from_float32"⟩, [.script ⟨.log, .w8, "from_float32"⟩, .script ⟨.log, .w64, "from_float32"⟩, .template .fromFloat]),
  (⟨.log, .w16, "from_float32"⟩, [.script ⟨.log, .w16, "from_float32"⟩, .script ⟨.log, .w64, "from_float32"⟩, .template .fromFloat]),
  (⟨.log, .w32, "from_float32"⟩, [.script ⟨.log, .w32, "from_float32"⟩, .script ⟨.log, .w64, "from_float32"⟩, .template .fromFloat]),
  (⟨.log, .w64, "from_float32"⟩, [.script ⟨.log, .w64, "from_float32"⟩, .template .fromFloat]),
  (⟨.log, .w8, "from_float64"⟩, [.script ⟨.log, .w8, "from_float64"⟩, .script ⟨.log, .w64, "from_float64"⟩, .template .fromFloat]),
  (⟨.log, .w16, "from_float64"⟩, [.script ⟨.log, .w16, "from_float64"⟩, .script ⟨.log, .w64, "from_float64"⟩, .template .fromFloat]),
  (⟨.log, .w32, "from_float64"⟩, [.script ⟨.log, .w32, "from_float64"⟩, .script ⟨.log, .w64, "from_float64"⟩, .template .fromFloat]),
  (⟨.log, .w64, "from_float64"⟩, [.script ⟨.log, .w64, "from_float64"⟩, .template .fromFloat]),
  (⟨.log, .w16, "from_takum8"⟩, [.script ⟨.log, .w16, "from_takum8"⟩, .script ⟨.log, .w64, "from_takum8"⟩, .template .conversion]),
  (⟨.log, .w32, "from_takum8"⟩, [.script ⟨.log, .w32, "from_takum8"⟩, .script ⟨.log, .w64, "from_takum8"⟩, .template .conversion]),
  (⟨.log, .w64, "from_takum8"⟩, [.script ⟨.log, .w64, "from_takum8"⟩, .template .conversion]),
  (⟨.log, .w8, "from_takum16"⟩, [.script ⟨.log, .w8, "from_takum16"⟩, .script ⟨.log, .w64, "from_takum16"⟩, .template .conversion]),
  (⟨.log, .w32, "from_takum16"⟩, [.script ⟨.log, .w32, "from_takum16"⟩, .script ⟨.log, .w64, "from_takum16"⟩, .template .conversion]),
  (⟨.log, .w64, "from_takum16"⟩, [.script ⟨.log, .w64, "from_takum16"⟩, .template .conversion]),
  (⟨.log, .w8, "from_takum32"⟩, [.script ⟨.log, .w8, "from_takum32"⟩, .script ⟨.log, .w64, "from_takum32"⟩, .template .conversion]),
  (⟨.log, .w16, "from_takum32"⟩, [.script ⟨.log, .w16, "from_takum32"⟩, .script ⟨.log, .w64, "from_takum32"⟩, .template .conversion]),
  (⟨.log, .w64, "from_takum32"⟩, [.script ⟨.log, .w64, "from_takum32"⟩, .template .conversion]),
  (⟨.log, .w8, "from_takum64"⟩, [.script ⟨.log, .w8, "from_takum64"⟩, .script ⟨.log, .w32, "from_takum64"⟩, .template .conversion]),
  (⟨.log, .w16, "from_takum64"⟩, [.script ⟨.log, .w16, "from_takum64"⟩, .script ⟨.log, .w32, "from_takum64"⟩, .template .conversion]),
  (⟨.log, .w32, "from_takum64"⟩, [.script ⟨.log, .w32, "from_takum64"⟩, .template .conversion]),
  (⟨.log, .w8, "hypotenuse"⟩, [.script ⟨.log, .w8, "hypotenuse"⟩, .script ⟨.log, .w64, "hypotenuse"⟩, .template .mathFunction]),
  (⟨.log, .w16, "hypotenuse"⟩, [.script ⟨.log, .w16, "hypotenuse"⟩, .script ⟨.log, .w64, "hypotenuse"⟩, .template .mathFunction]),
  (⟨.log, .w32, "hypotenuse"⟩, [.script ⟨.log, .w32, "hypotenuse"⟩, .script ⟨.log, .w64, "hypotenuse"⟩, .template .mathFunction]),
  (⟨.log, .w64, "hypotenuse"⟩, [.script ⟨.log, .w64, "hypotenuse"⟩, .template .mathFunction]),
  (⟨.log, .w8, "integer_power"⟩, [.script ⟨.log, .w8, "integer_power"⟩, .script ⟨.log, .w64, "integer_power"⟩, .template .mathFunction]),
  (⟨.log, .w16, "integer_power"⟩, [.script ⟨.log, .w16, "integer_power"⟩, .script ⟨.log, .w64, "integer_power"⟩, .template .mathFunction]),
  (⟨.log, .w32, "integer_power"⟩, [.script ⟨.log, .w32, "integer_power"⟩, .script ⟨.log, .w64, "integer_power"⟩, .template .mathFunction]),
  (⟨.log, .w64, "integer_power"⟩, [.script ⟨.log, .w64, "integer_power"⟩, .template .mathFunction]),
  (⟨.log, .w8, "inversion"⟩, [.script ⟨.log, .w8, "inversion"⟩, .script ⟨.log, .w64, "inversion"⟩, .template .mathFunction]),
  (⟨.log, .w16, "inversion"⟩, [.script ⟨.log, .w16, "inversion"⟩, .script ⟨.log, .w64, "inversion"⟩, .template .mathFunction]),
  (⟨.log, .w32, "inversion"⟩, [.script ⟨.log, .w32, "inversion"⟩, .script ⟨.log, .w64, "inversion"⟩, .template .mathFunction]),
  (⟨.log, .w64, "inversion"⟩, [.script ⟨.log, .w64, "inversion"⟩, .template .mathFunction]),
  (⟨.log, .w8, "lb"⟩, [.script ⟨.log, .w8, "lb"⟩, .script ⟨.log, .w64, "lb"⟩, .template .mathFunction]),
  (⟨.log, .w16, "lb"⟩, [.script ⟨.log, .w16, "lb"⟩, .script ⟨.log, .w64, "lb"⟩, .template .mathFunction]),
  (⟨.log, .w32, "lb"⟩, [.script ⟨.log, .w32, "lb"⟩, .script ⟨.log, .w64, "lb"⟩, .template .mathFunction]),
  (⟨.log, .w64, "lb"⟩, [.script ⟨.log, .w64, "lb"⟩, .template .mathFunction]),
  (⟨.log, .w8, "lb_1_plus"⟩, [.script ⟨.log, .w8, "lb_1_plus"⟩, .script ⟨.log, .w64, "lb_1_plus"⟩, .template .mathFunction]),
  (⟨.log, .w16, "lb_1_plus"⟩, [.script ⟨.log, .w16, "lb_1_plus"⟩, .script ⟨.log, .w64, "lb_1_plus"⟩, .template .mathFunction]),
  (⟨.log, .w32, "lb_1_plus"⟩, [.script ⟨.log, .w32, "lb_1_plus"⟩, .script ⟨.log, .w64, "lb_1_plus"⟩, .template .mathFunction]),
  (⟨.log, .w64, "lb_1_plus"⟩, [.script ⟨.log, .w64, "lb_1_plus"⟩, .template .mathFunction]),
  (⟨.log, .w8, "lg"⟩, [.script ⟨.log, .w8, "lg"⟩, .script ⟨.log, .w64, "lg"⟩, .template .mathFunction]),
  (⟨.log, .w16, "lg"⟩, [.script ⟨.log, .w16, "lg"⟩, .script ⟨.log, .w64, "lg"⟩, .template .mathFunction]),
  (⟨.log, .w32, "lg"⟩, [.script ⟨.log, .w32, "lg"⟩, .script ⟨.log, .w64, "lg"⟩, .template .mathFunction]),
  (⟨.log, .w64, "lg"⟩, [.script ⟨.log, .w64, "lg"⟩, .template .mathFunction]),
  (⟨.log, .w8, "lg_1_plus"⟩, [.script ⟨.log, .w8, "lg_1_plus"⟩, .script ⟨.log, .w64, "lg_1_plus"⟩, .template .mathFunction]),
  (⟨.log, .w16, "lg_1_plus"⟩, [.script ⟨.log, .w16, "lg_1_plus"⟩, .script ⟨.log, .w64, "lg_1_plus"⟩, .template .mathFunction]),
  (⟨.log, .w32, "lg_1_plus"⟩, [.script ⟨.log, .w32, "lg_1_plus"⟩, .script ⟨.log, .w64, "lg_1_plus"⟩, .template .mathFunction]),
  (⟨.log, .w64, "lg_1_plus"⟩, [.script ⟨.log, .w64, "lg_1_plus"⟩, .template .mathFunction]),
  (⟨.log, .w8, "ln"⟩, [.script ⟨.log, .w8, "ln"⟩, .script ⟨.log, .w64, "ln"⟩, .template .mathFunction]),
  (⟨.log, .w16, "ln"⟩, [.script ⟨.log, .w16, "ln"⟩, .script ⟨.log, .w64, "ln"⟩, .template .mathFunction]),
  (⟨.log, .w32, "ln"⟩, [.script ⟨.log, .w32, "ln"⟩, .script ⟨.log, .w64, "ln"⟩, .template .mathFunction]),
  (⟨.log, .w64, "ln"⟩, [.script ⟨.log, .w64, "ln"⟩, .template .mathFunction]),
  (⟨.log, .w8, "ln_1_plus"⟩, [.script ⟨.log, .w8, "ln_1_plus"⟩, .script ⟨.log, .w64, "ln_1_plus"⟩, .template .mathFunction]),
  (⟨.log, .w16, "ln_1_plus"⟩, [.script ⟨.log, .w16, "ln_1_plus"⟩, .script ⟨.log, .w64, "ln_1_plus"⟩, .template .mathFunction]),
  (⟨.log, .w32, "ln_1_plus"⟩, [.script ⟨.log, .w32, "ln_1_plus"⟩, .script ⟨.log, .w64, "ln_1_plus"⟩, .template .mathFunction]),
  (⟨.log, .w64, "ln_1_plus"⟩, [.script ⟨.log, .w64, "ln_1_plus"⟩, .template .mathFunction]),
  (⟨.log, .w8, "multiplication"⟩, [.script ⟨.log, .w8, "multiplication"⟩, .script ⟨.log, .w64, "multiplication"⟩, .template .mathFunction]),
  (⟨.log, .w16, "multiplication"⟩, [.script ⟨.log, .w16, "multiplication"⟩, .script ⟨.log, .w64, "multiplication"⟩, .template .mathFunction]),
  (⟨.log, .w32, "multiplication"⟩, [.script ⟨.log, .w32, "multiplication"⟩, .script ⟨.log, .w64, "multiplication"⟩, .template .mathFunction]),
  (⟨.log, .w64, "multiplication"⟩, [.script ⟨.log, .w64, "multiplication"⟩, .template .mathFunction]),
  (⟨.log, .w8, "power"⟩, [.script ⟨.log, .w8, "power"⟩, .script ⟨.log, .w64, "power"⟩, .template .mathFunction]),
  (⟨.log, .w16, "power"⟩, [.script ⟨.log, .w16, "power"⟩, .script ⟨.log, .w64, "power"⟩, .template .mathFunction]),
  (⟨.log, .w32, "power"⟩, [.script ⟨.log, .w32, "power"⟩, .script ⟨.log, .w64, "power"⟩, .template .mathFunction]),
  (⟨.log, .w64, "power"⟩, [.script ⟨.log, .w64, "power"⟩, .template .mathFunction]),
  (⟨.log, .w8, "precision"⟩, [.script ⟨.log, .w8, "precision"⟩, .script ⟨.log, .w64, "precision"⟩, .template .mathFunction]),
  (⟨.log, .w16, "precision"⟩, [.script ⟨.log, .w16, "precision"⟩, .script ⟨.log, .w64, "precision"⟩, .template .mathFunction]),
  (⟨.log, .w32, "precision"⟩, [.script ⟨.log, .w32, "precision"⟩, .script ⟨.log, .w64, "precision"⟩, .template .mathFunction]),
  (⟨.log, .w64, "precision"⟩, [.script ⟨.log, .w64, "precision"⟩, .template .mathFunction]),
  (⟨.log, .w8, "root"⟩, [.script ⟨.log, .w8, "root"⟩, .script ⟨.log, .w64, "root"⟩, .template .mathFunction]),
  (⟨.log, .w16, "root"⟩, [.script ⟨.log, .w16, "root"⟩, .script ⟨.log, .w64, "root"⟩, .template .mathFunction]),
  (⟨.log, .w32, "root"⟩, [.script ⟨.log, .w32, "root"⟩, .script ⟨.log, .w64, "root"⟩, .template .mathFunction]),
  (⟨.log, .w64, "root"⟩, [.script ⟨.log, .w64, "root"⟩, .template .mathFunction]),
  (⟨.log, .w8, "sec"⟩, [.script ⟨.log, .w8, "sec"⟩, .script ⟨.log, .w64, "sec"⟩, .template .mathFunction]),
  (⟨.log, .w16, "sec"⟩, [.script ⟨.log, .w16, "sec"⟩, .script ⟨.log, .w64, "sec"⟩, .template .mathFunction]),
  (⟨.log, .w32, "sec"⟩, [.script ⟨.log, .w32, "sec"⟩, .script ⟨.log, .w64, "sec"⟩, .template .mathFunction]),
  (⟨.log, .w64, "sec"⟩, [.script ⟨.log, .w64, "sec"⟩, .template .mathFunction]),
  (⟨.log, .w8, "sec_pi_times"⟩, [.script ⟨.log, .w8, "sec_pi_times"⟩, .script ⟨.log, .w64, "sec_pi_times"⟩, .template .mathFunction]),
  (⟨.log, .w16, "sec_pi_times"⟩, [.script ⟨.log, .w16, "sec_pi_times"⟩, .script ⟨.log, .w64, "sec_pi_times"⟩, .template .mathFunction]),
  (⟨.log, .w32, "sec_pi_times"⟩, [.script ⟨.log, .w32, "sec_pi_times"⟩, .script ⟨.log, .w64, "sec_pi_times"⟩, .template .mathFunction]),
  (⟨.log, .w64, "sec_pi_times"⟩, [.script ⟨.log, .w64, "sec_pi_times"⟩, .template .mathFunction]),
  (⟨.log, .w8, "sech"⟩, [.script ⟨.log, .w8, "sech"⟩, .script ⟨.log, .w64, "sech"⟩, .template .mathFunction]),
  (⟨.log, .w16, "sech"⟩, [.script ⟨.log, .w16, "sech"⟩, .script ⟨.log, .w64, "sech"⟩, .template .mathFunction]),
  (⟨.log, .w32, "sech"⟩, [.script ⟨.log, .w32, "sech"⟩, .script ⟨.log, .w64, "sech"⟩, .template .mathFunction]),
  (⟨.log, .w64, "sech"⟩, [.script ⟨.log, .w64, "sech"⟩, .template .mathFunction]),
  (⟨.log, .w8, "sign"⟩, [.script ⟨.log, .w8, "sign"⟩, .script ⟨.log, .w64, "sign"⟩, .template .mathFunction]),
  (⟨.log, .w16, "sign"⟩, [.script ⟨.log, .w16, "sign"⟩, .script ⟨.log, .w64, "sign"⟩, .template .mathFunction]),
  (⟨.log, .w32, "sign"⟩, [.script ⟨.log, .w32, "sign"⟩, .script ⟨.log, .w64, "sign"⟩, .template .mathFunction]),
  (⟨.log, .w64, "sign"⟩, [.script ⟨.log, .w64, "sign"⟩, .template .mathFunction]),
  (⟨.log, .w8, "sin"⟩, [.script ⟨.log, .w8, "sin"⟩, .script ⟨.log, .w64, "sin"⟩, .template .mathFunction]),
  (⟨.log, .w16, "sin"⟩, [.script ⟨.log, .w16, "sin"⟩, .script ⟨.log, .w64, "sin"⟩, .template .mathFunction]),
  (⟨.log, .w32, "sin"⟩, [.script ⟨.log, .w32, "sin"⟩, .script ⟨.log, .w64, "sin"⟩, .template .mathFunction]),
  (⟨.log, .w64, "sin"⟩, [.script ⟨.log, .w64, "sin"⟩, .template .mathFunction]),
  (⟨.log, .w8, "sin_pi_times"⟩, [.script ⟨.log, .w8, "sin_pi_times"⟩, .script ⟨.log, .w64, "sin_pi_times"⟩, .template .mathFunction]),
  (⟨.log, .w16, "sin_pi_times"⟩, [.script ⟨.log, .w16, "sin_pi_times"⟩, .script ⟨.log, .w64, "sin_pi_times"⟩, .template .mathFunction]),
  (⟨.log, .w32, "sin_pi_times"⟩, [.script ⟨.log, .w32, "sin_pi_times"⟩, .script ⟨.log, .w64, "sin_pi_times"⟩, .template .mathFunction]),
  (⟨.log, .w64, "sin_pi_times"⟩, [.script ⟨.log, .w64, "sin_pi_times"⟩, .template .mathFunction]),
  (⟨.log, .w8, "sinh"⟩, [.script ⟨.log, .w8, "sinh"⟩, .script ⟨.log, .w64, "sinh"⟩, .template .mathFunction]),
  (⟨.log, .w16, "sinh"⟩, [.script ⟨.log, .w16, "sinh"⟩, .script ⟨.log, .w64, "sinh"⟩, .template .mathFunction]),
  (⟨.log, .w32, "sinh"⟩, [.script ⟨.log, .w32, "sinh"⟩, .script ⟨.log, .w64, "sinh"⟩, .template .mathFunction]),
  (⟨.log, .w64, "sinh"⟩, [.script ⟨.log, .w64, "sinh"⟩, .template .mathFunction]),
  (⟨.log, .w8, "square_root"⟩, [.script ⟨.log, .w8, "square_root"⟩, .script ⟨.log, .w64, "square_root"⟩, .template .mathFunction]),
  (⟨.log, .w16, "square_root"⟩, [.script ⟨.log, .w16, "square_root"⟩, .script ⟨.log, .w64, "square_root"⟩, .template .mathFunction]),
  (⟨.log, .w32, "square_root"⟩, [.script ⟨.log, .w32, "square_root"⟩, .script ⟨.log, .w64, "square_root"⟩, .template .mathFunction]),
  (⟨.log, .w64, "square_root"⟩, [.script ⟨.log, .w64, "square_root"⟩, .template .mathFunction]),
  (⟨.log, .w8, "subtraction"⟩, [.script ⟨.log, .w8, "subtraction"⟩, .script ⟨.log, .w64, "subtraction"⟩, .template .mathFunction]),
  (⟨.log, .w16, "subtraction"⟩, [.script ⟨.log, .w16, "subtraction"⟩, .script ⟨.log, .w64, "subtraction"⟩, .template .mathFunction]),
  (⟨.log, .w32, "subtraction"⟩, [.script ⟨.log, .w32, "subtraction"⟩, .script ⟨.log, .w64, "subtraction"⟩, .template .mathFunction]),
  (⟨.log, .w64, "subtraction"⟩, [.script ⟨.log, .w64, "subtraction"⟩, .template .mathFunction]),
  (⟨.log, .w8, "tan"⟩, [.script ⟨.log, .w8, "tan"⟩, .script ⟨.log, .w64, "tan"⟩, .template .mathFunction]),
  (⟨.log, .w16, "tan"⟩, [.script ⟨.log, .w16, "tan"⟩, .script ⟨.log, .w64, "tan"⟩, .template .mathFunction]),
  (⟨.log, .w32, "tan"⟩, [.script ⟨.log, .w32, "tan"⟩, .script ⟨.log, .w64, "tan"⟩, .template .mathFunction]),
  (⟨.log, .w64, "tan"⟩, [.script ⟨.log, .w64, "tan"⟩, .template .mathFunction]),
  (⟨.log, .w8, "tan_pi_times"⟩, [.script ⟨.log, .w8, "tan_pi_times"⟩, .script ⟨.log, .w64, "tan_pi_times"⟩, .template .mathFunction]),
  (⟨.log, .w16, "tan_pi_times"⟩, [.script ⟨.log, .w16, "tan_pi_times"⟩, .script ⟨.log, .w64, "tan_pi_times"⟩, .template .mathFunction]),
  (⟨.log, .w32, "tan_pi_times"⟩, [.script ⟨.log, .w32, "tan_pi_times"⟩, .script ⟨.log, .w64, "tan_pi_times"⟩, .template .mathFunction]),
  (⟨.log, .w64, "tan_pi_times"⟩, [.script ⟨.log, .w64, "tan_pi_times"⟩, .template .mathFunction]),
  (⟨.log, .w8, "tanh"⟩, [.script ⟨.log, .w8, "tanh"⟩, .script ⟨.log, .w64, "tanh"⟩, .template .mathFunction]),
  (⟨.log, .w16, "tanh"⟩, [.script ⟨.log, .w16, "tanh"⟩, .script ⟨.log, .w64, "tanh"⟩, .template .mathFunction]),
  (⟨.log, .w32, "tanh"⟩, [.script ⟨.log, .w32, "tanh"⟩, .script ⟨.log, .w64, "tanh"⟩, .template .mathFunction]),
  (⟨.log, .w64, "tanh"⟩, [.script ⟨.log, .w64, "tanh"⟩, .template .mathFunction]),
  (⟨.log, .w8, "to_extended_float"⟩, [.script ⟨.log, .w8, "to_extended_float"⟩, .script ⟨.log, .w64, "to_extended_float"⟩, .template .toFloat]),
  (⟨.log, .w16, "to_extended_float"⟩, [.script ⟨.log, .w16, "to_extended_float"⟩, .script ⟨.log, .w64, "to_extended_float"⟩, .template .toFloat]),
  (⟨.log, .w32, "to_extended_float"⟩, [.script ⟨.log, .w32, "to_extended_float"⟩, .script ⟨.log, .w64, "to_extended_float"⟩, .template .toFloat]),
  (⟨.log, .w64, "to_extended_float"⟩, [.script ⟨.log, .w64, "to_extended_float"⟩, .template .toFloat]),
  (⟨.log, .w8, "to_float32"⟩, [.script ⟨.log, .w8, "to_float32"⟩, .script ⟨.log, .w64, "to_float32"⟩, .template .toFloat]),
  (⟨.log, .w16, "to_float32"⟩, [.script ⟨.log, .w16, "to_float32"⟩, .script ⟨.log, .w64, "to_float32"⟩, .template .toFloat]),
  (⟨.log, .w32, "to_float32"⟩, [.script ⟨.log, .w32, "to_float32"⟩, .script ⟨.log, .w64, "to_float32"⟩, .template .toFloat]),
  (⟨.log, .w64, "to_float32"⟩, [.script ⟨.log, .w64, "to_float32"⟩, .template .toFloat]),
  (⟨.log, .w8, "to_float64"⟩, [.script ⟨.log, .w8, "to_float64"⟩, .script ⟨.log, .w64, "to_float64"⟩, .template .toFloat]),
  (⟨.log, .w16, "to_float64"⟩, [.script ⟨.log, .w16, "to_float64"⟩, .script ⟨.log, .w64, "to_float64"⟩, .template .toFloat]),
  (⟨.log, .w32, "to_float64"⟩, [.script ⟨.log, .w32, "to_float64"⟩, .script ⟨.log, .w64, "to_float64"⟩, .template .toFloat]),
  (⟨.log, .w64, "to_float64"⟩, [.script ⟨.log, .w64, "to_float64"⟩, .template .toFloat])]

/-- `#include "..."` of the files in example, src and test, relative to the root. takum.h includes no such file. -/
def includes : List (String × List String) := [
  ("example/calculator.c", ["takum.h", "example/util.h"]),
  ("example/util.c", ["takum.h", "example/util.h"]),
  ("example/util.h", []),
  ("src/10_raised.c", ["src/util.h"]),
  ("src/2_raised.c", ["src/util.h"]),
  ("src/absolute.c", ["takum.h", "src/util.h"]),
  ("src/addition.c", ["takum.h", "src/util.h"]),
  ("src/arccos.c", ["src/util.h"]),
  ("src/arccot.c", ["src/util.h", "takum.h"]),
  ("src/arccsc.c", ["src/util.h", "takum.h"]),
  ("src/arcosh.c", ["src/util.h"]),
  ("src/arcoth.c", ["src/util.h", "takum.h"]),
  ("src/arcsch.c", ["src/util.h", "takum.h"]),
  ("src/arcsec.c", ["src/util.h", "takum.h"]),
  ("src/arcsin.c", ["src/util.h"]),
  ("src/arctan.c", ["src/util.h"]),
  ("src/arctan2.c", ["src/util.h"]),
  ("src/arsech.c", ["src/util.h", "takum.h"]),
  ("src/arsinh.c", ["src/util.h"]),
  ("src/artanh.c", ["src/util.h"]),
  ("src/codec.c", ["takum.h", "src/codec.h", "src/util.h"]),
  ("src/codec.h", ["takum.h"]),
  ("src/conversion.c", ["takum.h", "src/codec.h", "src/util.h"]),
  ("src/cos.c", ["src/util.h"]),
  ("src/cosh.c", ["src/util.h"]),
  ("src/cot.c", ["src/util.h", "takum.h"]),
  ("src/coth.c", ["src/util.h", "takum.h"]),
  ("src/csc.c", ["src/util.h", "takum.h"]),
  ("src/csch.c", ["src/util.h", "takum.h"]),
  ("src/division.c", ["takum.h", "src/codec.h", "src/util.h"]),
  ("src/exp.c", ["src/util.h"]),
  ("src/hypotenuse.c", ["src/util.h"]),
  ("src/integer_power.c", ["takum.h", "src/codec.h", "src/util.h"]),
  ("src/inversion.c", ["takum.h", "src/util.h"]),
  ("src/lb.c", ["src/util.h"]),
  ("src/lg.c", ["src/util.h"]),
  ("src/ln.c", ["src/util.h"]),
  ("src/multiplication.c", ["takum.h", "src/codec.h", "src/util.h"]),
  ("src/power.c", ["src/util.h"]),
  ("src/precision.c", ["takum.h", "src/util.h"]),
  ("src/root.c", ["takum.h", "src/codec.h", "src/util.h"]),
  ("src/sec.c", ["src/util.h", "takum.h"]),
  ("src/sech.c", ["src/util.h", "takum.h"]),
  ("src/sign.c", ["takum.h", "src/util.h"]),
  ("src/sin.c", ["src/util.h"]),
  ("src/sinh.c", ["src/util.h"]),
  ("src/square_root.c", ["takum.h", "src/codec.h", "src/util.h"]),
  ("src/subtraction.c", ["takum.h", "src/codec.h", "src/util.h"]),
  ("src/tan.c", ["src/util.h"]),
  ("src/tanh.c", ["src/util.h"]),
  ("src/util.c", ["takum.h", "src/util.h"]),
  ("src/util.h", ["takum.h"]),
  ("test/10_raised.c", ["takum.h", "test/util.h"]),
  ("test/2_raised.c", ["takum.h", "test/util.h"]),
  ("test/absolute.c", ["takum.h", "test/util.h"]),
  ("test/addition.c", ["takum.h", "test/util.h"]),
  ("test/arccos.c", ["takum.h", "test/util.h"]),
  ("test/arccot.c", ["takum.h", "test/util.h"]),
  ("test/arccsc.c", ["takum.h", "test/util.h"]),
  ("test/arcosh.c", ["takum.h", "test/util.h"]),
  ("test/arcoth.c", ["takum.h", "test/util.h"]),
  ("test/arcsch.c", ["takum.h", "test/util.h"]),
  ("test/arcsec.c", ["takum.h", "test/util.h"]),
  ("test/arcsin.c", ["takum.h", "test/util.h"]),
  ("test/arctan.c", ["takum.h", "test/util.h"]),
  ("test/arctan2.c", ["takum.h", "test/util.h"]),
  ("test/arsech.c", ["takum.h", "test/util.h"]),
  ("test/arsinh.c", ["takum.h", "test/util.h"]),
  ("test/artanh.c", ["takum.h", "test/util.h"]),
  ("test/codec.c", ["takum.h", "test/util.h", "src/codec.h"]),
  ("test/constants.c", ["takum.h", "test/util.h"]),
  ("test/conversion.c", ["takum.h", "test/util.h"]),
  ("test/cos.c", ["takum.h", "test/util.h"]),
  ("test/cosh.c", ["takum.h", "test/util.h"]),
  ("test/cot.c", ["takum.h", "test/util.h"]),
  ("test/coth.c", ["takum.h", "test/util.h"]),
  ("test/csc.c", ["takum.h", "test/util.h"]),
  ("test/csch.c", ["takum.h", "test/util.h"]),
  ("test/division.c", ["takum.h", "test/util.h"]),
  ("test/exp.c", ["takum.h", "test/util.h"]),
  ("test/hypotenuse.c", ["takum.h", "test/util.h"]),
  ("test/integer_power.c", ["takum.h", "test/util.h"]),
  ("test/inversion.c", ["takum.h", "test/util.h"]),
  ("test/lb.c", ["takum.h", "test/util.h"]),
  ("test/lg.c", ["takum.h", "test/util.h"]),
  ("test/ln.c", ["takum.h", "test/util.h"]),
  ("test/multiplication.c", ["takum.h", "test/util.h"]),
  ("test/power.c", ["takum.h", "test/util.h"]),
  ("test/precision.c", ["takum.h", "test/util.h"]),
  ("test/root.c", ["takum.h", "test/util.h"]),
  ("test/sec.c", ["takum.h", "test/util.h"]),
  ("test/sech.c", ["takum.h", "test/util.h"]),
  ("test/sign.c", ["takum.h", "test/util.h"]),
  ("test/sin.c", ["takum.h", "test/util.h"]),
  ("test/sinh.c", ["takum.h", "test/util.h"]),
  ("test/square_root.c", ["takum.h", "test/util.h"]),
  ("test/subtraction.c", ["takum.h", "test/util.h"]),
  ("test/tan.c", ["takum.h", "test/util.h"]),
  ("test/tanh.c", ["takum.h", "test/util.h"]),
  ("test/util.c", ["takum.h", "test/util.h"]),
  ("test/util.h", ["takum.h"])]

/-- The objects: `$(EXAMPLE:=.o) example/util.o $(TEST:=.o) test/util.o $(SRC:=.o)` (Makefile:1219-1222). -/
def objects : List String := exampleNames ++ ["example/util"] ++ testNames ++ ["test/util"] ++ srcNames

/-- The prerequisites of an object; none when no line gives any (POSIX make takes the union, each object has at most one line). -/
def prerequisites (x : String) : List String := (objectRules.lookup x).getD []

/-- The prerequisites of a page. -/
def pagePrerequisites (f : Fn) : List Next := (pageRules.lookup f).getD []

end Takum.Make
