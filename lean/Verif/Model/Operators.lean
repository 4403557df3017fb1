import Verif.Model.Calculator

/-!
# example/calculator.c: the table of the operators

The table is copied entry by entry with the names of the functions. The names are resolved as a compiler would do
it; since `takumN` and `takum_linearN` are the same integer type in takum.h, a function of the wrong family would
pass the compiler, and is resolved here. A function of another width would not match the type of the field and is
not resolved.
-/

namespace Takum.Calc
open Spec (Kind)

/-- example/calculator.c:628-636, `enum operator_type`. -/
inductive OpType
  | help | power | precision | switchTakumType | takumInt64Takum | takumTakum | takumTakumTakum
  deriving DecidableEq, Repr

/-- example/calculator.c:642-690, the union `implementation`: absent, a type, or the eight functions in the order
of the fields. -/
inductive Impl
  | none
  | type (k : Kind) (w : W)
  | fns (takum8 takum16 takum32 takum64 linear8 linear16 linear32 linear64 : String)
  deriving DecidableEq, Repr

/-- example/calculator.c:638-690, an entry of `operators`. -/
structure Operator where
  identifier : String
  type : OpType
  implementation : Impl
  deriving DecidableEq, Repr

/-- example/calculator.c:691-1544, `operators`. -/
def operators : List Operator := [
  ⟨"?", .help, .none⟩,
  ⟨"+", .takumTakumTakum, .fns "takum8_addition" "takum16_addition" "takum32_addition" "takum64_addition"
    "takum_linear8_addition" "takum_linear16_addition" "takum_linear32_addition" "takum_linear64_addition"⟩,
  ⟨"-", .takumTakumTakum, .fns "takum8_subtraction" "takum16_subtraction" "takum32_subtraction"
    "takum64_subtraction" "takum_linear8_subtraction" "takum_linear16_subtraction" "takum_linear32_subtraction"
    "takum_linear64_subtraction"⟩,
  ⟨"*", .takumTakumTakum, .fns "takum8_multiplication" "takum16_multiplication" "takum32_multiplication"
    "takum64_multiplication" "takum_linear8_multiplication" "takum_linear16_multiplication"
    "takum_linear32_multiplication" "takum_linear64_multiplication"⟩,
  ⟨"/", .takumTakumTakum, .fns "takum8_division" "takum16_division" "takum32_division" "takum64_division"
    "takum_linear8_division" "takum_linear16_division" "takum_linear32_division" "takum_linear64_division"⟩,
  ⟨"^", .power, .none⟩,
  ⟨"abs", .takumTakum, .fns "takum8_absolute" "takum16_absolute" "takum32_absolute" "takum64_absolute"
    "takum_linear8_absolute" "takum_linear16_absolute" "takum_linear32_absolute" "takum_linear64_absolute"⟩,
  ⟨"arccos", .takumTakum, .fns "takum8_arccos" "takum16_arccos" "takum32_arccos" "takum64_arccos"
    "takum_linear8_arccos" "takum_linear16_arccos" "takum_linear32_arccos" "takum_linear64_arccos"⟩,
  ⟨"arccos_over_pi", .takumTakum, .fns "takum8_arccos_over_pi" "takum16_arccos_over_pi" "takum32_arccos_over_pi"
    "takum64_arccos_over_pi" "takum_linear8_arccos_over_pi" "takum_linear16_arccos_over_pi"
    "takum_linear32_arccos_over_pi" "takum_linear64_arccos_over_pi"⟩,
  ⟨"arccot", .takumTakum, .fns "takum8_arccot" "takum16_arccot" "takum32_arccot" "takum64_arccot"
    "takum_linear8_arccot" "takum_linear16_arccot" "takum_linear32_arccot" "takum_linear64_arccot"⟩,
  ⟨"arccot_over_pi", .takumTakum, .fns "takum8_arccot_over_pi" "takum16_arccot_over_pi" "takum32_arccot_over_pi"
    "takum64_arccot_over_pi" "takum_linear8_arccot_over_pi" "takum_linear16_arccot_over_pi"
    "takum_linear32_arccot_over_pi" "takum_linear64_arccot_over_pi"⟩,
  ⟨"arccsc", .takumTakum, .fns "takum8_arccsc" "takum16_arccsc" "takum32_arccsc" "takum64_arccsc"
    "takum_linear8_arccsc" "takum_linear16_arccsc" "takum_linear32_arccsc" "takum_linear64_arccsc"⟩,
  ⟨"arccsc_over_pi", .takumTakum, .fns "takum8_arccsc_over_pi" "takum16_arccsc_over_pi" "takum32_arccsc_over_pi"
    "takum64_arccsc_over_pi" "takum_linear8_arccsc_over_pi" "takum_linear16_arccsc_over_pi"
    "takum_linear32_arccsc_over_pi" "takum_linear64_arccsc_over_pi"⟩,
  ⟨"arcosh", .takumTakum, .fns "takum8_arcosh" "takum16_arcosh" "takum32_arcosh" "takum64_arcosh"
    "takum_linear8_arcosh" "takum_linear16_arcosh" "takum_linear32_arcosh" "takum_linear64_arcosh"⟩,
  ⟨"arcoth", .takumTakum, .fns "takum8_arcoth" "takum16_arcoth" "takum32_arcoth" "takum64_arcoth"
    "takum_linear8_arcoth" "takum_linear16_arcoth" "takum_linear32_arcoth" "takum_linear64_arcoth"⟩,
  ⟨"arcsch", .takumTakum, .fns "takum8_arcsch" "takum16_arcsch" "takum32_arcsch" "takum64_arcsch"
    "takum_linear8_arcsch" "takum_linear16_arcsch" "takum_linear32_arcsch" "takum_linear64_arcsch"⟩,
  ⟨"arcsec", .takumTakum, .fns "takum8_arcsec" "takum16_arcsec" "takum32_arcsec" "takum64_arcsec"
    "takum_linear8_arcsec" "takum_linear16_arcsec" "takum_linear32_arcsec" "takum_linear64_arcsec"⟩,
  ⟨"arcsec_over_pi", .takumTakum, .fns "takum8_arcsec_over_pi" "takum16_arcsec_over_pi" "takum32_arcsec_over_pi"
    "takum64_arcsec_over_pi" "takum_linear8_arcsec_over_pi" "takum_linear16_arcsec_over_pi"
    "takum_linear32_arcsec_over_pi" "takum_linear64_arcsec_over_pi"⟩,
  ⟨"arcsin", .takumTakum, .fns "takum8_arcsin" "takum16_arcsin" "takum32_arcsin" "takum64_arcsin"
    "takum_linear8_arcsin" "takum_linear16_arcsin" "takum_linear32_arcsin" "takum_linear64_arcsin"⟩,
  ⟨"arcsin_over_pi", .takumTakum, .fns "takum8_arcsin_over_pi" "takum16_arcsin_over_pi" "takum32_arcsin_over_pi"
    "takum64_arcsin_over_pi" "takum_linear8_arcsin_over_pi" "takum_linear16_arcsin_over_pi"
    "takum_linear32_arcsin_over_pi" "takum_linear64_arcsin_over_pi"⟩,
  ⟨"arctan2", .takumTakumTakum, .fns "takum8_arctan2" "takum16_arctan2" "takum32_arctan2" "takum64_arctan2"
    "takum_linear8_arctan2" "takum_linear16_arctan2" "takum_linear32_arctan2" "takum_linear64_arctan2"⟩,
  ⟨"arctan2_over_pi", .takumTakumTakum, .fns "takum8_arctan2_over_pi" "takum16_arctan2_over_pi"
    "takum32_arctan2_over_pi" "takum64_arctan2_over_pi" "takum_linear8_arctan2_over_pi"
    "takum_linear16_arctan2_over_pi" "takum_linear32_arctan2_over_pi" "takum_linear64_arctan2_over_pi"⟩,
  ⟨"arctan", .takumTakum, .fns "takum8_arctan" "takum16_arctan" "takum32_arctan" "takum64_arctan"
    "takum_linear8_arctan" "takum_linear16_arctan" "takum_linear32_arctan" "takum_linear64_arctan"⟩,
  ⟨"arctan_over_pi", .takumTakum, .fns "takum8_arctan_over_pi" "takum16_arctan_over_pi" "takum32_arctan_over_pi"
    "takum64_arctan_over_pi" "takum_linear8_arctan_over_pi" "takum_linear16_arctan_over_pi"
    "takum_linear32_arctan_over_pi" "takum_linear64_arctan_over_pi"⟩,
  ⟨"arsech", .takumTakum, .fns "takum8_arsech" "takum16_arsech" "takum32_arsech" "takum64_arsech"
    "takum_linear8_arsech" "takum_linear16_arsech" "takum_linear32_arsech" "takum_linear64_arsech"⟩,
  ⟨"arsinh", .takumTakum, .fns "takum8_arsinh" "takum16_arsinh" "takum32_arsinh" "takum64_arsinh"
    "takum_linear8_arsinh" "takum_linear16_arsinh" "takum_linear32_arsinh" "takum_linear64_arsinh"⟩,
  ⟨"artanh", .takumTakum, .fns "takum8_artanh" "takum16_artanh" "takum32_artanh" "takum64_artanh"
    "takum_linear8_artanh" "takum_linear16_artanh" "takum_linear32_artanh" "takum_linear64_artanh"⟩,
  ⟨"cos", .takumTakum, .fns "takum8_cos" "takum16_cos" "takum32_cos" "takum64_cos" "takum_linear8_cos"
    "takum_linear16_cos" "takum_linear32_cos" "takum_linear64_cos"⟩,
  ⟨"cos_pi_times", .takumTakum, .fns "takum8_cos_pi_times" "takum16_cos_pi_times" "takum32_cos_pi_times"
    "takum64_cos_pi_times" "takum_linear8_cos_pi_times" "takum_linear16_cos_pi_times"
    "takum_linear32_cos_pi_times" "takum_linear64_cos_pi_times"⟩,
  ⟨"cosh", .takumTakum, .fns "takum8_cosh" "takum16_cosh" "takum32_cosh" "takum64_cosh" "takum_linear8_cosh"
    "takum_linear16_cosh" "takum_linear32_cosh" "takum_linear64_cosh"⟩,
  ⟨"cot", .takumTakum, .fns "takum8_cot" "takum16_cot" "takum32_cot" "takum64_cot" "takum_linear8_cot"
    "takum_linear16_cot" "takum_linear32_cot" "takum_linear64_cot"⟩,
  ⟨"cot_pi_times", .takumTakum, .fns "takum8_cot_pi_times" "takum16_cot_pi_times" "takum32_cot_pi_times"
    "takum64_cot_pi_times" "takum_linear8_cot_pi_times" "takum_linear16_cot_pi_times"
    "takum_linear32_cot_pi_times" "takum_linear64_cot_pi_times"⟩,
  ⟨"coth", .takumTakum, .fns "takum8_coth" "takum16_coth" "takum32_coth" "takum64_coth" "takum_linear8_coth"
    "takum_linear16_coth" "takum_linear32_coth" "takum_linear64_coth"⟩,
  ⟨"csc", .takumTakum, .fns "takum8_csc" "takum16_csc" "takum32_csc" "takum64_csc" "takum_linear8_csc"
    "takum_linear16_csc" "takum_linear32_csc" "takum_linear64_csc"⟩,
  ⟨"csc_pi_times", .takumTakum, .fns "takum8_csc_pi_times" "takum16_csc_pi_times" "takum32_csc_pi_times"
    "takum64_csc_pi_times" "takum_linear8_csc_pi_times" "takum_linear16_csc_pi_times"
    "takum_linear32_csc_pi_times" "takum_linear64_csc_pi_times"⟩,
  ⟨"csch", .takumTakum, .fns "takum8_csch" "takum16_csch" "takum32_csch" "takum64_csch" "takum_linear8_csch"
    "takum_linear16_csch" "takum_linear32_csch" "takum_linear64_csch"⟩,
  ⟨"exp", .takumTakum, .fns "takum8_exp" "takum16_exp" "takum32_exp" "takum64_exp" "takum_linear8_exp"
    "takum_linear16_exp" "takum_linear32_exp" "takum_linear64_exp"⟩,
  ⟨"exp_minus_1", .takumTakum, .fns "takum8_exp_minus_1" "takum16_exp_minus_1" "takum32_exp_minus_1"
    "takum64_exp_minus_1" "takum_linear8_exp_minus_1" "takum_linear16_exp_minus_1" "takum_linear32_exp_minus_1"
    "takum_linear64_exp_minus_1"⟩,
  ⟨"hypotenuse", .takumTakumTakum, .fns "takum8_hypotenuse" "takum16_hypotenuse" "takum32_hypotenuse"
    "takum64_hypotenuse" "takum_linear8_hypotenuse" "takum_linear16_hypotenuse" "takum_linear32_hypotenuse"
    "takum_linear64_hypotenuse"⟩,
  ⟨"root", .takumInt64Takum, .fns "takum8_root" "takum16_root" "takum32_root" "takum64_root"
    "takum_linear8_root" "takum_linear16_root" "takum_linear32_root" "takum_linear64_root"⟩,
  ⟨"inv", .takumTakum, .fns "takum8_inversion" "takum16_inversion" "takum32_inversion" "takum64_inversion"
    "takum_linear8_inversion" "takum_linear16_inversion" "takum_linear32_inversion" "takum_linear64_inversion"⟩,
  ⟨"lb", .takumTakum, .fns "takum8_lb" "takum16_lb" "takum32_lb" "takum64_lb" "takum_linear8_lb"
    "takum_linear16_lb" "takum_linear32_lb" "takum_linear64_lb"⟩,
  ⟨"lb_1_plus", .takumTakum, .fns "takum8_lb_1_plus" "takum16_lb_1_plus" "takum32_lb_1_plus" "takum64_lb_1_plus"
    "takum_linear8_lb_1_plus" "takum_linear16_lb_1_plus" "takum_linear32_lb_1_plus" "takum_linear64_lb_1_plus"⟩,
  ⟨"lg", .takumTakum, .fns "takum8_lg" "takum16_lg" "takum32_lg" "takum64_lg" "takum_linear8_lg"
    "takum_linear16_lg" "takum_linear32_lg" "takum_linear64_lg"⟩,
  ⟨"lg_1_plus", .takumTakum, .fns "takum8_lg_1_plus" "takum16_lg_1_plus" "takum32_lg_1_plus" "takum64_lg_1_plus"
    "takum_linear8_lg_1_plus" "takum_linear16_lg_1_plus" "takum_linear32_lg_1_plus" "takum_linear64_lg_1_plus"⟩,
  ⟨"ln", .takumTakum, .fns "takum8_ln" "takum16_ln" "takum32_ln" "takum64_ln" "takum_linear8_ln"
    "takum_linear16_ln" "takum_linear32_ln" "takum_linear64_ln"⟩,
  ⟨"ln_1_plus", .takumTakum, .fns "takum8_ln_1_plus" "takum16_ln_1_plus" "takum32_ln_1_plus" "takum64_ln_1_plus"
    "takum_linear8_ln_1_plus" "takum_linear16_ln_1_plus" "takum_linear32_ln_1_plus" "takum_linear64_ln_1_plus"⟩,
  ⟨"precision", .precision, .none⟩,
  ⟨"sec", .takumTakum, .fns "takum8_sec" "takum16_sec" "takum32_sec" "takum64_sec" "takum_linear8_sec"
    "takum_linear16_sec" "takum_linear32_sec" "takum_linear64_sec"⟩,
  ⟨"sec_pi_times", .takumTakum, .fns "takum8_sec_pi_times" "takum16_sec_pi_times" "takum32_sec_pi_times"
    "takum64_sec_pi_times" "takum_linear8_sec_pi_times" "takum_linear16_sec_pi_times"
    "takum_linear32_sec_pi_times" "takum_linear64_sec_pi_times"⟩,
  ⟨"sech", .takumTakum, .fns "takum8_sech" "takum16_sech" "takum32_sech" "takum64_sech" "takum_linear8_sech"
    "takum_linear16_sech" "takum_linear32_sech" "takum_linear64_sech"⟩,
  ⟨"sign", .takumTakum, .fns "takum8_sign" "takum16_sign" "takum32_sign" "takum64_sign" "takum_linear8_sign"
    "takum_linear16_sign" "takum_linear32_sign" "takum_linear64_sign"⟩,
  ⟨"sin", .takumTakum, .fns "takum8_sin" "takum16_sin" "takum32_sin" "takum64_sin" "takum_linear8_sin"
    "takum_linear16_sin" "takum_linear32_sin" "takum_linear64_sin"⟩,
  ⟨"sin_pi_times", .takumTakum, .fns "takum8_sin_pi_times" "takum16_sin_pi_times" "takum32_sin_pi_times"
    "takum64_sin_pi_times" "takum_linear8_sin_pi_times" "takum_linear16_sin_pi_times"
    "takum_linear32_sin_pi_times" "takum_linear64_sin_pi_times"⟩,
  ⟨"sinh", .takumTakum, .fns "takum8_sinh" "takum16_sinh" "takum32_sinh" "takum64_sinh" "takum_linear8_sinh"
    "takum_linear16_sinh" "takum_linear32_sinh" "takum_linear64_sinh"⟩,
  ⟨"sqrt", .takumTakum, .fns "takum8_square_root" "takum16_square_root" "takum32_square_root"
    "takum64_square_root" "takum_linear8_square_root" "takum_linear16_square_root" "takum_linear32_square_root"
    "takum_linear64_square_root"⟩,
  ⟨"takum8", .switchTakumType, .type .log .w8⟩,
  ⟨"takum16", .switchTakumType, .type .log .w16⟩,
  ⟨"takum32", .switchTakumType, .type .log .w32⟩,
  ⟨"takum64", .switchTakumType, .type .log .w64⟩,
  ⟨"takum_linear8", .switchTakumType, .type .lin .w8⟩,
  ⟨"takum_linear16", .switchTakumType, .type .lin .w16⟩,
  ⟨"takum_linear32", .switchTakumType, .type .lin .w32⟩,
  ⟨"takum_linear64", .switchTakumType, .type .lin .w64⟩,
  ⟨"tan", .takumTakum, .fns "takum8_tan" "takum16_tan" "takum32_tan" "takum64_tan" "takum_linear8_tan"
    "takum_linear16_tan" "takum_linear32_tan" "takum_linear64_tan"⟩,
  ⟨"tan_pi_times", .takumTakum, .fns "takum8_tan_pi_times" "takum16_tan_pi_times" "takum32_tan_pi_times"
    "takum64_tan_pi_times" "takum_linear8_tan_pi_times" "takum_linear16_tan_pi_times"
    "takum_linear32_tan_pi_times" "takum_linear64_tan_pi_times"⟩,
  ⟨"tanh", .takumTakum, .fns "takum8_tanh" "takum16_tanh" "takum32_tanh" "takum64_tanh" "takum_linear8_tanh"
    "takum_linear16_tanh" "takum_linear32_tanh" "takum_linear64_tanh"⟩]

/-- The field of the implementation that is read for a type, for example `takum_linear8_function`
(example/calculator.c:1862-1943, 1958-2023, 2038-2119); `none` if the member of the union holds no functions. -/
def Impl.field : Impl → Kind → W → Option String
  | .fns a _ _ _ _ _ _ _, .log, .w8 => some a
  | .fns _ a _ _ _ _ _ _, .log, .w16 => some a
  | .fns _ _ a _ _ _ _ _, .log, .w32 => some a
  | .fns _ _ _ a _ _ _ _, .log, .w64 => some a
  | .fns _ _ _ _ a _ _ _, .lin, .w8 => some a
  | .fns _ _ _ _ _ a _ _, .lin, .w16 => some a
  | .fns _ _ _ _ _ _ a _, .lin, .w32 => some a
  | .fns _ _ _ _ _ _ _ a, .lin, .w64 => some a
  | _, _, _ => Option.none

/-- The functions of one takum that can stand in the table. -/
inductive Fn1
  | u (u : UFun) | absolute | inversion | sign | squareRoot
  deriving DecidableEq, Repr

/-- The functions of two takums that can stand in the table. -/
inductive Fn2
  | b (b : BFun) | addition | subtraction | multiplication | division
  deriving DecidableEq, Repr

/-- takum.h: the names of the functions of one takum, without the type. -/
def fn1Names : List (String × Fn1) := [
  ("10_raised", .u .ten_raised), ("10_raised_minus_1", .u .ten_raised_minus_1), ("2_raised", .u .two_raised),
  ("2_raised_minus_1", .u .two_raised_minus_1), ("exp", .u .exp), ("exp_minus_1", .u .exp_minus_1),
  ("ln", .u .ln), ("ln_1_plus", .u .ln_1_plus), ("lb", .u .lb), ("lb_1_plus", .u .lb_1_plus), ("lg", .u .lg),
  ("lg_1_plus", .u .lg_1_plus), ("sin", .u .sin), ("cos", .u .cos), ("tan", .u .tan), ("csc", .u .csc),
  ("sec", .u .sec), ("cot", .u .cot), ("sin_pi_times", .u .sin_pi_times), ("cos_pi_times", .u .cos_pi_times),
  ("tan_pi_times", .u .tan_pi_times), ("csc_pi_times", .u .csc_pi_times), ("sec_pi_times", .u .sec_pi_times),
  ("cot_pi_times", .u .cot_pi_times), ("arcsin", .u .arcsin), ("arccos", .u .arccos), ("arctan", .u .arctan),
  ("arccsc", .u .arccsc), ("arcsec", .u .arcsec), ("arccot", .u .arccot), ("arcsin_over_pi", .u .arcsin_over_pi),
  ("arccos_over_pi", .u .arccos_over_pi), ("arctan_over_pi", .u .arctan_over_pi),
  ("arccsc_over_pi", .u .arccsc_over_pi), ("arcsec_over_pi", .u .arcsec_over_pi),
  ("arccot_over_pi", .u .arccot_over_pi), ("sinh", .u .sinh), ("cosh", .u .cosh), ("tanh", .u .tanh),
  ("csch", .u .csch), ("sech", .u .sech), ("coth", .u .coth), ("arsinh", .u .arsinh), ("arcosh", .u .arcosh),
  ("artanh", .u .artanh), ("arcsch", .u .arcsch), ("arsech", .u .arsech), ("arcoth", .u .arcoth),
  ("absolute", .absolute), ("inversion", .inversion), ("sign", .sign), ("square_root", .squareRoot)]

/-- takum.h: the names of the functions of two takums, without the type. -/
def fn2Names : List (String × Fn2) := [
  ("addition", .addition), ("subtraction", .subtraction), ("multiplication", .multiplication),
  ("division", .division), ("arctan2", .b .arctan2), ("arctan2_over_pi", .b .arctan2_over_pi),
  ("hypotenuse", .b .hypotenuse), ("power", .b .power)]

/-- The function itself: src/sign.c, src/absolute.c, src/inversion.c, src/square_root.c and the files cited at
`UFun.evl`; the linear functions `sign` and `absolute` have the same text (src/sign.c:42-77,
src/absolute.c:30-52). -/
def Fn1.run (L : Libm) : Fn1 → Kind → (w : W) → T w → C (T w)
  | .u g, k, w => g.call L k w
  | .absolute, _, w => Takum.absolute w
  | .inversion, .log, w => inversionC w
  | .inversion, .lin, w => linInversion w
  | .sign, _, w => signC w
  | .squareRoot, .log, w => Takum.squareRoot w
  | .squareRoot, .lin, w => linSquareRoot w

/-- The function itself: src/addition.c, src/subtraction.c, src/multiplication.c, src/division.c and the files cited
at `BFun.ev`. -/
def Fn2.run (L : Libm) : Fn2 → Kind → (w : W) → T w → T w → C (T w)
  | .b g, k, w => g.call L k w
  | .addition, .log, w => Takum.addition L w
  | .addition, .lin, w => linAddition w
  | .subtraction, .log, w => Takum.subtraction L w
  | .subtraction, .lin, w => linSubtraction w
  | .multiplication, .log, w => Takum.multiplication w
  | .multiplication, .lin, w => linMultiplication w
  | .division, .log, w => Takum.division w
  | .division, .lin, w => linDivision w

/-- src/root.c: `takumN_root`, `takum_linearN_root`. -/
def rootOf (L : Libm) : Kind → (w : W) → T w → BitVec 64 → C (T w)
  | .log, w => root w
  | .lin, w => linRoot L w

/-- The names of the types (takum.h), with the underscore that follows in the name of a function. -/
def typePrefix : Kind → W → String
  | .log, .w8 => "takum8_"
  | .log, .w16 => "takum16_"
  | .log, .w32 => "takum32_"
  | .log, .w64 => "takum64_"
  | .lin, .w8 => "takum_linear8_"
  | .lin, .w16 => "takum_linear16_"
  | .lin, .w32 => "takum_linear32_"
  | .lin, .w64 => "takum_linear64_"

/-- The text after a prefix. -/
def strip : List Char → List Char → Option (List Char)
  | [], s => some s
  | _ :: _, [] => none
  | a :: p, b :: s => if a = b then strip p s else none

/-- What the compiler makes of a name in a field for width `w`: the family and the entry of the list of names. -/
def resolve {α : Type} (names : List (String × α)) (w : W) (s : String) : Option (Kind × α) :=
  match strip (typePrefix .log w).toList s.toList with
  | some r => (names.find? fun p => p.1.toList = r).map fun p => (.log, p.2)
  | none =>
    match strip (typePrefix .lin w).toList s.toList with
    | some r => (names.find? fun p => p.1.toList = r).map fun p => (.lin, p.2)
    | none => none

end Takum.Calc
