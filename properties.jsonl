{"id": "C01", "title": "Integer order is numeric order (logarithmic takums)", "statement": "For two logarithmic takums of the same width that are not NaR, comparing them with C's < on the integer type gives exactly the order of the represented real numbers; different bit patterns represent different numbers; NaR compares below every other takum.", "quantifier": "all pairs of bit patterns, widths 8, 16, 32 and 64", "why_tests_cant": "The 64-bit (and for binary functions the 32-bit) domain cannot be enumerated; the project's own tests sample about 2^22 patterns and accept a deviation of one unit.", "anchors": ["takum.h: takum8, takum16, takum32, takum64, TAKUM8_NAR", "src/codec.c: codec_takum8_to_l, codec_takum16_to_l, codec_takum32_to_l, codec_takum64_to_l", "man/libtakum.sh"]}
{"id": "C02", "title": "Integer order is numeric order (linear takums)", "statement": "For two linear takums of the same width that are not NaR, the integer comparison a < b holds exactly when the represented number of a is smaller than that of b; NaR compares below everything else.", "quantifier": "all pairs of bit patterns, widths 8, 16, 32 and 64", "why_tests_cant": "The 64-bit (and for binary functions the 32-bit) domain cannot be enumerated; the project's own tests sample about 2^22 patterns and accept a deviation of one unit.", "anchors": ["takum.h: takum_linear8 … takum_linear64", "src/codec.c: codec_s_and_linear_l_to_float64, codec_s_and_linear_l_to_extended_float", "man/libtakum.sh"]}
{"id": "C03", "title": "Integer negation negates the number", "statement": "Negating the integer of a takum (modulo 2^n) negates the represented number, for logarithmic and linear takums; 0 and NaR are their own negatives and are the only fixed points.", "quantifier": "all bit patterns, widths 8, 16, 32 and 64, both number families", "why_tests_cant": "The 64-bit (and for binary functions the 32-bit) domain cannot be enumerated; the project's own tests sample about 2^22 patterns and accept a deviation of one unit.", "anchors": ["man/libtakum.sh", "takum.h", "src/codec.c: codec_takum64_to_l"]}
{"id": "C04", "title": "Decoding a linear takum to a float is exact", "statement": "takum_linearN_to_float64 for N = 8, 16, 32 and takum_linearN_to_extended_float for N = 8, 16, 32, 64 return exactly the represented number (no rounding, no overflow, no underflow); 0 maps to 0 and NaR to NaN. takum_linear64_to_float64 and the float32 functions return that number correctly rounded to the target format (float32 possibly overflowing to infinity), the 64-bit to float32 path up to double rounding.", "quantifier": "all bit patterns of every width", "why_tests_cant": "The 64-bit (and for binary functions the 32-bit) domain cannot be enumerated; the project's own tests sample about 2^22 patterns and accept a deviation of one unit.", "anchors": ["src/conversion.c: takum_linear8_to_float64 … takum_linear64_to_extended_float", "src/codec.c: codec_s_and_linear_l_to_float64, codec_s_and_linear_l_to_extended_float"]}
{"id": "C05", "title": "Linear takum survives a trip through a float", "statement": "Converting a linear takum to float64 (widths 8, 16, 32) or extended float (all widths) and back with the matching from function returns the identical bit pattern, NaR and 0 included.", "quantifier": "all bit patterns of every width", "why_tests_cant": "The 64-bit (and for binary functions the 32-bit) domain cannot be enumerated; the project's own tests sample about 2^22 patterns and accept a deviation of one unit.", "anchors": ["src/conversion.c: takum_linear8_from_float64 … takum_linear64_from_extended_float, takum_linear64_to_extended_float", "test/conversion.c"]}
{"id": "C06", "title": "Floats inside the takum range survive a trip through takum_linear64", "statement": "For every float64 value f with 2^-255 < |f| < 2^255, takum_linear64_to_float64(takum_linear64_from_float64(f)) equals f; for every finite float32 f the same holds through float32.", "quantifier": "all finite float64 / float32 values in the stated range", "why_tests_cant": "There are about 2^63 such float64 values; the test suite samples 2^22 of them.", "anchors": ["src/conversion.c: takum_linear64_from_float64, takum_linear64_to_float64, takum_linear64_from_float32, takum_linear64_to_float32", "test/conversion.c"]}
{"id": "C07", "title": "Float to linear takum: zero, NaR, sign, saturation", "statement": "takum_linearN_from_float32/float64/extended_float return 0 exactly for a zero argument, NaR exactly for NaN and the infinities, and otherwise a non-zero, non-NaR takum with the sign of the argument; no magnitude, however large or small (subnormals included), turns into 0 or NaR.", "quantifier": "all float32, float64 and x87 extended values, all widths", "why_tests_cant": "The argument spaces have 2^32 to 2^80 elements.", "anchors": ["src/conversion.c: takum_linear8_from_float32 … takum_linear64_from_extended_float", "src/codec.c: codec_linear_l_from_float32, codec_linear_l_from_float64, codec_linear_l_from_extended_float", "man/template/conversion.sh"]}
{"id": "C08", "title": "Float to linear takum is monotone", "statement": "If f <= g are finite floats then the takum obtained from f is not larger (as an integer, hence as a number) than the takum obtained from g, for each of the twelve takum_linearN_from_* functions.", "quantifier": "all pairs of finite floats of each format, all widths", "why_tests_cant": "Pairs of 64/80-bit floats cannot be enumerated; monotonicity breaks only at isolated rounding boundaries.", "anchors": ["src/conversion.c", "src/codec.c: codec_takum16_from_s_and_l, codec_takum32_from_s_and_l, codec_takum64_from_s_and_l"]}
{"id": "C09", "title": "Float to linear32/linear64 is correctly rounded", "statement": "takum_linear32_from_float32, takum_linear64_from_float32, takum_linear32_from_float64 and takum_linear64_from_float64 return, for a finite non-zero argument, the non-zero non-NaR takum nearest to the argument, ties going to the even bit pattern, arguments beyond the range saturating.", "quantifier": "all finite non-zero float32/float64 arguments", "why_tests_cant": "Only an exhaustive comparison could show it; tests accept an off-by-one result.", "anchors": ["src/conversion.c: takum_linear32_from_float64, takum_linear64_from_float64", "man/template/conversion.sh"]}
{"id": "C10", "title": "Float to linear takum never skips a representable number", "statement": "All twelve takum_linearN_from_* functions are faithful: if a takum's number is <= f then the result is >= that takum, and symmetrically; in particular a number that is representable is returned unchanged.", "quantifier": "all finite floats of each format and all takums of each width", "why_tests_cant": "Quantifies over float/takum pairs.", "anchors": ["src/conversion.c: takum_linear8_from_float32 … takum_linear64_from_extended_float"]}
{"id": "C11", "title": "Conversion from float to linear takum is odd", "statement": "takum_linearN_from_X(-f) is the integer negation of takum_linearN_from_X(f) for every f (NaR for non-finite f), for all widths and the three float formats.", "quantifier": "all floats of each format", "why_tests_cant": "The 64-bit (and for binary functions the 32-bit) domain cannot be enumerated; the project's own tests sample about 2^22 patterns and accept a deviation of one unit.", "anchors": ["src/conversion.c", "src/codec.c"]}
{"id": "C12", "title": "The documented proper rounding holds for every float to linear takum conversion", "statement": "The manual states that conversions round properly: the result of takum_linear8/16_from_* and takum_linear32/64_from_extended_float is the takum nearest to the argument (ties to even).", "quantifier": "all finite non-zero floats", "why_tests_cant": "The deviating arguments are extremely sparse and the tests allow an off-by-one result.", "anchors": ["man/template/conversion.sh", "src/conversion.c: takum_linear16_from_float32, takum_linear16_from_float64, takum_linear8_from_float64, takum_linear64_from_extended_float"]}
{"id": "C13", "title": "Widening is exact", "statement": "takumM_from_takumN and takum_linearM_from_takum_linearN with M > N return a takum that represents exactly the same number (NaR to NaR, 0 to 0).", "quantifier": "all bit patterns, all six width pairs, both families", "why_tests_cant": "The 64-bit (and for binary functions the 32-bit) domain cannot be enumerated; the project's own tests sample about 2^22 patterns and accept a deviation of one unit.", "anchors": ["src/conversion.c: TAKUM_INTERNAL_CONVERT_EXPAND, takum16_from_takum8 … takum_linear64_from_takum_linear32"]}
{"id": "C14", "title": "Narrowing after widening is the identity; widening is path independent", "statement": "Narrowing a widened takum back to its original width returns the original bit pattern, and widening in two steps equals widening in one step.", "quantifier": "all bit patterns, all width chains", "why_tests_cant": "The 64-bit (and for binary functions the 32-bit) domain cannot be enumerated; the project's own tests sample about 2^22 patterns and accept a deviation of one unit.", "anchors": ["src/conversion.c: TAKUM_INTERNAL_CONVERT_EXPAND, TAKUM_INTERNAL_CONVERT_REDUCE"]}
{"id": "C15", "title": "Narrowing rounds to nearest, ties to even", "statement": "takumM_from_takumN and the linear versions with M < N return, for a non-zero non-NaR argument, the non-zero non-NaR M-bit takum whose logarithmic-scale value is nearest to that of the argument, ties going to the even bit pattern, with saturation at the largest and smallest magnitudes; for linear takums of at least 16 bits the same holds for the represented number itself.", "quantifier": "all bit patterns, all six width pairs, both families", "why_tests_cant": "The 64-bit (and for binary functions the 32-bit) domain cannot be enumerated; the project's own tests sample about 2^22 patterns and accept a deviation of one unit.", "anchors": ["src/conversion.c: TAKUM_INTERNAL_CONVERT_REDUCE", "src/util.c: util_round_uint64_to_number_of_bits", "man/template/conversion.sh"]}
{"id": "C16", "title": "Narrowing keeps NaR, zero and sign, and saturates", "statement": "Narrowing returns NaR exactly for NaR, 0 exactly for 0, and keeps the sign of every other takum; overflow and underflow saturate at the extreme takum instead of becoming NaR or 0.", "quantifier": "all bit patterns, all six width pairs, both families", "why_tests_cant": "The 64-bit (and for binary functions the 32-bit) domain cannot be enumerated; the project's own tests sample about 2^22 patterns and accept a deviation of one unit.", "anchors": ["src/conversion.c: TAKUM_INTERNAL_CONVERT_REDUCE"]}
{"id": "C17", "title": "Narrowing is monotone and commutes with negation and inversion", "statement": "a <= b implies narrow(a) <= narrow(b); narrow(-a) = -narrow(a); and for logarithmic takums narrow(inversion(a)) = inversion(narrow(a)) for a neither 0 nor NaR.", "quantifier": "all pairs of bit patterns, all six width pairs", "why_tests_cant": "The 64-bit (and for binary functions the 32-bit) domain cannot be enumerated; the project's own tests sample about 2^22 patterns and accept a deviation of one unit.", "anchors": ["src/conversion.c: TAKUM_INTERNAL_CONVERT_REDUCE", "src/inversion.c"]}
{"id": "C18", "title": "Narrowing in two steps", "statement": "Narrowing 64 to 32 to 16 (to 8) bits gives the same takum as narrowing directly.", "quantifier": "all bit patterns, all width chains", "why_tests_cant": "The difference appears only for patterns that round onto a tie in the first step, which random samples hit rarely.", "anchors": ["src/conversion.c: takum8_from_takum64, takum8_from_takum16, takum16_from_takum64, takum16_from_takum32"]}
{"id": "C19", "title": "Logarithmic inversion is lossless", "statement": "For a logarithmic takum that is neither 0 nor NaR, takumN_inversion returns the takum representing exactly the reciprocal number; it is its own inverse, keeps the sign and commutes with negation. 0 and NaR give NaR.", "quantifier": "all bit patterns of every width", "why_tests_cant": "The 64-bit (and for binary functions the 32-bit) domain cannot be enumerated; the project's own tests sample about 2^22 patterns and accept a deviation of one unit.", "anchors": ["src/inversion.c: takum8_inversion, takum16_inversion, takum32_inversion, takum64_inversion", "man/libtakum.sh"]}
{"id": "C20", "title": "Inversion reverses order", "statement": "For logarithmic takums 0 < a < b implies inversion(b) < inversion(a) and likewise for negative arguments; 1 is the only positive fixed point.", "quantifier": "all pairs of bit patterns of one sign", "why_tests_cant": "The 64-bit (and for binary functions the 32-bit) domain cannot be enumerated; the project's own tests sample about 2^22 patterns and accept a deviation of one unit.", "anchors": ["src/inversion.c"]}
{"id": "C21", "title": "Absolute value", "statement": "takumN_absolute and takum_linearN_absolute return the takum representing the absolute value of the argument's number; NaR gives NaR.", "quantifier": "all bit patterns, all widths, both families", "why_tests_cant": "Undefined behaviour (signed overflow) cannot be observed reliably by running a test; it depends on compiler and flags.", "anchors": ["src/absolute.c: takum8_absolute … takum_linear64_absolute", "man/libtakum.sh"]}
{"id": "C22", "title": "Sign function", "statement": "takumN_sign and takum_linearN_sign return the takum representing -1, 0 or 1 according to the sign of the argument's number and NaR for NaR, and sign(t) * absolute(t) multiplies back to t.", "quantifier": "all bit patterns, all widths, both families", "why_tests_cant": "The 64-bit (and for binary functions the 32-bit) domain cannot be enumerated; the project's own tests sample about 2^22 patterns and accept a deviation of one unit.", "anchors": ["src/sign.c"]}
{"id": "C23", "title": "Precision is the number of mantissa bits", "statement": "takumN_precision returns the number of mantissa bits of the bit pattern according to the format definition (clamped at 0 when the pattern ends inside the characteristic) and the worst case n-12 (0 for 8 bits) for 0 and NaR; it always lies between max(n-12,0) and n-5, and changing any mantissa bit leaves it unchanged.", "quantifier": "all bit patterns, all widths, both families", "why_tests_cant": "The 64-bit (and for binary functions the 32-bit) domain cannot be enumerated; the project's own tests sample about 2^22 patterns and accept a deviation of one unit.", "anchors": ["src/precision.c"]}
{"id": "C24", "title": "Logarithmic multiplication: algebraic laws", "statement": "takumN_multiplication is commutative, has TAKUMN_ONE as identity, 0 times a non-NaR is 0, NaR absorbs, the sign of a product of non-zero arguments is the product of signs, multiplying by -ONE negates (8, 16 and 32 bits), and a product of non-zero non-NaR arguments is never 0 or NaR.", "quantifier": "all pairs of bit patterns, all widths", "why_tests_cant": "Pairs of 32/64-bit patterns cannot be enumerated.", "anchors": ["src/multiplication.c: takum8_multiplication … takum64_multiplication"]}
{"id": "C25", "title": "Logarithmic multiplication is correctly rounded", "statement": "The result of takumN_multiplication for non-zero non-NaR arguments is the takum nearest to the exact product on the logarithmic scale (ties to even, saturating), for 8, 16, 32 and 64 bits.", "quantifier": "all pairs of bit patterns, all widths", "why_tests_cant": "Only a handful of 64-bit pairs deviate; tests allow an off-by-one result.", "anchors": ["src/multiplication.c", "src/codec.c: codec_takum64_to_l, codec_takum64_from_s_and_l"]}
{"id": "C26", "title": "Logarithmic division: algebraic laws", "statement": "a/0 is NaR (also 0/0), NaR absorbs, 0/b = 0 for b neither 0 nor NaR, a/ONE = a, a/a = ONE for a neither 0 nor NaR, a/b = multiplication(a, inversion(b)), ONE/b = inversion(b), and a quotient of non-zero non-NaR arguments is never 0 or NaR.", "quantifier": "all pairs of bit patterns, all widths", "why_tests_cant": "Pairs of 32/64-bit patterns cannot be enumerated.", "anchors": ["src/division.c: takum8_division … takum64_division", "src/inversion.c", "src/multiplication.c"]}
{"id": "C27", "title": "Logarithmic division is correctly rounded", "statement": "The result of takumN_division for non-zero non-NaR arguments is the takum nearest to the exact quotient on the logarithmic scale (ties to even, saturating).", "quantifier": "all pairs of bit patterns, all widths", "why_tests_cant": "Tests allow an off-by-one result and sample pairs.", "anchors": ["src/division.c"]}
{"id": "C28", "title": "Logarithmic square root", "statement": "takumN_square_root returns NaR exactly for negative arguments and NaR, 0 for 0, and otherwise the takum nearest (logarithmic scale, ties to even) to the exact square root; it is monotone.", "quantifier": "all bit patterns, all widths", "why_tests_cant": "The 64-bit (and for binary functions the 32-bit) domain cannot be enumerated; the project's own tests sample about 2^22 patterns and accept a deviation of one unit.", "anchors": ["src/square_root.c: takum8_square_root … takum64_square_root"]}
{"id": "C29", "title": "Logarithmic integer power", "statement": "takumN_integer_power (8, 16, 32 bits): NaR exactly for NaR or a zero base with n <= 0; 0^n = 0 for n > 0; t^0 = ONE for t neither 0 nor NaR; t^1 = t; t^-1 = inversion(t); t^2 = multiplication(t,t); the result is negative exactly for a negative base and odd n; results of a non-zero base saturate and are never 0 or NaR.", "quantifier": "all bit patterns and all 2^64 exponents", "why_tests_cant": "Product of a 2^32 and a 2^64 domain.", "anchors": ["src/integer_power.c"]}
{"id": "C30", "title": "Logarithmic root", "statement": "takumN_root: NaR exactly for NaR, n = 0, a negative radicand with even n, or a zero radicand with n < 0; 0 for a zero radicand with n > 0; root(t,1) = t; root(t,-1) = inversion(t); root(t,2) = square_root(t); the sign of the radicand is kept for odd n; results for non-zero radicands are never 0 or NaR.", "quantifier": "all bit patterns and all 2^64 indices", "why_tests_cant": "Product of a 2^64 and a 2^64 domain.", "anchors": ["src/root.c", "src/square_root.c", "src/inversion.c"]}
{"id": "C31", "title": "Odd roots are odd functions", "statement": "For odd n, takumN_root(-t, n) = -takumN_root(t, n) for logarithmic takums of every width.", "quantifier": "all bit patterns t, all odd n", "why_tests_cant": "Deviating pairs are isolated (the residue of an integer division decides).", "anchors": ["src/root.c: takum64_root", "src/codec.c: extended_float_fraction_to_rounded_bits"]}
{"id": "C32", "title": "Multiplication and division are monotone", "statement": "For logarithmic takums, a <= b and 0 < c imply a*c <= b*c and a/c <= b/c (NaR excluded); with c < 0 the order is reversed for 8, 16 and 32 bits.", "quantifier": "all triples of bit patterns, all widths", "why_tests_cant": "Triples cannot be enumerated even for 16 bits by the existing tests.", "anchors": ["src/multiplication.c", "src/division.c"]}
{"id": "C33", "title": "Linear addition and subtraction: algebraic laws", "statement": "takum_linearN_addition is commutative, has 0 as identity, NaR absorbs, t + (-t) = 0 and (-a)+(-b) = -(a+b); takum_linearN_subtraction(a,b) = addition(a,-b); a - a = 0; the sum of non-NaR takums is never NaR and is 0 only when b = -a.", "quantifier": "all pairs of bit patterns, all widths", "why_tests_cant": "Pairs of 32/64-bit patterns cannot be enumerated.", "anchors": ["src/addition.c", "src/subtraction.c", "src/util.h: UTIL_BINARY_FLOAT_TAKUM_LINEAR_WRAPPER"]}
{"id": "C34", "title": "Linear multiplication: algebraic laws", "statement": "takum_linearN_multiplication is commutative, has TAKUM_LINEARN_ONE as identity, 0 absorbs non-NaR, NaR absorbs, obeys the sign rule including multiplication by -t, and never yields 0 or NaR for non-zero non-NaR arguments.", "quantifier": "all pairs of bit patterns, all widths", "why_tests_cant": "Pairs of 32/64-bit patterns cannot be enumerated.", "anchors": ["src/multiplication.c", "src/util.h"]}
{"id": "C35", "title": "Linear division and inversion: algebraic laws", "statement": "takum_linearN_division: a/0 = NaR, NaR absorbs, 0/b = 0, a/ONE = a, a/a = ONE, sign rule, never 0 or NaR for non-zero non-NaR arguments; takum_linearN_inversion(t) = division(ONE,t) for 8, 16, 32 and 64 bits, is NaR exactly for 0 and NaR, and inverts powers of two exactly.", "quantifier": "all pairs of bit patterns, all widths", "why_tests_cant": "Pairs of 32/64-bit patterns cannot be enumerated.", "anchors": ["src/division.c", "src/inversion.c", "src/util.h"]}
{"id": "C36", "title": "Linear addition, multiplication and division are monotone", "statement": "For linear takums a <= b (not NaR) implies a + c <= b + c, a*c <= b*c for c > 0 and a/c <= b/c for c > 0.", "quantifier": "all triples of bit patterns, all widths", "why_tests_cant": "Triples cannot be enumerated.", "anchors": ["src/addition.c", "src/multiplication.c", "src/division.c"]}
{"id": "C37", "title": "Linear 8/16-bit addition and multiplication are correctly rounded", "statement": "takum_linear8/16_addition and takum_linear8/16_multiplication return the takum nearest (ties to even, saturating) to the exact sum/product (for 8 bits nearest on the logarithmic-linear scale of the format).", "quantifier": "all pairs of bit patterns", "why_tests_cant": "Tests sample pairs and accept an off-by-one result.", "anchors": ["src/addition.c", "src/multiplication.c", "src/conversion.c: takum_linear16_from_float64"]}
{"id": "C38", "title": "Linear square root", "statement": "takum_linearN_square_root is NaR exactly for negative arguments and NaR, maps 0 to 0, never returns 0 or NaR for a positive argument and is monotone, given an IEEE-754 correctly rounded sqrt.", "quantifier": "all bit patterns, all widths", "why_tests_cant": "The 64-bit (and for binary functions the 32-bit) domain cannot be enumerated; the project's own tests sample about 2^22 patterns and accept a deviation of one unit.", "anchors": ["src/square_root.c"]}
{"id": "C39", "title": "NaR in, NaR out: unary functions", "statement": "Every unary function of the library (conversions between takum types, exp, ln, lb, lg and their _1_plus/_minus_1 forms, 2_raised, 10_raised, trigonometric, hyperbolic, inverse and pi-scaled functions, square_root, inversion, sign, absolute) returns NaR when its argument is NaR, for all eight takum types.", "quantifier": "all unary functions, all types, all C99 Annex F conforming math libraries", "why_tests_cant": "Depends on the special-value behaviour of any conforming libm, not of the one used by a test run.", "anchors": ["man/libtakum.sh", "src/util.h: UTIL_UNARY_FLOAT_TAKUM_WRAPPER, UTIL_UNARY_FLOAT_TAKUM_LINEAR_WRAPPER", "src/exp.c", "src/sin.c"]}
{"id": "C40", "title": "NaR in, NaR out: binary functions", "statement": "Every binary function (addition, subtraction, multiplication, division, hypotenuse, arctan2, arctan2_over_pi, power, integer_power, root) returns NaR when a takum argument is NaR.", "quantifier": "all argument pairs with a NaR, all types", "why_tests_cant": "The second argument ranges over the whole type; the violating partner values of power are single points.", "anchors": ["man/libtakum.sh", "src/power.c", "src/hypotenuse.c", "src/arctan2.c"]}
{"id": "C41", "title": "Power: documented NaR condition", "statement": "takumN_power and takum_linearN_power return NaR when the base is zero and the exponent is less than or equal to zero.", "quantifier": "all exponents <= 0, all types", "why_tests_cant": "Single offending point.", "anchors": ["man/takum64_power.sh", "src/power.c: RESULT_FIXER_MACRO"]}
{"id": "C42", "title": "Exponentials saturate instead of reaching 0 or NaR", "statement": "exp, 2_raised and 10_raised of any non-NaR takum return a positive takum (never 0, never NaR, never negative), for all eight types, whatever the accuracy of the math library, as long as it returns a non-negative non-NaN result for a finite argument.", "quantifier": "all bit patterns, all types, all math libraries satisfying the stated minimum", "why_tests_cant": "Saturation points depend on the libm; 64-bit domains.", "anchors": ["src/exp.c", "src/2_raised.c", "src/10_raised.c"]}
{"id": "C43", "title": "Logarithms: documented NaR condition", "statement": "ln, lb and lg return NaR exactly when the argument is NaR or <= 0; ln_1_plus, lb_1_plus and lg_1_plus return NaR exactly when the argument is NaR or <= -1.", "quantifier": "all bit patterns, all types, all Annex F libraries", "why_tests_cant": "The 64-bit (and for binary functions the 32-bit) domain cannot be enumerated; the project's own tests sample about 2^22 patterns and accept a deviation of one unit.", "anchors": ["src/ln.c", "src/lb.c", "src/lg.c", "man/takum64_ln.sh", "man/takum64_ln_1_plus.sh"]}
{"id": "C44", "title": "Hyperbolic functions never overflow to NaR", "statement": "sinh, cosh, tanh, sech and exp_minus_1 of a non-NaR takum are never NaR; coth and csch are NaR only for 0 and NaR; cosh and sech are never 0; sign of sinh follows the argument.", "quantifier": "all bit patterns, all types, all Annex F libraries", "why_tests_cant": "The 64-bit (and for binary functions the 32-bit) domain cannot be enumerated; the project's own tests sample about 2^22 patterns and accept a deviation of one unit.", "anchors": ["src/sinh.c", "src/cosh.c", "src/tanh.c", "src/sech.c", "src/csch.c", "src/coth.c"]}
{"id": "C45", "title": "Pi-scaled trigonometric functions at special points are sign symmetric", "statement": "At integers and half-integers, sin_pi_times, cos_pi_times, tan_pi_times, csc_pi_times, sec_pi_times and cot_pi_times return the exact value (or NaR at poles) for positive and for negative arguments alike; csc_pi_times and cot_pi_times are NaR at every integer.", "quantifier": "all integral and half-integral takums of the linear types", "why_tests_cant": "The behaviour at negative special points depends on the libm's rounding; tests allow tolerance.", "anchors": ["src/sin.c: sinpil", "src/cos.c: cospil", "src/tan.c: tanpil", "src/csc.c: csc_pi_timesl", "src/sec.c: sec_pi_timesl", "src/cot.c: cot_pi_timesl", "man/takum64_csc_pi_times.sh"]}
{"id": "C46", "title": "Float to logarithmic takum: zero, NaR, sign, saturation", "statement": "takumN_from_float32/float64/extended_float return 0 exactly for zero, NaR exactly for non-finite arguments, and otherwise a non-zero non-NaR takum with the sign of the argument, for every math library whose logarithm of a positive finite number is finite.", "quantifier": "all floats of each format, all widths, all such libraries", "why_tests_cant": "Argument spaces of 2^32 to 2^80 elements.", "anchors": ["src/conversion.c: takum8_from_float32 … takum64_from_extended_float"]}
{"id": "C47", "title": "Logarithmic takum survives a trip through extended float / float64", "statement": "takumN_from_extended_float(takumN_to_extended_float(t)) = t for 8, 16, 32 and 64 bits and takumN_from_float64(takumN_to_float64(t)) = t for 8, 16 and 32 bits, for every math library whose pow and log have a small relative error (a few units in the last place).", "quantifier": "all bit patterns, all widths, all math libraries within the error bound", "why_tests_cant": "A test run covers one libm and samples the 32/64-bit patterns.", "anchors": ["src/conversion.c: takum64_to_extended_float, takum64_from_extended_float", "src/util.h: SQRTE", "test/conversion.c"]}
{"id": "C48", "title": "Logarithmic takum to float: zero, NaN, sign, order", "statement": "takumN_to_* maps 0 to +0, NaR to NaN, and a non-zero takum to a float of the same sign (never NaN); to extended float and float64 the result is finite and non-zero.", "quantifier": "all bit patterns, all widths, libraries whose pow is accurate to a stated relative error", "why_tests_cant": "The 64-bit (and for binary functions the 32-bit) domain cannot be enumerated; the project's own tests sample about 2^22 patterns and accept a deviation of one unit.", "anchors": ["src/conversion.c: takum8_to_float32 … takum64_to_extended_float"]}
{"id": "C49", "title": "Crossing between logarithmic and linear takums", "statement": "takum_linearM_from_takumN and takumM_from_takum_linearN map NaR to NaR, 0 to 0, and every other takum to a non-zero non-NaR takum of the same sign.", "quantifier": "all bit patterns, all sixteen plus sixteen type pairs", "why_tests_cant": "The 64-bit (and for binary functions the 32-bit) domain cannot be enumerated; the project's own tests sample about 2^22 patterns and accept a deviation of one unit.", "anchors": ["src/conversion.c: takum_linear8_from_takum8 … takum64_from_takum_linear64"]}
{"id": "C50", "title": "No undefined behaviour in codec, conversions and arithmetic", "statement": "No call of a conversion, precision, sign, inversion, addition, subtraction, multiplication, division, square root, integer power or root function executes undefined behaviour: all shifts are in range, no signed overflow, no out-of-range float to integer conversion, no table access out of bounds.", "quantifier": "all arguments of all types, x86-64 ABI with 80-bit long double", "why_tests_cant": "Undefined behaviour may silently produce the expected value in a test run.", "anchors": ["src/codec.c", "src/conversion.c", "src/util.c", "src/precision.c", "src/integer_power.c", "src/root.c"]}
{"id": "C51", "title": "Logarithmic addition and subtraction: algebraic laws", "statement": "takumN_addition is commutative; NaR absorbs; a + (-a) = 0; subtraction(a,b) = addition(a,-b); a sum of non-NaR takums is never NaR; and, for a math library within the stated error bound, a + 0 = a.", "quantifier": "all pairs of bit patterns, all widths, all libraries within the bound", "why_tests_cant": "Pairs cannot be enumerated.", "anchors": ["src/addition.c", "src/subtraction.c", "src/util.h: UTIL_BINARY_FLOAT_TAKUM_WRAPPER"]}
{"id": "C52", "title": "Linear root: documented NaR condition", "statement": "takum_linearN_root(a, b) is NaR only when the argument is NaR, a and b are zero (or a zero radicand has a negative index, or b = 0), or a is negative and b is even; a negative radicand with odd index has the negative root.", "quantifier": "all bit patterns, all indices", "why_tests_cant": "The 64-bit (and for binary functions the 32-bit) domain cannot be enumerated; the project's own tests sample about 2^22 patterns and accept a deviation of one unit.", "anchors": ["src/root.c: takum_linear8_root … takum_linear64_root", "man/takum64_root.sh"]}
{"id": "C53", "title": "arcoth: documented NaR condition", "statement": "arcoth of an argument outside [-1, 1] is not NaR.", "quantifier": "all bit patterns, all types", "why_tests_cant": "Only arguments within 2^-54 of 1 fail.", "anchors": ["src/arcoth.c", "man/takum64_arcoth.sh"]}
{"id": "C54", "title": "Encoders work for every supported long double format", "statement": "The 32- and 64-bit encoders are intended for long double formats with 53, 64 and 113 mantissa bits; for each of them encoding has defined behaviour and returns the nearest takum.", "quantifier": "all long double arguments, the three formats", "why_tests_cant": "A test run exercises one platform's format.", "anchors": ["src/codec.c: extended_float_fraction_to_rounded_bits, codec_takum32_from_s_and_l, codec_takum64_from_s_and_l"]}
{"id": "C55", "title": "Exported constants", "statement": "TAKUMN_ONE represents 1, TAKUMN_POSITIVE_MINIMUM / MAXIMUM are the smallest / largest positive takum, and TAKUM_LINEARN constants of the pi family are the takums nearest to the named numbers.", "quantifier": "all eight types; comparison against the real number", "why_tests_cant": "A floating-point test can only compare with an approximation of the constant.", "anchors": ["takum.h"]}
{"id": "C56", "title": "Encoder monotone, saturating and exact on the codomain", "statement": "The internal encoders, through which every result of the library is produced, return NaR exactly for NaN and +infinity, 0 exactly for -infinity, never 0 or NaR otherwise, are monotone in l (antitone for negative sign), and invert the decoders: encode(sign(t), decode(t)) = t.", "quantifier": "all l of the parameter's float format, both signs, all widths", "why_tests_cant": "The argument is an 80-bit float.", "anchors": ["src/codec.c: codec_takum8_from_s_and_l … codec_takum64_from_s_and_l, codec_takum8_to_l … codec_takum64_to_l"]}
{"id": "C57", "title": "Calculator stack is a stack", "statement": "Any sequence of pushes and pops on the calculator's stack behaves like an abstract stack: a pop returns the most recently pushed unpopped number, underflow is reported exactly when the stack is empty and leaves it unchanged, and no access is out of bounds.", "quantifier": "all operation sequences, all interleavings of allocation failure", "why_tests_cant": "Histories are unbounded.", "anchors": ["example/calculator.c: stack_init, stack_push, stack_pop, stack_free"]}
{"id": "C58", "title": "Linear arithmetic is faithful in every width", "statement": "The sum, difference, product and quotient of two linear takums (divisor not 0) never pass a representable number: if the exact result is at least the number of a takum t then so is the returned takum, and likewise for at most. In particular a representable exact result is returned exactly, overflow saturates at the extreme takums, and a nonzero exact result never becomes 0.", "quantifier": "all pairs of patterns, all four widths", "why_tests_cant": "2^64 and 2^128 pairs for 32 and 64 bits.", "anchors": ["src/addition.c", "src/subtraction.c", "src/multiplication.c", "src/division.c"]}
{"id": "C59", "title": "Elementary functions return NaR exactly as documented", "statement": "For every unary elementary function except tan, csc, sec, cot and their pi versions (and except arcoth of 64 bits, see C53), the result is NaR exactly when the argument is NaR or lies in the set given as NAN_CONDITION on the function's manual page: arcsin/arccos outside [-1,1], arccsc/arcsec in (-1,1), arcosh below 1, artanh outside (-1,1), arsech outside (0,1], arcsch/csch/coth at 0, logarithms at or below the pole, and never for the others.", "quantifier": "40 functions, both families, all widths, all bit patterns, all conforming math libraries", "why_tests_cant": "The boundary cases (nearest takums to 0 and 1) pass through conversions and divisions in limited precision; the domain is 2^64 patterns per function.", "anchors": ["src/arcsin.c", "src/arccsc.c", "src/arsech.c", "src/arcosh.c", "src/util.h", "man/takum64_arsech.sh", "man/takum64_arccsc.sh"]}
{"id": "C60", "title": "Logarithmic takum to float is strictly increasing and odd", "statement": "For takumN_to_extended_float (all widths) and takum8/16/32_to_float64, a smaller takum is converted to a strictly smaller floating-point number, so distinct takums stay distinct, and the conversion of -t equals minus the conversion of t.", "quantifier": "all pairs of patterns other than NaR, all math libraries whose pow and log are within two units in the last place", "why_tests_cant": "pow need not be monotone; only its error bound against the spacing of the takums gives the order. 2^128 pairs.", "anchors": ["src/codec.c: takum64_to_l (used by takum_to_extended_float)", "src/conversion.c"]}
{"id": "C61", "title": "Integer powers: NaR, zero and sign", "statement": "takumN_integer_power and takum_linearN_integer_power return NaR exactly for NaR and for 0 with an exponent <= 0, return 0 exactly for 0 with a positive exponent, return a negative takum exactly for a negative base and an odd exponent, and return 1 for exponent 0 and a regular base. Overflow and underflow therefore saturate.", "quantifier": "all bit patterns, all 2^64 exponents, all widths, both families, all conforming math libraries", "why_tests_cant": "Pairs of pattern and exponent cannot be enumerated.", "anchors": ["src/integer_power.c", "man/takum64_integer_power.sh"]}
{"id": "C62", "title": "Power: NaR, zero and sign", "statement": "For a, b other than NaR, power(a,b) is positive (never 0 or NaR) for a > 0, 0 for a = 0 and b > 0, NaR for a = 0 and b < 0, and 1 for b = 0. For linear takums and a < 0 it is NaR exactly when b is not an integer, otherwise not 0, and negative exactly for odd b.", "quantifier": "all pairs of patterns, all widths, both families, all conforming math libraries", "why_tests_cant": "2^128 pairs; whether the converted exponent is an integer depends on exactness of the conversion for every pattern.", "anchors": ["src/power.c", "man/takum64_power.sh"]}
{"id": "C63", "title": "Constants of the logarithmic types", "statement": "Each TAKUMN_<name> constant of takum.h (multiples and fractions of pi, Euler's constant, logarithms, golden ratio, square roots) is the takum whose number is closest to the named real number.", "quantifier": "35 constants, four widths, compared with every takum of that width and with the real number itself", "why_tests_cant": "A test would have to compute the constant with more precision than long double; the header was generated with less than needed for two of them.", "anchors": ["takum.h:52-445"]}
{"id": "C64", "title": "Calculator integer marker", "statement": "The integer_value that the calculator computes for a result is the integer that the result stands for if it is an integer (for the logarithmic types 0, 1 or -1), INT64_MAX if it is not, and computing it is defined for every result.", "quantifier": "all takums of the eight types", "why_tests_cant": "The conversion of NaN or of a number that does not fit to int64_t is undefined; on x86-64 it happens to give the expected output.", "anchors": ["example/calculator.c:272-518 number_from_takum8 … number_from_takum_linear64"]}
{"id": "C65", "title": "Calculator evaluates reverse polish notation", "statement": "Whatever lines came before, a line that is an arithmetic expression in reverse polish notation prints the number of that expression, a line that prints a number is such an expression, and no line accesses the stack out of bounds.", "quantifier": "all sequences of lines, all operators, allocation succeeds", "why_tests_cant": "Lines and histories are unbounded.", "anchors": ["example/calculator.c:1546-2139 process_token", "example/calculator.c:2141-2223 main"]}
{"id": "C66", "title": "Accuracy of the elementary functions", "statement": "For a math library accurate to two units in the last place, the result of each of the 48 unary elementary functions is one of the two takums enclosing a number that differs by at most a stated relative error (2^-54 for logarithmic takums, 2^-50 or 2^-60 for linear ones) from the exact value of the function at a point that differs by at most a stated relative error (0 for most functions of linear takums) from the argument; it is NaR exactly if the function is undefined at that point; results too large or too small saturate and never become 0 or NaR. 2^x-1 and 10^x-1 are accurate relative to 1 plus the magnitude only.", "quantifier": "48 functions, both families, all widths, all numbers, all conforming and accurate math libraries", "why_tests_cant": "The reference values are transcendental and the domain has 2^64 patterns per function; tests compare a few points.", "anchors": ["src/util.h:24-98", "src/exp.c", "src/ln.c", "src/sin.c", "src/arccot.c", "src/csch.c", "src/arsech.c", "src/10_raised.c"]}
{"id": "C67", "title": "Trigonometric functions return NaR only at the poles", "statement": "The tangent and the secant of a number are never NaR (the float made from a takum is rational and so no odd multiple of pi/2), the cosecant and the cotangent are NaR exactly for 0 and NaR.", "quantifier": "both families, all widths, all numbers, all conforming and accurate math libraries", "why_tests_cant": "Needs that no float comes close enough to a multiple of pi/2 for the result to overflow.", "anchors": ["src/tan.c:9-26", "src/csc.c:14-26", "src/sec.c:14-26", "src/cot.c:11-23"]}
{"id": "C68", "title": "Accuracy of the functions of two arguments", "statement": "For a math library accurate to two units in the last place, the results of arctan2, arctan2_over_pi, hypotenuse, power (both families), logarithmic addition and subtraction, 64-bit logarithmic and linear integer_power and linear root are one of the two takums enclosing a number that differs by at most a stated relative error (2^-54 for logarithmic takums; 2^-50, 2^-55 or 2^-60 for linear ones) from the exact value of the function at points that differ from the arguments by at most a relative error of 2^-56 (logarithmic) or 0 (linear); power is NaR exactly for a zero base with a negative exponent and a negative base with an exponent that is not integral.", "quantifier": "all functions named, both families, all widths, all pairs of numbers, all 64-bit integers, all conforming and accurate math libraries", "why_tests_cant": "Pairs of 64-bit patterns cannot be enumerated and the reference values are transcendental.", "anchors": ["src/arctan2.c", "src/hypotenuse.c", "src/power.c", "src/addition.c", "src/subtraction.c", "src/integer_power.c:57-164", "src/root.c:68-142"]}
{"id": "C69", "title": "Accuracy of the conversions to and from logarithmic takums", "statement": "A logarithmic takum made from a finite float is one of the two takums enclosing a number within a relative error of 2^-54 of the float (2^-43 from float to 8, 16 and 32 bits); the double or long double made from a logarithmic takum is finite and within 2^-44 (2^-52 from 8 bits) or 2^-56 of its number, the float within 2^-15 if the number is between 2^-100 and 2^100; conversion between the families is one of the two takums enclosing a number with these errors.", "quantifier": "all source and target types, all floats, all takums, all conforming math libraries", "why_tests_cant": "Tests sample; the error depends on the exponent through the rounded base of the power.", "anchors": ["src/conversion.c:43-94", "src/conversion.c:124-175", "src/conversion.c:205-255", "src/conversion.c:629-655", "src/conversion.c:685-711", "src/conversion.c:741-768", "src/conversion.c:304-609"]}
{"id": "C70", "title": "Numbers that both number systems have", "statement": "The number of a logarithmic takum other than 0, 1 and -1 is irrational; the conversions float to logarithmic takum, logarithmic takum to float, logarithmic to linear and linear to logarithmic takum return the very number they are given for 0, 1 and -1 and for no other finite number.", "quantifier": "all widths, all float formats, all finite floats, all takums other than NaR, all conforming math libraries", "why_tests_cant": "A test cannot tell an irrational number from its neighbours; tests of round trips accept an error of one unit.", "anchors": ["src/conversion.c:43-94", "src/conversion.c:124-175", "src/conversion.c:205-255", "src/conversion.c:304-609", "src/conversion.c:629-655", "src/conversion.c:685-711", "src/conversion.c:741-768"]}
{"id": "C71", "title": "Odd and even functions", "statement": "sin, tan, csc, cot, arcsin, arctan, arccsc (also over pi), sinh, tanh, csch, coth and their inverses are odd: for linear takums u(-t) is the negation of u(t) bit for bit (0 and NaR included), for logarithmic takums it is the negation or next to it; cos, sec, cosh, sech are even bit for bit for both; the functions with the factor pi are odd or even for linear takums that are no multiple of 1/2; the hypotenuse does not depend on the order and the signs of its arguments; arctan2 and arctan2_over_pi are odd in a first argument other than 0.", "quantifier": "all widths, all bit patterns, all conforming math libraries whose own functions are odd or even", "why_tests_cant": "The symmetry goes through the decoder, the float functions, the result fixers and the encoder, whose halves for negative numbers are separate code; a test compares single pairs.", "anchors": ["src/util.h:31-98", "src/util.h:100-201", "src/sin.c:13", "src/csc.c:14-47", "src/sinh.c:8-10", "src/csch.c:14-21", "src/hypotenuse.c:8-11", "src/arctan2.c:7-30", "src/conversion.c:205-255"]}
{"id": "C72", "title": "Reading a line", "statement": "getline never accesses memory outside its buffer whatever allocations fail; unless it returns -1 the buffer holds exactly the first line of the file with its newline and a terminating zero, the result is the length of the line, and the file continues behind it; it returns -1 only at the end of the file or because an allocation of at most max(BUFSIZ, twice the length of the file) bytes failed.", "quantifier": "all files, all buffers left by earlier calls, all behaviours of malloc and realloc, all BUFSIZ of at least 256", "why_tests_cant": "The buffer is enlarged only at certain lengths of the line, and an off-by-one in the room for the final zero shows only at these lengths; failed allocations do not happen in tests.", "anchors": ["example/util.c:11-60"]}
{"id": "C73", "title": "The table of operators", "statement": "The 67 operators of the calculator differ, each can be typed as one token, and none is hidden by a register. Each of the eight functions that an operator names is the function that the operator stands for, for the type of the field that it is in. There is a switch for each of the eight types under its name and no other. Every function of the library of one or two takums has an operator, except the powers of 2 and 10.", "quantifier": "all operators, all eight fields, all functions of the library", "why_tests_cant": "A wrong name among more than 400 (a 16-bit function in the 32-bit field, sec in place of csc) is found only by a test of this operator in this type; the calculator has no tests.", "anchors": ["example/calculator.c:628-1544"]}
{"id": "C74", "title": "Numbers that are typed", "statement": "A token that is an integer literal of C (decimal, octal, hexadecimal, with sign) is held by the calculator as a takum next to the integer and marked with the integer if it fits into int64_t, as NaR otherwise; a token that strtold accepts is held as a takum next to its number, as NaR if that is infinite or NaN, and marked as an integer only if it is -1, 0 or 1; every other token is refused. All eight takums of the number are conversions of the takum of the current type.", "quantifier": "all tokens, all eight types, all conforming math libraries, all strtold", "why_tests_cant": "The tokens are unbounded; the errors are at the limits of int64_t.", "anchors": ["example/calculator.c:37-270"]}
{"id": "C75", "title": "The calculator as a whole", "statement": "For every input the calculator prints what a session prints that is described without memory: the input is split into lines and words; a word is a register, an operator or a number; the stack is a list; a register holds one takum of one type and is converted when it is used; a line with an error has no effect but its message; results go to the registers a to z in turn and then to a again; NUL ends a line.", "quantifier": "all inputs, all math libraries whose powers are finite, all strtold that return a long double, all allocators that deliver the sizes needed", "why_tests_cant": "The calculator has no tests; the claim is about all sequences of lines, with the state (type, registers, buffer, stack memory) that earlier lines leave.", "anchors": ["example/calculator.c:24-35", "example/calculator.c:37-570", "example/calculator.c:572-626", "example/calculator.c:1546-2139", "example/calculator.c:2141-2223", "example/util.c:11-60"]}
{"id": "C76", "title": "What is shown", "statement": "What the calculator shows for a number is the number of its takum: NaR for NaR, an integer for an integer, else a long double within 2^-56 of the number (the number itself in the linear types).", "quantifier": "all takums of all eight types, all conforming math libraries", "why_tests_cant": "All 64-bit takums; the calculator has no tests.", "anchors": ["example/calculator.c:272-518", "example/calculator.c:520-570"]}
{"id": "C77", "title": "The calculator has no undefined behaviour", "statement": "No input makes the calculator execute undefined behaviour.", "quantifier": "all inputs", "why_tests_cant": "The inputs are unbounded; undefined conversions and overflows do not show without a sanitizer.", "anchors": ["example/calculator.c:391-518", "example/calculator.c:1546-2223", "src/absolute.c:8-52"]}
{"id": "C78", "title": "Conversions and logarithmic sums are monotone", "statement": "If the log of the math library does not decrease: for floats f <= g the logarithmic takums they are converted to are in the same order; for takums t <= t' the conversions between logarithmic and linear takums keep the order; for logarithmic a <= b and any c, a+c <= b+c, c+a <= c+b, a-c <= b-c and c-b <= c-a.", "quantifier": "all four widths (all 16 pairs of widths), all floats of all three types, all takums other than NaR, all math libraries with the stated accuracy and an increasing log", "why_tests_cant": "Pairs of 64-bit takums and long doubles; an inversion of the order would appear only at the few arguments where a branch, a rounding or a saturation changes.", "anchors": ["src/conversion.c:43-94", "src/conversion.c:205-255", "src/conversion.c:629-655", "src/conversion.c:741-768", "src/conversion.c:304-609", "src/addition.c", "src/subtraction.c"]}
{"id": "C79", "title": "Elementary functions are monotone", "statement": "If the functions of the math library are monotone where the real functions are, then so are the functions of takums: 21 functions increase and 2 decrease on their domains, and arccsc, arcsec, arccot (and over pi), cosh, csch, sech, coth, arcsch, arsech and arcoth increase or decrease on the positive and on the negative numbers as the real functions do.", "quantifier": "all takums of all eight types with results other than NaR, all conforming and monotone math libraries", "why_tests_cant": "Pairs of takums of up to 64 bits; the saturations of exp and csch, the constant factors and the two roundings (to the float type and to the takum) would each have to be hit at the argument where they break the order.", "anchors": ["src/10_raised.c", "src/exp.c", "src/ln.c", "src/arccos.c", "src/arccsc.c", "src/csch.c", "src/cosh.c", "src/arcoth.c", "src/util.h:24-98"]}
{"id": "C80", "title": "Exact values at special points", "statement": "Where a function is 0 or 1 at the argument 0 or 1 (exp(0) = 1, ln(1) = 0, cos(0) = 1, arccos(1) = 0, ... for 36 functions) the takum function returns that number exactly, provided the math library has the values that C99 Annex F demands; the hypotenuse with one side 0 is the absolute value of the other side, it does not depend on the order of the sides, and the angle of a point on the positive axis is 0.", "quantifier": "all eight types; for the hypotenuse and the angle all takums; all conforming math libraries with the values of Annex F", "why_tests_cant": "The last claims are about all 64-bit takums; the first ones are finite per math library, but the theorem holds for every one.", "anchors": ["src/util.h:24-201", "src/exp.c", "src/2_raised.c", "src/10_raised.c", "src/ln.c", "src/cos.c", "src/arccos.c", "src/arcosh.c", "src/hypotenuse.c", "src/arctan2.c"]}
{"id": "C81", "title": "A wider type of the other family loses nothing", "statement": "A logarithmic takum converted to a wider linear takum and back is unchanged, and a linear takum whose magnitude is between e^-127 and e^127 (where the logarithmic takums end) converted to a wider logarithmic takum and back is unchanged. The range is needed: the 8-bit linear takum 2^239 does not come back.", "quantifier": "all pairs of widths, the second greater than the first, all takums (NaR and 0 included), all conforming math libraries", "why_tests_cant": "There are 2^32 32-bit takums, and whether the two roundings and the errors of pow and log together stay below half of the distance of two takums at every one of them depends on the math library; the theorem holds for each conforming one.", "anchors": ["src/conversion.c:304-326", "src/conversion.c:347-369", "src/conversion.c:390-412", "src/conversion.c:433-455", "src/conversion.c:457-480", "src/conversion.c:500-523", "src/conversion.c:543-566", "src/conversion.c:586-609"]}
{"id": "C82", "title": "A test over all values reports exactly the failures", "statement": "When the limit admits all values of a type of at most 32 bits, the test harness checks each value (each pair of values, each value with each integer test case) exactly once. It reports the number of cases passed and the number of cases, and its status is 0 exactly if all cases are passed. A case of a round trip is passed if the function returns its argument, a case with a uint8_t result if the results are equal, any other case if the result differs by at most one from the conversion of the long double reference (from the smallest or largest number after an underflow or overflow). If a call of the tested function is undefined on some case, so is the test. A round trip without a function is reported as passed.", "quantifier": "all tested functions, reference functions, exception flags, numbers returned by rand(), lists of different test cases, limits", "why_tests_cant": "This is about the tests themselves: nothing tests the test harness, and a sampler that skipped values or a comparison that accepted too much would make all tests pass.", "anchors": ["test/util.c:420-508", "test/util.c:510-925", "test/util.c:927-935", "test/util.c:937-1063", "test/util.c:1065-1221", "test/util.c:1223-1254"]}
{"id": "C83", "title": "What the random tests check", "statement": "When the limit does not admit all values, the harness makes exactly as many checks as the limit says, starting with 0, and reports their result. Its shift registers go through every state but 0 exactly once before they repeat, for each of the four widths. So if the first number of rand() has low bits that are not all zero, no value is checked twice in a test of one takum, and no combination twice in a test with an integer. In a test of two takums the pairs repeat with the period 2^n - 1: the test of 16-bit takums reports 4194304 checks but checks only 65536 different pairs.", "quantifier": "all states of the shift registers (all four widths), all sequences of rand(), all tested and reference functions, all limits", "why_tests_cant": "A period of 2^64 - 1 cannot be observed. The repeated pairs do not show in any output of the tests.", "anchors": ["test/util.c:37-240", "test/util.c:937-1063", "test/util.c:1065-1221", "test/util.c:1256-1274"]}
{"id": "C84", "title": "The test programs for codec, conversions, precision, sign and absolute value pass", "statement": "The programs test/codec.c, test/conversion.c, test/precision.c, test/sign.c and test/absolute.c exit with status 0 whatever numbers rand() returns, if the math library is accurate to two units in the last place and no floating-point exception flags are raised by the reference functions.", "quantifier": "all sequences of rand(), all math libraries within the stated accuracy", "why_tests_cant": "A run of the tests shows the result for one sequence of rand() on one platform. Whether another seed would make a test fail, or make it undefined, cannot be seen from runs.", "anchors": ["test/codec.c:10-81", "test/conversion.c:9-186", "test/precision.c:9-104", "test/sign.c:7-40", "test/absolute.c:7-40"]}
{"id": "C85", "title": "What the comparison of the tests accepts", "statement": "A test case of a function of one takum is passed exactly if the output is the expected takum or a neighbour of it as signed integer. So zero passes where the number nearest to zero is expected and NaR passes where the most negative number is expected. In 64 bits the comparison overflows (undefined behaviour) exactly if the largest takum is expected and the output is another one, or NaR is expected and the output is neither NaR nor its neighbour. The sign test passes for a function that is wrong for every positive number. A block without integer test cases makes the harness divide by zero.", "quantifier": "all tested functions, reference functions, takums of all eight types, exception flags, sequences of rand()", "why_tests_cant": "It is about outputs that the tests cannot tell from the right ones.", "anchors": ["test/util.c:475-508", "test/util.c:790-925", "test/util.c:927-935", "test/sign.c:7-40"]}
{"id": "C86", "title": "The test programs of addition and subtraction pass, and those of the linear operations", "statement": "test/addition.c and test/subtraction.c exit with status 0, and the tests of multiplication, division, inversion and square root report no failure for the linear types of all widths, whatever numbers rand() returns and whatever the math library computes, if no floating-point exception flags are raised: the operations of up to 32 bits are computed in double and the references in long double, and the results differ by at most one unit.", "quantifier": "all sequences of rand(), all math libraries, all four widths", "why_tests_cant": "One run shows the result for one sequence of rand(). The double rounding in which the references differ from the operations is rare.", "anchors": ["test/addition.c:7-36", "test/subtraction.c:7-36", "test/multiplication.c:7-36", "test/division.c:7-36", "test/inversion.c:7-36", "test/square_root.c:7-36"]}
{"id": "C87", "title": "The tests of the elementary functions compare each function with itself", "statement": "For each elementary function the reference of its test is the long double function that the library uses, for every math library. So for the logarithmic types and the linear type of 64 bits a test passes whatever the math library computes, unless the function replaces an infinite or zero result. The functions whose double version converts the long double result (and which do not replace it) pass for all eight types as long as the finite results do not overflow double. The tests of arcoth and sin_pi_times pass although arcoth of the 64-bit number after 1 is NaR and sin_pi_times(-1) is not 0, and the test of sin passes with a library whose sine is 0 everywhere.", "quantifier": "all elementary functions, all math libraries, all takums, all sequences of rand()", "why_tests_cant": "It is about errors that the tests cannot detect.", "anchors": ["test/sin.c:7-72", "test/arcoth.c:7-36", "test/arcsch.c:7-36", "test/arctan2.c:7-58", "test/power.c:7-36", "src/sin.c:1-48", "src/arcoth.c:1-24"]}
{"id": "C88", "title": "The test program of the constants passes for a correctly rounded logarithm, and depends on its last bits", "statement": "test/constants.c returns 0 if logl is correctly rounded: each of the 36 literals, rounded to long double and converted to each of the eight types, gives the macro. With a logl accurate to two units at most seven comparisons can fail, those of 6*pi, 6*pi/5, lb(10), lg(2), lg(e), ln(10) and sqrt(6) as 64-bit logarithmic takums, and there is such a library for which all seven fail. The comparisons of the linear types and of up to 32 bits pass for each. The test passes although TAKUM64_6_PI and TAKUM64_6_PI_OVER_5 are not the closest takums.", "quantifier": "all math libraries with a correctly rounded or accurate logarithm", "why_tests_cant": "A run shows the result with one math library. That the failures depend on the last bits of logl needs all libraries.", "anchors": ["test/constants.c:8-452", "test/constants.c:454-599", "takum.h:52-445"]}
{"id": "C89", "title": "The tests of the integer power and the root of linear takums pass, and cannot notice the missing odd roots", "statement": "With a conforming math library and the exceptions that powl raises, the tests of test/integer_power.c for the four linear types and for takum64, and the tests of test/root.c for the four linear types, report no failure. Each case is passed for every int64_t, not only for the seven integers of the tests; so the test of the root passes with any list of integers, also with the index 3 for which the root of a negative linear takum is NaR although it is a takum.", "quantifier": "all takums, all int64_t exponents and indices, all conforming math libraries, all random numbers", "why_tests_cant": "The tests compare the function with itself and run seven integers, of which the only odd ones are 1 and -1.", "anchors": ["test/integer_power.c:8-47", "test/root.c:9-48", "src/integer_power.c:57-164", "src/root.c:68-142"]}
{"id": "C90", "title": "The tests of the arithmetic of logarithmic takums pass, but a 64-bit product or quotient can make them overflow", "statement": "With a math library whose powl and logl are accurate to four units in the last place, the test programs of the inversion and the square root report no failure, and neither do the tests of the multiplication and the division for the linear types and the logarithmic types of 8, 16 and 32 bits. For every pair of 64-bit logarithmic takums the product (quotient) and the converted reference differ by at most one unit; the test programs of multiplication and division return 0 or are undefined. They are undefined if the pair sqrt(e)^128, sqrt(e)^(127-3/2^53) is drawn and logl is correctly rounded: the product is the takum below the largest one, the reference is converted to the largest one, and the comparison increments INT64_MAX.", "quantifier": "all takums and pairs of takums of all widths, all math libraries with the given accuracy, all random numbers", "why_tests_cant": "The tests draw four million of 2^128 pairs; that they pass for all others, and for which pair they break, is not visible from a run.", "anchors": ["test/multiplication.c:7-36", "test/division.c:7-36", "test/inversion.c:7-36", "test/square_root.c:7-36", "test/util.c:466-640", "src/multiplication.c:9-64", "src/division.c:9-63", "src/inversion.c:9-69", "src/square_root.c:9-60"]}
{"id": "C91", "title": "The test programs of the integer power and the root report no failure, and an odd index would make the latter fail", "statement": "With a conforming math library of bounded error that raises the standard exceptions, the test program of the integer power returns 0 and would with any list of 1 to 2^22 - 1 distinct int64_t exponents, for both kinds and all widths: also for the logarithmic types of 8, 16 and 32 bits, which multiply on the logarithmic scale while the reference calls powl. The test program of the root returns 0 with the list it has. Every case of a logarithmic root is passed unless the number is negative and the index is odd and not 1 or -1; each of these remaining cases fails, because the reference is NaN while the function returns the root; so a list of at most 64 distinct integers with such an index makes the tests of 8 and 16 bits report a failure.", "quantifier": "all takums of all widths, all int64_t exponents and indices, all math libraries with the given properties, all random numbers", "why_tests_cant": "The tests have seven integers, draw a sample for the wider types, and do not contain an odd index other than 1 and -1; that the reference is wrong for those is not visible.", "anchors": ["test/integer_power.c:8-47", "test/root.c:9-48", "test/util.c:466-640", "src/integer_power.c:8-164", "src/root.c:8-142"]}
{"id": "C92", "title": "The test programs of all 48 elementary functions of one argument report no failure", "statement": "With a math library whose functions have the special values of the C standard and an error of at most two units, and with exception flags raised where a result overflows or vanishes, the test program of each of the 48 elementary functions of one argument returns 0: for every takum of every type, in particular for those where the function has a pole, is not defined, overflows or underflows, and for the linear types of at most 32 bits, which compute in double while the reference is in long double, the result differs from the expected one by at most one unit. Without the overflow flag the test of a function that grows fails wherever the reference is infinite.", "quantifier": "all 48 functions, both kinds, all widths, all takums, all math libraries with the given properties, all random numbers", "why_tests_cant": "The tests of 32 and 64 bits draw a sample; whether they can ever fail depends on the math library, and one run shows one library.", "anchors": ["test/util.c:420-640", "test/util.c:1065-1221", "test/exp.c:7-59", "test/sin.c:7-73", "test/cot.c:7-69", "src/util.h:24-98"]}
{"id": "C93", "title": "The test programs of the functions of two arguments report no failure", "statement": "With a math library whose functions have the special values of the C standard and an error of at most two units, and with exception flags raised exactly where a power of a nonzero base overflows or vanishes, the test programs of arctan2, arctan2 over pi, hypotenuse and power return 0: every pair of takums of every type is passed, also powers of zero and of NaR, powers that are not defined, and powers beyond the range of long double.", "quantifier": "all four functions, both kinds, all widths, all pairs of takums, all math libraries with the given properties, all random numbers", "why_tests_cant": "The tests run over samples of the pairs (there are 2^128 for 64 bits); whether one can ever fail depends on the math library.", "anchors": ["test/arctan2.c:7-49", "test/hypotenuse.c:7-27", "test/power.c:7-27", "test/util.c:420-640", "src/power.c:11-21", "src/hypotenuse.c:8-11", "src/util.h:100-201"]}
{"id": "C94", "title": "The fraction of a float is rounded correctly to a given number of bits", "statement": "As the comments say, float32_fraction_to_rounded_bits, float64_fraction_to_rounded_bits and extended_float_fraction_to_rounded_bits convert a float f in [0,1) to num_bits bits, correctly rounded (to nearest, ties to even), for every num_bits from 1 to the width of the word minus 1. Asking for as many bits as the word has or more is undefined.", "quantifier": "all floats of the type in [0,1), all numbers of bits, all three functions", "why_tests_cant": "The functions are static and one of them is never called; the arguments where rounding is wrong are a fraction of 2^-50 of all.", "anchors": ["src/codec.c:337-389", "src/codec.c:391-443", "src/codec.c:445-559", "src/util.c:15-71"]}
{"id": "C95", "title": "The rounding routine does what its comment says", "statement": "As the comments say, util_round_uintN_to_number_of_bits takes an N-bit fixed point number in [0,1) and, for every number of bits in the range 0..N-1, gives that number times 2^number_of_bits rounded to nearest, ties to even, with all bits above the lowest number_of_bits zero. A number of bits of N or more is undefined.", "quantifier": "all inputs, all numbers of bits, N = 8, 16, 32 and 64", "why_tests_cant": "The tests have no test of the routine; a carry out of all bits needs the number_of_bits leading bits to be all ones, and the undefined shift for 0 bits gives a plausible value on most machines.", "anchors": ["src/util.c:8-71", "src/util.h:224-227"]}
{"id": "C96", "title": "Multiplication by one on every supported platform", "statement": "For each format of long double that the code distinguishes (53, 64 and 113 bits), takumN_multiplication(t, TAKUMN_ONE) = t for every takum t of 8, 16, 32 and 64 bits.", "quantifier": "all bit patterns, the four widths, the three formats", "why_tests_cant": "A test run exercises one platform's format.", "anchors": ["src/codec.c:181-215", "src/codec.c:445-559", "src/codec.c:732-910", "src/multiplication.c:16-46", "src/division.c:16-46", "src/square_root.c:13-55", "src/root.c:24-66"]}
{"id": "C97", "title": "Squares in logarithmic arithmetic are exact", "statement": "For every logarithmic takum t whose square lies strictly between exp(-255/2) and exp(255/2), takum_log_multiplication(t, t) is exactly the square, and takum_log_square_root of that is |t|; any other square is the largest or the smallest positive takum.", "quantifier": "all bit patterns other than 0 and NaR, the four widths", "why_tests_cant": "2^64 bit patterns; the code that doubles the logarithm and the one that rounds the characteristic meet at every power of two.", "anchors": ["src/multiplication.c:16-46", "src/square_root.c:13-55", "src/codec.c:445-559"]}
{"id": "C98", "title": "Inversion commutes with logarithmic arithmetic", "statement": "For logarithmic takums a, b that are neither 0 nor NaR: multiplication(inversion(a), inversion(b)) = inversion(multiplication(a, b)); division(b, a) = inversion(division(a, b)); square_root(inversion(a)) = inversion(square_root(a)) for a > 0; integer_power (8, 16, 32 bits) and root of inversion(a), and of a with the negated index, are the inversion of the result for a.", "quantifier": "all such bit patterns, the four widths, every int64_t index other than INT64_MIN for the negated index", "why_tests_cant": "2^128 pairs of bit patterns.", "anchors": ["src/inversion.c:6-53", "src/multiplication.c:16-46", "src/division.c:16-46", "src/square_root.c:13-55", "src/integer_power.c:24-55", "src/root.c:24-66"]}
{"id": "C99", "title": "Linear division, inversion and square root are correctly rounded", "statement": "takum_linearN_division, inversion and square_root return the takum nearest to the exact quotient, inverse and root, ties to the even bit pattern, saturating (for 8 bits nearest on the logarithmic-linear scale of the format).", "quantifier": "all pairs of bit patterns (all bit patterns for inversion and square root) of every width", "why_tests_cant": "2^128 pairs for 64 bits; the results that go wrong are those within 2^-53 of a tie.", "anchors": ["src/division.c:48-63", "src/inversion.c:54-69", "src/square_root.c:57-60"]}
{"id": "C100", "title": "What the exit status of a test program says", "statement": "If a test program runs to its end, its status is the number of the eight types with a failed check. It is 0 exactly if every 8- and 16-bit value of both kinds (for functions of two takums every pair of 8-bit values, for functions of a takum and an integer each 8- and 16-bit value with each of the at most 64 test cases) and the 2^22 values drawn for every other type are passed. A round trip without a function requires nothing.", "quantifier": "all tested functions, references, sequences of rand() and math libraries", "why_tests_cant": "Statement about the test programs themselves, for every function they might be given.", "anchors": ["test/util.c:1223-1274"]}
{"id": "C101", "title": "32-bit linear addition and subtraction are correctly rounded", "statement": "takum_linear32_addition and takum_linear32_subtraction return the takum nearest to the exact sum and difference, ties to the even bit pattern, saturating, although the sum is rounded to double first.", "quantifier": "all pairs of 32-bit patterns", "why_tests_cant": "2^64 pairs; a double rounding error would appear only for sums within 2^-53 of a tie.", "anchors": ["src/addition.c:11-24", "src/subtraction.c:12-26", "src/conversion.c: takum_linear32_from_float64"]}
{"id": "C102", "title": "32- and 64-bit linear multiplication and 64-bit linear addition and subtraction are correctly rounded", "statement": "takum_linear32/64_multiplication and takum_linear64_addition/subtraction return the takum nearest to the exact result, ties to the even bit pattern, saturating.", "quantifier": "all pairs of bit patterns", "why_tests_cant": "Pairs cannot be enumerated; the results that go wrong are those within 2^-53 of a tie.", "anchors": ["src/addition.c:11-24", "src/subtraction.c:12-26", "src/multiplication.c:48-64", "src/conversion.c: takum_linear64_from_extended_float"]}
{"id": "C103", "title": "The difference of two close linear takums is exact", "statement": "If two linear takums have the same sign, neither is more than twice the other in magnitude, and their difference is 0 or at least the smallest positive takum in magnitude, then takum_linearN_subtraction returns their exact difference (Sterbenz' lemma for tapered precision).", "quantifier": "all pairs of bit patterns of all four widths", "why_tests_cant": "Exactness depends on the precision growing fast enough towards 1 and shrinking slowly enough towards 0 across every change of regime; sampled pairs rarely cross one.", "anchors": ["src/subtraction.c:12-26", "src/codec.c"]}
{"id": "C104", "title": "The precision is the distance to the next takum", "statement": "If takumN_precision(t) is k, the next linear takum of the same sign is 2^(e-k) away, 2^e being the power of two below the magnitude of t, so a number between them is within 2^-(k+1) of itself of one of them; the next logarithmic takum of the same sign differs by the factor exp(2^-(k+1)).", "quantifier": "all bit patterns of 16, 32 and 64 bits, and those of 8 bits with positive precision", "why_tests_cant": "Quantifies over all neighbours of all widths and over all real numbers between them; the test only compares bit counts.", "anchors": ["src/precision.c:12-149"]}
{"id": "C105", "title": "Logarithmic products and quotients that come closer to 1 are exact", "statement": "If the product of two logarithmic takums of 16, 32 or 64 bits is no farther from 1, on the logarithmic scale, than either factor, takumN_multiplication returns it exactly; the same for takumN_division, and multiplying the quotient by the divisor gives the dividend back.", "quantifier": "all pairs of regular bit patterns of 16, 32 and 64 bits", "why_tests_cant": "The tests compare with a tolerance; exactness needs the spacing of takums to refine towards 1 at every change of regime.", "anchors": ["src/multiplication.c:10-47", "src/division.c:10-47", "src/codec.c"]}
{"id": "C106", "title": "The manual pages state when a function returns NaR", "statement": "For every elementary function of one argument, every type and every bit pattern: the function returns NaR exactly if the argument is NaR or meets the condition (NAN_CONDITION) printed on its manual page.", "quantifier": "48 functions x both number systems x all bit patterns of 8, 16, 32 and 64 bits", "why_tests_cant": "The manual pages are not tested at all, and the tests of the *_pi_times functions use a handful of arguments below 2^10.", "anchors": ["man/takum64_arcsec_over_pi.sh:5", "man/takum64_csc.sh:5", "man/takum64_tan_pi_times.sh:5", "man/takum64_csc_pi_times.sh:5", "man/takum64_root.sh:5", "man/template/math_function.sh:22-25", "src/util.c", "src/csc.c", "src/tan.c", "src/sec.c", "src/cot.c"]}
{"id": "C107", "title": "Bounded functions stay within their range", "statement": "For every number x of every type: sin, cos, sin_pi_times, cos_pi_times, tanh and sech return a number between -1 and 1; csc, sec, csc_pi_times, sec_pi_times, cosh and coth return NaR or a number of magnitude at least 1; cosh returns a number that is at least 1; 2_raised_minus_1 and 10_raised_minus_1 return a number that is at least -1.", "quantifier": "all numbers of 8, 16, 32 and 64 bits, both number systems, every conforming math library", "why_tests_cant": "Rounding can leave the range of the real function at any argument close to an extremum; the tests compare a few values with a tolerance that admits values outside the range.", "anchors": ["src/sin.c", "src/cos.c", "src/tanh.c", "src/sech.c", "src/csc.c", "src/sec.c", "src/cosh.c", "src/coth.c", "src/2_raised.c", "src/10_raised.c", "src/util.c"]}
{"id": "C108", "title": "The sign of a difference compares the numbers", "statement": "For all numbers a and b of the same type, takumN_subtraction(a, b) is negative exactly if a < b, 0 exactly if a = b and positive exactly if a > b; the sum of two non-negative takums is not below either of them.", "quantifier": "all pairs of bit patterns, both number systems, 8, 16, 32 and 64 bits", "why_tests_cant": "A difference that underflows to 0 for close operands appears for single pairs among 2^128.", "anchors": ["src/subtraction.c", "src/addition.c", "src/codec.c"]}
{"id": "C109", "title": "Logarithmic powers and roots with a power of two as index are exact", "statement": "If x^(2^k) of a logarithmic takum x of 16, 32 or 64 bits is within the range of the format (1 <= k <= 62), it is a takum; k successive squarings with takumN_multiplication return it, takum16_integer_power and takum32_integer_power return it, and takumN_root of it with the index 2^k returns |x|.", "quantifier": "all regular bit patterns of 16, 32 and 64 bits, all k from 1 to 62", "why_tests_cant": "The tests compare with a tolerance and use a few indices; exactness at every change of regime is a statement about 2^64 patterns.", "anchors": ["src/integer_power.c", "src/root.c", "src/multiplication.c", "src/codec.c"]}
{"id": "C110", "title": "Integer arithmetic in linear takums is exact up to a known bound", "statement": "Every integer of magnitude up to 2^3, 2^9, 2^24, 2^55 is a linear takum of 8, 16, 32, 64 bits and the next integer is not. Sums, differences, products and quotients of linear takums that are integers are returned exactly if the result is an integer within the bound; the square root of the square of such an integer is its absolute value.", "quantifier": "all pairs of bit patterns with integer values, all widths", "why_tests_cant": "The number of integers below 2^55 cannot be enumerated, let alone pairs of them.", "anchors": ["src/addition.c", "src/subtraction.c", "src/multiplication.c", "src/division.c", "src/square_root.c", "src/codec.c"]}
{"id": "C111", "title": "Scaling a linear takum by a power of two towards 1 is exact", "statement": "For 16, 32 and 64 bits the powers of two from 2^-254 to 2^254 are linear takums and inversion is exact on them. If multiplying by 2^j moves a linear takum towards 1 without passing it, the multiplication by 2^j and the division by 2^-j return the exact product, and the inverse operation returns the original number.", "quantifier": "all bit patterns of 16, 32 and 64 bits, all powers of two", "why_tests_cant": "The property depends on the change of the precision at every regime, for all mantissas.", "anchors": ["src/multiplication.c", "src/division.c", "src/inversion.c", "src/codec.c"]}
{"id": "C112", "title": "The error of a single operation is bounded", "statement": "A sum, difference, product or quotient of linear takums of 16, 32 and 64 bits that is within the range of the format is returned with a relative error of at most 2^-5, 2^-21 + 2^-52, 2^-52. A product or quotient of logarithmic takums within the range is returned with the right sign and a factor of at most exp(2^-6), exp(2^-22), exp(2^-54 + 2^-56) from the exact number.", "quantifier": "all pairs of bit patterns of 16, 32 and 64 bits with a result within the range", "why_tests_cant": "The bound is reached for results with the longest regime only and a test of random operands rarely gets there; pairs of 64-bit patterns cannot be enumerated.", "anchors": ["src/addition.c", "src/subtraction.c", "src/multiplication.c", "src/division.c", "src/codec.c", "src/precision.c"]}
{"id": "C113", "title": "The rounding error of a linear sum is a takum and can be computed", "statement": "The rounding error of takum_linear16_addition and takum_linear32_addition is a linear takum of the same width (unless it is not zero but smaller than every takum) and at most as large as either operand. If one operand is at most a quarter of the other, subtracting the larger operand from the sum and then the result from the smaller operand yields the error exactly (fast two-sum).", "quantifier": "all pairs of bit patterns of 16 and 32 bits", "why_tests_cant": "Error-free transformations rely on every case being exact; pairs of 32-bit patterns cannot be enumerated, and a tolerance hides the last bit.", "anchors": ["src/addition.c", "src/subtraction.c", "src/codec.c"]}
{"id": "C114", "title": "Logarithmic arithmetic in a wider type agrees with the narrow type", "statement": "Widening the operands of a logarithmic multiplication, division or square root, computing in the wider type and narrowing the result returns what the narrow type's own function returns, bit for bit, for every pair of widths. Before narrowing the result is exact: the product or quotient if its magnitude is strictly between sqrt(e)^-255 and sqrt(e)^255, the square root always.", "quantifier": "all pairs of widths n < m and all (pairs of) n-bit patterns", "why_tests_cant": "Double rounding shows only on ties after the first rounding; pairs of 32-bit patterns cannot be enumerated.", "anchors": ["src/multiplication.c", "src/division.c", "src/square_root.c", "src/conversion.c", "src/codec.c"]}
{"id": "C115", "title": "Products of linear takums are exact in a wider type", "statement": "Widening two linear takums and multiplying them in the wider type returns their exact product if it is 0 or its magnitude is strictly between 2^-255 and 2^255, for every pair of widths. For 8 and 16 bits the wider product narrowed back is what the narrow type's own multiplication returns, for all bit patterns, including products out of range and NaR; for 32 bits it need not be.", "quantifier": "all pairs of widths n < m and all pairs of n-bit patterns", "why_tests_cant": "The wider significand must suffice for every pair of operands in every regime; pairs of 16- and 32-bit patterns cannot be enumerated.", "anchors": ["src/multiplication.c", "src/conversion.c", "src/codec.c"]}
{"id": "C116", "title": "How the precision varies", "statement": "Among the numbers of one sign takumN_precision does not increase with the distance from 1 (or -1) on either side. A number, its negative and its inverse differ in precision by at most one bit and not at all if one of the bits after the first five is set; a pair that differs exists. Widening adds to the precision the number of added bits (for 8 bits if there are mantissa bits at all).", "quantifier": "all bit patterns and pairs of bit patterns of every width, both families", "why_tests_cant": "A property of pairs of numbers over the whole range; the symmetry fails only at a handful of patterns.", "anchors": ["src/precision.c", "src/inversion.c", "src/conversion.c"]}
{"id": "C117", "title": "Sums and products of many operands", "statement": "Let e be the bound of C112 on the relative error of one operation (16, 32 and 64 bits). Adding n further non-negative linear takums one after the other to a positive one gives a number with relative error at most (1+e)^n - 1, provided (1+e)^n times the sum is at most the largest number. Multiplying a linear takum by n further ones gives the product times a factor between (1-e)^n and (1+e)^n, provided every partial product widened by these factors lies in range. Multiplying logarithmic takums gives the product times exp(r) with |r| at most n times the bound for one multiplication, under the same proviso.", "quantifier": "all lists of takums of any length, 16, 32 and 64 bits, both families", "why_tests_cant": "Lists of any length.", "anchors": ["src/addition.c", "src/multiplication.c"]}
{"id": "C118", "title": "Logarithmic powers and roots are correctly rounded for every index", "statement": "takumN_integer_power and takumN_root for N = 8, 16 and 32 return, for every base that is neither 0 nor NaR and every 64-bit exponent or index for which the result is defined, the takum nearest to the exact power or root on the logarithmic scale, ties to even, saturating; although the exponent is rounded to float or double first. For takum64_root this does not hold.", "quantifier": "all bit patterns of 8, 16 and 32 bits and all 2^64 exponents and indices", "why_tests_cant": "2^32 bases times 2^64 indices; a double rounding would show only for quotients next to the middle of two takums.", "anchors": ["src/integer_power.c", "src/root.c"]}
{"id": "C119", "title": "power with an integer exponent agrees with integer_power", "statement": "If the second argument of power stands for an integer n, the result is that of integer_power with n: bit for bit in takum64 and takum_linear64, and at most one unit in the last place away in takum_linear8, takum_linear16 and takum_linear32, which compute power in double and integer_power in long double. This includes overflow, underflow, negative bases and the bases 0 and NaR if n is not 0. For n = 0 and the bases 0 and NaR the two functions differ in all eight types: power returns 1 and integer_power returns NaR.", "quantifier": "all bases, all integer exponents representable as takum and as int64_t, all conforming libm", "why_tests_cant": "The two functions repair signs, underflow and overflow separately, and compute in different precisions; the agreement is to hold for all 2^64 bases and all exponents.", "anchors": ["src/power.c", "src/integer_power.c"]}
{"id": "C120", "title": "The rules of C that the code relies on are checked completely", "statement": "In the model, every shift, signed arithmetic operation, table access and conversion of a float to an integer has a value exactly if the C standard defines it, and then the value that the standard prescribes; every byte that getline writes and every element that the stack of the calculator stores lies inside of the allocated block and can be read there afterwards, and an element that is popped has been read from the block.", "quantifier": "all operands, indices, widths, buffers and stacks", "why_tests_cant": "Undefined behaviour need not show in a run; the claims that none occurs depend on no violation being overlooked.", "anchors": ["src/codec.c", "src/util.c", "src/precision.c", "example/util.c:49", "example/util.c:57", "example/calculator.c:595-626"]}
{"id": "C121", "title": "Logarithmic powers and roots are monotone in the base and in the index", "statement": "takumN_integer_power (N = 8, 16, 32): for bases of the same sign it increases or decreases with the base as the real function x^n does (increasing for positive bases or odd n if n >= 0, and so on, for the four combinations); an odd positive power increases over all numbers; for a fixed base that is at least 1 it increases with the exponent, for a positive base that is at most 1 it decreases. takumN_root (N = 8, 16, 32, 64): for radicands of the same sign it increases with the radicand for a positive index and decreases for a negative one; for a fixed radicand that is at least 1 it decreases with a positive index, for one that is at most 1 it increases. All 2^64 exponents and indices, although they are rounded to float or double first.", "quantifier": "all pairs of takums, all pairs of 64-bit integers", "why_tests_cant": "Pairs of 2^64 exponents; a rounding that reverses the order of two results would show for isolated pairs only.", "anchors": ["src/integer_power.c:24-56", "src/root.c:24-66", "src/codec.c:732-910"]}
{"id": "C122", "title": "Inverse trigonometric functions stay in their range, arctan2 in its quadrant", "statement": "Without any tolerance: arcsin, arctan and arccsc of a linear takum are NaR or between -PI_OVER_2 and PI_OVER_2, arccos, arcsec and arccot are NaR or between 0 and PI, where PI and PI_OVER_2 are the constants of takum.h for the type. Divided by pi (both families): arcsin_over_pi, arctan_over_pi and arccsc_over_pi are NaR or between the takums of -1/2 and 1/2 (exactly 1/2 for linear takums), arccos_over_pi, arcsec_over_pi and arccot_over_pi are NaR or between 0 and 1. arctan2_over_pi is between -1 and 1 and has the sign of its first argument or is 0; for linear takums its magnitude is at most 1/2 if the second argument is not negative and at least 1/2 otherwise; arctan2 of linear takums has the sign of the first argument or is 0, a magnitude of at most PI, at most PI_OVER_2 if the second argument is not negative and at least PI_OVER_2 otherwise.", "quantifier": "all takums that are numbers, all widths, every conforming math library whose inverse functions do not pass a floating-point number outside of their range", "why_tests_cant": "pi is not a floating-point number, so the largest results lie on either side of it and the quotient by the rounded constant can come out above 1 or 1/2; the tests compare with a tolerance and with the same expression.", "anchors": ["src/arcsin.c", "src/arccos.c", "src/arctan.c", "src/arccsc.c", "src/arcsec.c", "src/arccot.c:11-46", "src/arctan2.c:9-30", "src/util.h:9", "takum.h"]}
{"id": "C123", "title": "Inequalities between an elementary function and its argument", "statement": "Without any tolerance, for both families and every width: |sin(t)|, |arctan(t)|, |tanh(t)| and |arsinh(t)| are at most |t|; sinh(t) (never NaR), arcsin(t) and artanh(t) are NaR or at least as far from zero as t, on the same side; ln_1_plus(t) is NaR or at most t; exp_minus_1(t) and exp(t) are numbers that are at least t; ln of a positive t is a number that is at most t; hypotenuse(a, b) is a number that is at least |a| and at least |b|. For linear takums also: exp(t) is at least every takum with a value up to 1 + t, ln(t) is at most every takum with a value from t - 1, and hypotenuse(a, b) is at most every takum with a value from |a| + |b|.", "quantifier": "all takums that are numbers, all widths, every conforming math library whose results keep these inequalities for the floats (and, for logarithmic takums, whose logarithm is monotone)", "why_tests_cant": "the inequalities are equalities after rounding for arguments near 0 and at the ends of the range, where the conversion, the saturation (DBL_MAX, DBL_MIN in place of an infinity or 0) and the encoder could each cross the argument; the tests compare with a reference computed by the same path.", "anchors": ["src/sin.c:8-19", "src/arctan.c:8-15", "src/tanh.c:7", "src/arsinh.c:8-9", "src/sinh.c:7-8", "src/arcsin.c:8-15", "src/artanh.c:7", "src/ln.c:11-18", "src/exp.c:8-21", "src/hypotenuse.c:8", "src/util.h:24-201"]}
{"id": "C124", "title": "power, hypotenuse, arctan2, integer_power and root are monotone in each argument", "statement": "Without any tolerance, for both families and every width. power of a positive base is a number; it increases with the base for exponents >= 0 and decreases for exponents <= 0; it increases with the exponent for bases >= 1 and decreases for positive bases <= 1. hypotenuse is a number and increases with the magnitudes of its arguments. arctan2 and arctan2_over_pi increase with the first argument if the second is positive; they decrease with the second argument if the first is positive and increase if it is negative. takum64_integer_power, takum_linearN_integer_power and takum_linearN_root of positive numbers are numbers and monotone in the base and in the exponent or index in the same way, for all 2^64 exponents and indices (indices of the same sign), although the exponent of a root is 1/n rounded to long double.", "quantifier": "all takums that are numbers (positive where stated), all widths, all int64_t exponents, every conforming math library whose logarithm and whose pow, hypot and atan2 are monotone on the floats", "why_tests_cant": "the quantifier ranges over pairs of arguments of binary functions; overflow and underflow of pow are replaced by DBL_MAX and DBL_MIN, which could end up below or above a neighbouring result that did not overflow; the tests check single points against a reference computed with the same pow.", "anchors": ["src/power.c:11-21", "src/hypotenuse.c:8-11", "src/arctan2.c:7-31", "src/integer_power.c:57-164", "src/root.c:68-142", "src/util.h:100-201"]}
{"id": "C125", "title": "Exact results of elementary functions are returned exactly", "statement": "If the exact value of an elementary function at linear takums is a linear takum of the same width, the function returns that takum, although the math library only computes it up to an error: lb(8) = 3, lg(1000) = 3, hypotenuse(3, 4) = 5, 3^3 = 27 and the cube root of 27 is 3. With 8, 16 and 32 bits this holds for every function of one argument whose argument reaches the math library unchanged (all but sin_pi_times and the like, which multiply by pi, and the inverse functions that take a reciprocal first; for 2^x - 1 and 10^x - 1 unless the value is below 2^-9), for arctan2, arctan2_over_pi, hypotenuse and power, for integer_power and for root of positive numbers. With 64 bits it holds for integer_power always and for the other functions but root if the value is not between 1/4 and 4 in magnitude. So the root undoes an integral power that is exact.", "quantifier": "all linear takums and exponents for which the exact value is a takum, all widths as stated, every conforming math library with errors of at most two units in the last place (Approximates)", "why_tests_cant": "which arguments have exact values depends on the function; the tests compare with a reference computed by the same math library, and an error of the last place of the double or long double is not visible in them.", "anchors": ["src/lb.c:10-19", "src/hypotenuse.c:8-11", "src/power.c:11-21", "src/integer_power.c:57-164", "src/root.c:68-142", "src/util.h:100-201"]}
{"id": "C126", "title": "Elementary functions of linear takums are correctly rounded unless the value is next to a tie", "statement": "For linear takums of 16, 32 and 64 bits the result of an elementary function is as close to the exact value as any takum of its sign, up to 2^-42, 3 * 2^-50 and 2^-53 of the value (2^-49 for arcsch and arcoth with 64 bits). So whenever one takum is closer to the value than all others by more than that, it is the result; only values next to the middle of two takums may be rounded to the wrong side. If the value is in the range of the takums, the relative error is at most 2^-5, 2^-21 or 2^-53 plus the tolerance. This holds for all functions of one argument but 2^x - 1 and 10^x - 1 (for those that multiply by pi or take a reciprocal first, at a point within argTol of the argument), for arctan2, arctan2_over_pi, hypotenuse and power, for integer_power, and with twice the tolerance for root of positive numbers.", "quantifier": "all linear takums of 16, 32 and 64 bits that are numbers, all int64_t exponents and indices, every conforming math library with errors of at most two units in the last place", "why_tests_cant": "being the nearest takum compares the result with all other takums and with a real number that no float holds; the tests accept whatever the conversion of the same library call gives.", "anchors": ["src/util.h:100-201", "src/exp.c", "src/hypotenuse.c:8-11", "src/power.c:11-21", "src/integer_power.c:57-164", "src/root.c:68-142"]}
{"id": "C127", "title": "Logarithmic takums are rounded to the nearest on the logarithmic scale unless next to a tie", "statement": "The conversion of every finite float, double and long double to a logarithmic takum of every width gives the takum whose exponent (the position on the logarithmic scale) is closest to that of the float, up to 2^-50 (2^-41 for a float to 16 and 32 bits, whose logarithm is a double, and 2^-14 for a float to 8 bits), although the logarithm is rounded, partly encoded in more bits and narrowed from there; only 0 becomes 0, the sign is kept. The same holds with 2^-50 for the conversion from linear takums, with 2^-49 for the sum and difference of two logarithmic takums, for arctan2, arctan2_over_pi, hypotenuse, power and the 64-bit integer_power, and with 2^-47 for all functions of one argument but 2^x - 1 and 10^x - 1, of arguments within the error of their conversion. If one takum is closer to the value than all others by more than the tolerance, it is the result.", "quantifier": "all finite floats of the three types, all takums that are numbers, all widths, all int64_t exponents, every conforming math library, for the functions with errors of at most two units in the last place", "why_tests_cant": "whether an irrational logarithm is rounded to the nearest takum compares a real number with all takums; the tests only compare with the same conversion.", "anchors": ["src/conversion.c:44-256", "src/codec.c:732-910", "src/addition.c", "src/subtraction.c", "src/util.h:100-201"]}
{"id": "C128", "title": "Results of different operations compare like the exact values", "statement": "For linear takums of one width, if the exact value of one of a, a + b, a - b, a * b, a / b and the square root of a is at most the exact value of another of them, at any arguments, the takum returned for the first is at most that returned for the second; if the exact values are equal, the results are equal (a + a = 2 * a; division by a takum whose inverse is a takum is multiplication by the inverse). The same holds for logarithmic takums and a, inversion, multiplication, division, square root, roots and (8 to 32 bits) integer powers with indices below 2^24: the second root is the square root, the first root and power change nothing, the index -1 inverts, the second power is the square.", "quantifier": "all pairs of operations, all takums at which the exact values exist, all widths", "why_tests_cant": "relates every call to every other call; the tests look at one operation at a time.", "anchors": ["src/addition.c:14-23", "src/subtraction.c:12-26", "src/multiplication.c:16-64", "src/division.c:16-63", "src/square_root.c:13-60", "src/integer_power.c:24-55", "src/root.c:24-66", "src/inversion.c:6-52"]}
{"id": "C129", "title": "Powers of negative bases", "statement": "takumN_integer_power and takum_linearN_integer_power return for an even exponent the same bits for a base and its negation. For an odd exponent they return opposite takums: exactly for linear takums of 8, 32 and 64 bits, up to one unit for linear takum16 and logarithmic takums; 0 and NaR are never met halfway. takum_linearN_power with an even or odd integer as exponent is even or odd in the base bit for bit. For linear takums and takum64, on negative bases odd powers keep the direction of monotonicity of positive bases and even ones reverse it; odd positive powers increase over all numbers.", "quantifier": "all bases, all int64_t exponents, all widths, both number systems (power: linear, all integral exponents)", "why_tests_cant": "relates two calls; the tests compare single calls with the reference function up to a tolerance.", "anchors": ["src/integer_power.c:24-164", "src/power.c:11-21"]}
{"id": "C130", "title": "Absolute value and sign in calculations", "statement": "For multiplication and division of either number system, |ab| = |a||b|, |a/b| = |a|/|b|, sign(ab) = sign(a)sign(b) and sign(a/b) = sign(a)/sign(b) hold bit for bit (the signs for every pair of bit patterns, NaR and 0 included). For linear takums an inequality |x| <= |y| between the exact values of two calls of a, +, -, *, / and square root carries over to the results; in particular |a+b| <= |a|+|b|, |a-b| <= |a|+|b|, ||a|-|b|| <= |a-b| and ||a|-|b|| <= |a+b| after rounding. For logarithmic takums a+b <= |a|+|b| and |a+b| exceeds |a|+|b| by at most one unit.", "quantifier": "all takums (absolute values: not NaR), all widths", "why_tests_cant": "relates three to six calls; the tests look at one call.", "anchors": ["src/absolute.c:6-52", "src/sign.c:6-76", "src/multiplication.c:16-64", "src/division.c:16-63", "src/addition.c:14-23", "src/subtraction.c:12-26"]}
{"id": "C131", "title": "The interface is complete and consistent", "statement": "Every function that takum.h declares is defined exactly once in the files that the Makefile compiles, with the declared types, and every takum function that is defined is declared. For each of the eight types takum.h declares the same functions: those of one and of two takums, integer_power and root with an int64_t, precision, the conversions from each of the seven other types and from and to the three floating-point types. Every function in the table of the calculator is declared with the types that the calculator calls it with.", "quantifier": "all 608 prototypes, all definitions of the 47 source files, all types", "why_tests_cant": "takumN and takum_linearN are the same integer type, so that neither compiler nor linker notices a function of the wrong family or one that is missing from the header.", "anchors": ["takum.h:448-1284", "src/util.h:24-201", "src/conversion.c:1-283", "Makefile:18-65", "example/calculator.c:691-1544"]}
{"id": "C132", "title": "Manual pages match the interface", "statement": "The Makefile builds exactly one manual page for each function of takum.h. The synopsis of the page that the shell scripts write (return type, name, types of the arguments) is the prototype; the constant that the page says is returned for NaR is the one of the return type; the function under SEE ALSO exists for the same type. The condition under which the page of an elementary function says that NaR is returned reads as the condition that C106 compares with the functions.", "quantifier": "all 608 pages", "why_tests_cant": "the pages are generated by scripts that pass variables to each other; no test reads them.", "anchors": ["man/template/math_function.sh:1-27", "man/template/conversion.sh:1-31", "man/template/conversion_from_float.sh:1-30", "man/template/conversion_to_float.sh:1-32", "Makefile:121-730", "Makefile:1241-1242"]}
{"id": "C133", "title": "No foreign names are exported", "statement": "Every function of the library with external linkage is declared in takum.h or in a header of the library and has one of its prefixes takum, codec_ or util_.", "quantifier": "all definitions of the 47 source files", "why_tests_cant": "a clash of names appears only in a program that defines the same name.", "anchors": ["src/arccot.c:31-48", "src/arccsc.c:27-38", "src/codec.h:9-24", "src/util.h:224-227"]}
{"id": "C134", "title": "Manual pages give the type of the result", "statement": "The type that a page names under RETURN VALUES is the return type of the function.", "quantifier": "all 608 pages", "why_tests_cant": "no test reads the pages.", "anchors": ["man/template/math_function.sh:19-20", "man/takum64_precision.sh:1-8"]}
{"id": "C135", "title": "Everything is rebuilt after a change", "statement": "An object is compiled again by make after each change of a file that it is compiled from, a manual page is written again after each change of a script that is run for it: these files are prerequisites of the target in the Makefile.", "quantifier": "all objects of the library, the tests and the example, all 608 pages", "why_tests_cant": "a test run from a clean tree builds everything.", "anchors": ["Makefile:735-827", "Makefile:928-1215", "Makefile:1219-1242"]}
{"id": "C136", "title": "Installing and removing", "statement": "make install changes only the files of the installation (license, one page for each function and one for the library, the two libraries, the links, the header, the pkg-config file); make uninstall afterwards removes exactly these. After make install both libraries are in place under every preset, and where links are made each of libtakum.so, libtakum.so.MAJOR and libtakum.so.MAJOR.i with i <= MINOR leads to the library, among them the name that the linker writes into programs; a program linked with an earlier version of the same major version finds the later one.", "quantifier": "all version numbers, all four presets, all states of the target directories", "why_tests_cant": "depends on the version and on what is installed already; the tests do not install.", "anchors": ["Makefile:1253-1283", "config.mk:4-37", "configure:13-46"]}
{"id": "C137", "title": "configure can be run again", "statement": "configure replaces in config.mk the lines that set ANAME, SONAME, BINSUFFIX, SOFLAGS, SOSYMLINK or LDCONFIG by lines with the values of the system and keeps every other line, whatever config.mk contains; running it again, or for another system before, makes no difference; the config.mk that is shipped is the one it writes on Linux.", "quantifier": "all contents of config.mk, all pairs of systems", "why_tests_cant": "depends on the text of a file that users edit.", "anchors": ["configure:1-53", "config.mk:1-38"]}
{"id": "C138", "title": "The package is complete", "statement": "make dist makes a package with all files of the source tree that are needed to build the library, the programs, the tests and the manual pages, each in its place.", "quantifier": "all source trees (the failure), all files of the tree, all manual pages (the contents)", "why_tests_cant": "the tests do not make a package; a missing file shows only when somebody builds from it.", "anchors": ["Makefile:116-119", "Makefile:1287-1300"]}
{"id": "C139", "title": "Tests follow the sources, clean removes what was built", "statement": "After a change of any source file of the library or of a test, make test runs the test again. Whatever make needs for the libraries, the programs and the tests is either a source file, which clean keeps, or a file that clean removes; clean removes no source file.", "quantifier": "all tests and source files, all chains of prerequisites, all presets and versions", "why_tests_cant": "a test that is not run again reports success; the property is about which tests are run.", "anchors": ["Makefile:829-926", "Makefile:1285-1286"]}
{"id": "C140", "title": "The midpoint of two linear takums", "statement": "For linear takums a \u2264 b, a + (b - a)/2 computed with the operations of the library is not NaR and lies between a and b; so does (a + b)/2.", "quantifier": "all widths, all pairs of takums", "why_tests_cant": "bisection relies on it; a pair for which the midpoint lies outside is rare.", "anchors": ["src/addition.c:11-24", "src/subtraction.c:11-26", "src/division.c:49-63"]}
{"id": "C141", "title": "The overview refers to every function", "statement": "libtakum(7) refers to the manual page of every function of takum.h exactly once, by the name of the page.", "quantifier": "all functions of takum.h; all lists of names (the loop)", "why_tests_cant": "the tests do not look at the manual; the page is written without an error.", "anchors": ["man/libtakum.sh:143-154", "Makefile:121-729", "Makefile:1244-1245"]}
{"id": "C142", "title": "The overview names the macros and their values", "statement": "The synopsis and the description of libtakum(7) name exactly the macros that takum.h defines, each type has all of them, and the number in the comment is the one that the macro is closest to.", "quantifier": "all macros of takum.h, all lines of the synopsis", "why_tests_cant": "the test of the constants does not read the manual page, and compares with literals of the same origin as the macros.", "anchors": ["man/libtakum.sh:20-136", "takum.h:18-446"]}
{"id": "C143", "title": "All reduced multiples of pi, and their inverses", "statement": "There is a constant for every reduced fraction a\u03c0/b with a and b in {1,...,6}, and for logarithmic takums the inverse of a constant is the takum closest to the inverse of the number, so that all b/(a\u03c0) are obtained by inversion.", "quantifier": "all fractions, all constants, all widths", "why_tests_cant": "the test of the constants does not invert them.", "anchors": ["man/libtakum.sh:123-140", "takum.h:51-446", "src/inversion.c:6-52"]}
{"id": "C144", "title": "Products, quotients and roots keep the precision", "statement": "The precision reported for the product or the quotient of two numbers that are neither zero nor NaR is at least the smaller of their precisions less one bit; the square root of a positive number is reported with at least the precision of the number. Both number systems.", "quantifier": "all widths, all pairs of takums, both kinds", "why_tests_cant": "takum precision is tapered; a chain of operations that loses more than a bit per step would only be seen by comparing the precision of every pair of arguments and the result.", "anchors": ["src/precision.c:32-149", "src/multiplication.c:16-64", "src/division.c:8-63", "src/square_root.c:8-60"]}
{"id": "C145", "title": "Repeated square roots reach 1", "statement": "From every positive number, repeated square roots reach exactly 1 after at most n + 5 steps, where n is the width, and stay there. Both number systems.", "quantifier": "all widths, all positive takums, all numbers of steps", "why_tests_cant": "a loop that takes square roots until the result is 1 either ends or does not; whether a number exists at which the root stops to change is a question about every number on the way.", "anchors": ["src/square_root.c:8-60", "src/codec.c:732-910"]}
{"id": "C146", "title": "Repeated doubling and halving reach the ends", "statement": "A positive linear takum that is doubled (a + a) again and again reaches the largest number after at most 510 steps, and divided by two again and again the smallest positive number, never zero or NaR.", "quantifier": "all widths, all positive linear takums, all numbers of steps", "why_tests_cant": "loops that double or halve until a bound is passed rely on it; there must be no number that is its own double.", "anchors": ["src/addition.c:8-24", "src/division.c:8-63", "takum.h:30-49"]}
{"id": "C147", "title": "Sums of numbers of one sign keep the precision", "statement": "The precision reported for the sum of two linear takums of the same sign, neither zero nor NaR, is at least the smaller of their precisions less one bit.", "quantifier": "all widths, all pairs of linear takums of one sign", "why_tests_cant": "as C144; a sum that loses more than a bit would only be seen by comparing the precision of every pair of arguments and the result.", "anchors": ["src/precision.c:32-149", "src/addition.c:8-24"]}
{"id": "C148", "title": "Counting in linear takums", "statement": "After k additions of 1 the integer i has become i + k, but no more than 2^3, 2^9, 2^24, 2^55 with 8, 16, 32, 64 bits, where the count stops without becoming NaR; the same downwards. A loop that counts from 0 to N ends if and only if N is within the bound.", "quantifier": "all widths, all integers within the bound, all numbers of steps", "why_tests_cant": "a loop with 2^55 steps cannot be run; that it never ends beyond cannot be observed at all.", "anchors": ["src/addition.c:8-24", "src/subtraction.c:8-26"]}
{"id": "C149", "title": "What is lost when it is added to 1", "statement": "For linear takums of n bits, 1 + x = 1 exactly if x is at most half of the distance from 1 to its neighbour: -2^-(n-3) <= x <= 2^-(n-4). In particular the loop that halves x until 1 + x = 1 finds the reported precision of 1.", "quantifier": "all widths, all linear takums x", "why_tests_cant": "programs that look for the machine epsilon or stop an iteration when the sum does not change rely on it; the threshold is a single number among 2^64.", "anchors": ["src/addition.c:8-24", "src/precision.c:32-149"]}
{"id": "C150", "title": "The geometric mean of two logarithmic takums", "statement": "For positive logarithmic takums a <= b, sqrt(a * b) computed with the operations of the library lies between a and b.", "quantifier": "all widths, all pairs of positive takums", "why_tests_cant": "bisection on a logarithmic scale relies on it; two roundings have to work together for every pair.", "anchors": ["src/multiplication.c:16-46", "src/square_root.c:8-46"]}
{"id": "C151", "title": "Integer quotients and integer square roots", "statement": "For linear takums that are integers within the bound of C110, the integer part of the computed quotient of i >= 0 and j > 0 is the integer quotient, and the integer part of the computed square root is the integer square root: rounding never reaches the next integer.", "quantifier": "all widths, all pairs of integers within the bound", "why_tests_cant": "the failing pairs are those whose quotient lies extremely close below an integer; the smallest one found has 55 bits.", "anchors": ["src/division.c:48-63", "src/square_root.c:48-60", "src/codec.c:446-560"]}
