# libtakum: formal model and proofs (Lean 4)

## What is here

* `properties.jsonl` – the properties, in terms of the public API.
* `lean/Verif/` – the model (`Model/`), the independent format specification (`Spec`), helper lemmas, and the property theorems (`Props/`).
* `MANIFEST.json` – property → theorem names.
* `seeded/LOG.jsonl` – log of deliberately wrong model edits and the theorems that caught them.

## Trusted base

* Lean 4.33.0's kernel. Theorems depend on at most `propext`, `Classical.choice`, `Quot.sound`. No axioms are added, no `sorry`, `native_decide` or `bv_decide`.
* The reading of the C code: each definition of the model carries the file and lines it models. The code was not executed.
* The platform: x86-64 System V ABI, GCC/Clang. `float`/`double` are IEEE binary32/binary64 evaluated in their own format (`FLT_EVAL_METHOD == 0`), `long double` is the 80-bit x87 format (64-bit significand), round to nearest ties to even, no FMA contraction (`-std=c99`). Converting an out-of-range integer to a narrower signed type wraps (implementation-defined, GCC's choice). `int` has 32 bits, `int_fast16_t` 64.
* Neither `__BYTE_ORDER` nor `__BIG_ENDIAN` is defined by the headers that `codec.c` includes, so that `#if __BYTE_ORDER == __BIG_ENDIAN` reads `0 == 0` and the layout `fraction; sign_exp` is chosen – which is the x86 layout. (With the macros defined for a little-endian machine the code would read the wrong bytes; see C54.)
* The C math library: `frexp*`, `ldexp*`, `floor*`, `fabs*`, `fmodl` are modelled exactly (they are exactly specified). `log`, `pow`, `exp`, `sin`, … are *parameters* of the model (structure `Libm`); every theorem about a function that uses them states what it assumes (C99 Annex F special values, or an error bound) as an explicit hypothesis, and an instance satisfying the hypotheses is constructed (correctly rounded real functions).

## Shape of the model

* `C α := Except UB α`: undefined behaviour (shift out of range, signed overflow, table index out of range, float→integer out of range) is a distinct outcome. A theorem `f x = .ok y` therefore also says that no undefined behaviour occurs.
* Takums are `BitVec n`; `.toInt` is the C integer, `.toNat` the bit string.
* Floats are `Fl`: `nan | inf sign | zero sign | num q` with `q : ℚ`; operations compute the exact rational and round it to the format (`Fmt`: precision, minimal exponent, overflow exponent).
* `Spec`: the takum format as in the takum paper: S, D, R, C, M fields, characteristic, mantissa, ℓ, logarithmic value `(-1)^S √e^ℓ` and linear value `((1-3S)+f)·2^e`. It does not refer to the model.

In the calculator the output is the list of the things printed (results, messages, prompts), not their text; the digits that `printf` chooses for `%.*Lg` are left out, `strtold` is a parameter, `strtok` does not write its zeros into the line (the next `getline` overwrites the line from its start), allocation failures are covered by C57 and C72 only.

In the test harness (`test/util.c`) `rand()` and the exception flags read after the reference function are arbitrary inputs; the messages and the names of the functions are left out.

Not modelled: `errno`/floating-point exception flags in the library, NaN payloads, the recipes of the Makefile that compile and link, and `format` (the prerequisites are modelled for C135 and C139, `install`, `uninstall` and `configure` for C136 and C137, `dist` and `clean` for C138 and C139; the failure of other commands, such as `ldconfig` without permission, is not), the prose of the manual pages (the names in libtakum(7) are modelled for C141–C143, the synopsis and the conditions for NaR are modelled for C132).

## Plan per property

Common tool: the map `ψ : [0,16) → [-255,255)`, `ψ(u) = bias(⌊u⌋) + 2^{r(⌊u⌋)} · frac u`, is strictly increasing, piecewise linear with ψ(16-u) = -ψ(u); the bits of a takum without the sign are `u·2^(n-5)`. Everything about order, negation, inversion, rounding and saturation reduces to facts on ψ and on round-half-even on ℚ.

| id | modelled and how proved |
|----|----|
| C01, C02 | spec values; strict monotonicity of ψ, exp and the linear map λ(x) = (1+frac x)·2^⌊x⌋ |
| C03 | ψ(16-u) = -ψ(u) |
| C04 | float model of the decoders; exactness of each operation |
| C05, C06 | exactness of decoder, `l` extraction and encoder on representable numbers |
| C07, C56 | clamping in the encoder, case analysis of special values |
| C08, C10 | monotonicity of rounding and of the encoder; C10 = C08 + C05 |
| C09 | l exact (no rounding) + encoder nearest on the 2^-64 grid |
| C11 | oddness of rounding, ψ symmetry |
| C12 | refuted by concrete witnesses (double rounding); partial: faithful (C10), correct for up to 16 significant bits, and for all arguments nearest up to a stated slack relative to the argument (`Props/LinAlmost.lean`) |
| C13, C14 | bit level, ψ does not depend on n |
| C15–C17 | round-half-even of `bits / 2^(N-M)`; ψ piecewise linear on each interval between neighbours |
| C18 | refuted by witness; partial: results differ by at most one unit |
| C19, C20 | bit level + ψ symmetry |
| C21 | 8/16 bits proved; 32/64 bits: undefined behaviour exactly for NaR |
| C22, C23 | bit level |
| C24–C27, C32 | l sums exact for 8/16/32 bits; for 64 bits rounding of the sum: refuted for correct rounding, faithful proved, and nearest up to 2^-63 of the exact position (`Props/LogAlmost.lean`) |
| C28 | exact halving |
| C29, C30, C31 | float multiplication/division of l; C31 refuted for 64 bits by witness, and within one unit (`Props/LogAlmost.lean`) |
| C33–C37, C58 | wrapper model with IEEE addition etc.; every operation reduces to `linEnc (round (exact result))`; 8/16-bit sums and products are exact or the small summand does not matter |
| C35, inversion = division of one | `inversion` divides in `long double` and rounds to `double`, `division` divides in `double`; `Lemmas/InvDouble.lean` shows that the two `double`s V⁻¹ differ only if V·(2H+1) is within V/2^11 of a power of two. For 8 bits all takums are computed, for 16 bits only 2731/2048 and its double remain (example in `Props/LinInversion.lean`). For 32 bits different takums would need the middle of two takums, an odd n of p+2 bits, with V·n = 2^k ± j, 1 ≤ j ≤ 8; this is excluded by the parity of n and, for p = 26 and 27, by dividing 2^k by every V in the intervals that remain (`Lemmas/InvCheck.lean`, in the kernel) |
| C38 | `sqrt` is modelled concretely as the correctly rounded square root (proved equal to rounding the real root) |
| C39–C41 | wrappers parametric in `Libm`, Annex F hypotheses on NaN; C40/C41 contain refutations |
| C42–C44, C53, C59 | `Lemmas/Call.lean`: what is known of the float made from a takum (sign, size, and that it is separated from ±1 unless the takum is ±1); then one lemma per function (`Lemmas/Domain.lean`). The documented sets are in `Manual.lean` |
| C45 | `fmodl` is exact, so the special cases of the code are decided by the residue of 2x modulo 4; the refutations at -1 and -1/2 bound sin near π with `PI - π` between 4e-20 and 6e-20. `pi_times_exact_partial` gives, for a math library with the accuracy of `Approximates`, the exact sets of arguments where each function is 0 and NaR, hence the failure at every negative odd integer and half-integer |
| C46–C49 | parametric in `Libm`, error bound hypotheses over ℝ |
| C51, C60 | `xv`: the number a logarithmic takum is converted to; the gap between neighbours exceeds the error of `pow`, hence order and, with `x80` addition, the sign of a sum |
| C52, C61, C62 | `Lemmas/Powers.lean`: `pow` followed by the corrections in the code, from the sign rules of C99 F.9.4.4 (`PowSigns`) |
| C50 | all results are `.ok`, for every `Libm` and all floats (representable or not), `no_undefined_behaviour`; the sign and the bitwise inversion are modelled a second time with their integer arithmetic written out (`signC`, `inversionC`, proved equal to the first model); the elementary functions in `no_undefined_behaviour_elementary` |
| C54 | `Model/LongDouble.lean`: the parts of the encoders that depend on `LDBL_MANT_DIG`, for all three formats; `long_double_partial` (80-bit format, and integers for the others), `long_double_refuted` and `long_double_saturation_refuted`. The stub of `codec_takum64_to_l` for 53 bits (lines 209-215) is modelled for C96; formats that are not supported are not modelled |
| C55, C63 | `Model/Constants.lean` is the table of takum.h, `ConstSpec.lean` the named reals; each real is enclosed in a rational interval (π from Mathlib, logarithms from the exponential series, Euler's constant from H_65536 and two terms of its asymptotic expansion, which is proved monotone) and compared in the kernel with the midpoints to the neighbouring takums |
| C72 | `Model/Getline.lean`: the buffer is a block of memory, every write is checked, the results of `malloc` and `realloc` are an arbitrary function of the size; induction over the bytes of the file |
| C73 | `Model/Operators.lean`: the table with the names of the functions as text, the names of the library, the resolution of a name; complete evaluation over the table (finite) |
| C74, C76 | `LiteralSpec.lean`: the grammar of integer literals of C99; `strtoll` is modelled exactly and shown to accept the grammar; `strtold` is a parameter; accuracy from C07, C69 |
| C75, C77 | `Model/CalcText.lean`: `number_from_string`, `number_from_takum…`, `number_print`, `process_token`, `strtok`, `main`; `CalcSpec.lean`: the session. Simulation proof (`Lemmas/CalcNumber`, `CalcStep`, `CalcMain`), the loop over lines by induction on what is left of the file; C77 from C50. `Props/ProgramUndefined.lean` names the two ways a word can be undefined (`Fatal`) and shows that the program is undefined exactly if the session reaches such a word (`calculator_undefined_iff`) |
| C57, C65 | `Model/Calculator.lean`: operational model of the stack with the results of `realloc` as input, of `process_token` (a token is what it is recognised as) and of `main`; refinement of lists, then of expression trees |
| C66, C67 | `ElemSpec.lean` states the real functions, their poles and the tolerated errors. `LibmAcc.lean` adds the hypothesis that the library is within two units in the last place. Errors are tracked through the C functions on the float side (`Lemmas/ElemNear.lean`, one lemma `good_f` per function in `Lemmas/Elem*.lean`): the result is the exact value at a slightly changed argument, up to a relative error. The conversions add the error of `log`/`pow` and one faithful rounding (`Lemmas/Faithful.lean`). That sin and cos of a float are not tiny follows from a rational lower bound on the distance of floats to multiples of π (`Lemmas/PiRat.lean`) |
| C68 | `BinSpec.lean` states the real functions of two variables and the tolerances; `Lemmas/BinAcc.lean` has one lemma per function, `Lemmas/BinAcc2.lean` the sum of two floats and the powers. In `linRoot` the rounded reciprocal of the index changes the result by at most `\|ln x\|·2^-64`, which is why its tolerance is 2^-55. The error is measured at points next to the arguments, since subtraction of close logarithmic takums loses all relative accuracy with respect to the exact arguments (the conversion to float costs 2^-56) |
| C69 | `ConvSpec.lean` states the tolerances and the hypothesis on `powf` (`AccurateF`). A relative error ε of `log` becomes an error of at most 131 ε of the encoded number, because numbers beyond e^±127.5 saturate; the rounded constant √e and exponents up to 255 cost 306 units in the last place in the other direction, which is why `takum32_to_float64` is accurate to 2^-44 only (`Lemmas/ConvAcc.lean`) |
| C70 | e^q is irrational for rational q ≠ 0 (`Lemmas/ExpIrrational.lean`, from the analytical part of the Lindemann-Weierstrass theorem in Mathlib), so no float and no linear takum has the number of a logarithmic takum other than 0, 1 and -1; at these `log` and `pow` are exact (`Specials`) |
| C71 | `SymSpec.lean` lists the odd and even functions and states the symmetries assumed of the math library (`Libm.Symmetric`, satisfied by the ideal library, `Lemmas/IdealSym.lean`). Rounding, division, products and casts of floats are odd; the linear encoder is odd for these formats (C11), the logarithmic one is faithful for both signs, which leaves one unit because the bits of ℓ below 2^-64 are dropped downwards (`Lemmas/Symmetry.lean`, `Lemmas/SymmetryCall.lean`) |
| C78, C79 | `MonoSpec.lean`: a monotone math library (not demanded by C; the ideal library is monotone, `Lemmas/IdealMono.lean`) and the lists of increasing and decreasing functions. Rounding, casts, products with constants and reciprocals are monotone on floats (`Lemmas/MonoFl.lean`), both encoders are monotone for floats of the same type (`Lemmas/MonoConv.lean`), so are the decoders by the gap between neighbours; `Lemmas/MonoElem.lean` composes them per function, `Lemmas/MonoCall.lean` adds the corrections made after the call (saturation of `exp`, `csch`) |
| C80 | `PointSpec.lean`: the points and the values of C99 Annex F (`Libm.Points`, satisfied by the ideal library); evaluation of the C functions at them, the round trip C05/C47 for the hypotenuse |
| C81 | the first conversion is faithful (C69), so that the wider takum is closer to the number than 1/256 of the distance of narrow takums (`ell_bracket`); the errors of `pow` and `log` are added and compared with the distance of neighbouring takums (`ell_gap`) |
| C82 | `Model/TestUtil.lean` models `test/util.c` as a state machine; the run of the sampler is given in closed form (`Run`), the loop is an induction over it (`run_report`), the sweep is a bijection with the values; `TestSpec.lean` says independently what a passed case is |
| C83 | the shift register is a linear map whose `(2^n-1)`-th power is the identity while no power by `(2^n-1)/p`, `p` prime, has a fixed point; both are computations with polynomials over F₂ (`lfsr_period`) |
| C84 | `Model/TestBlocks.lean` has the five programs; every case passes because the results are exact (C05, C06, C22, C23, C47, C56), so every sample does (C82, C83). The absolute value of NaR is undefined for 32 and 64 bits (C21), which makes its test depend on the seed |
| C85 | from the specification of a passed case (C82); a wrong sign function is shown to pass |
| C86 | `Model/TestFuns.lean` has the programs. Conversion is faithful (C05), so the `double` and the `long double` result of one exact value round to neighbours (`rounded_near`). For the tests of the logarithmic multiplication, division, inversion and square root see C90 |
| C87 | the reference functions are transcribed from the tests, function by function, and shown equal to those of `Model/Elementary.lean`; the cases pass by C82 |
| C88 | `Model/TestConstants.lean` has the literals and the comparisons. Rational bounds of the logarithm of each literal (by `exp_iv`, 90 bits) and the monotony of the encoder leave the encodings at two neighbouring `long double` numbers to be computed. An exit status that is 0 for 256 failures (the status is the count modulo 256), cannot occur under either hypothesis |
| C89 | `Model/TestInt.lean` has the reference functions, the blocks and the lists of integers. The function and the reference convert the same result of `powl`, unless it is infinite or zero: then the function converts `DBL_MAX` or `DBL_MIN` and the test expects the largest or smallest takum (`from_huge`). The exception flags are an assumption on the environment (`Raises`), satisfied by `raising L ref` for every library |
| C90 | result and reference are encodings of numbers `q` and `p` on the logarithmic scale. `ref_conv` bounds `|p - q|` from the accuracy of `powl` and `logl` (`Libm.Accurate`); `near_small` and `near_big` compare that with the distance of takums, so that no takum can lie strictly between. The undefined case uses that the base `SQRTE` of the library is larger than the square root of e by half a unit (`sqe_log_low`): a tie between the two largest takums is shifted upwards in the reference |
| C91 | `approx_conv` is `ref_conv` for a value of `powl` with an error of two units (`Libm.Approximates`). The error of the argument is multiplied by the exponent; it stays below the distance of takums as long as the result is in range, because `ℓ` is 0 or at least `1/2^(n-5)` (`ell_zero_or`); beyond, both sides saturate (`Next.sat`, `expected_sat`). For a root the error is divided by the index and the rounding of `1.0l/n` adds half a unit of the result |
| C92 | The expected value is the `long double` result after the fixer, converted (`fixes_all`, `expected_fix`); the logarithmic types and the 64-bit linear one compute just that. For the narrow linear types `pair_all` shows for each function that the results in `double` and `long double` convert to neighbours: both approximate the same real number (`res_pair`, from `good_all` of C66), or both are outside of the range of the takums (`outside_pair`), or one is the cast of the other (`cast_pair`). `Signals` is the hypothesis on the flags: overflow exactly for infinite results of functions that grow (a zero of `csch` and `sech` may raise it, too), and one of the flags for the zeros of functions without zeros |
| C93 | as C92 (`expected_gen`), with `Good2` of C68 for both float types (`pair2_good`). `NaN^0` and `1^NaN` are 1 for function and reference (`ev_nan2`); for a base zero the fixer gives 0 or NaN, as does the conversion of the reference |
| C94 | `Model/Fraction.lean` adds the function for `float`, which is never called. The first `N` bits are rounded by `utilRound` (`fracSpec_float`, `fracSpec_double`, `fracSpec_extended`); `rne_dropped` compares that with rounding the fraction itself. `fraction_bits_partial`, `fraction_bits_refuted`, `encoder_lost_tie` |
| C95 | `utilRound` of `Model/Util.lean`, each width; the specification is `IsRne` of the fixed point number. `round_bits_partial`, `round_bits_refuted`, `round_bits_undefined` |
| C96 | `Model/LongDoubleOps.lean`: decoders, encoders and the logarithmic functions that use only these, for the three formats; equal to the main model for the 80-bit format and for 16 bits (`ld_same`); quotient by 1 and first root are the product with 1, the square root is the second root (`ld_laws`). From `ld_spec` of C54; `exists_double` is the takum with the doubled mantissa |
| C97 | `multiplication`, `squareRoot`: doubling a logarithm costs at most one bit of the regime, which the precision of 12 or more bits covers (`psi_double`, `exists_square`), so that the sum is exact in the format of `l` and the encoder finds it. False for 8 bits |
| C98 | `inversion`, `multiplication`, `division`, `squareRoot`, `integerPower`, `root`: rounding to the format of `l` is odd, and where the encoder is symmetric in the sign the opposite logarithm gives the complement of the 63 (31, 15, 7) low bits (`enc_inversion`). False for the 64-bit root |
| C99 | `linDivision`, `linInversion`, `linSquareRoot` for 8 and 16 bits: a quotient or root of takums that is not halfway between two takums keeps a distance from it (`quot_gap`, `sqrt_gap`) that the `double` in between resolves (`gap_nearest`); the 8-bit square root by evaluation of all 127 arguments. False for 32 and 64 bits For 32 and 64 bits nearest up to the error of the intermediate rounding (`wide_real`), with witnesses that no more holds |
| C100 | `runBlock` over `runType` for each of the eight types, with the reports of C82 and C83 (`zero_core`) |
| C101, C102 | `linAddition`, `linSubtraction`, `linMultiplication`, `linDivision` of 32 and 64 bits. A 32-bit sum that is no `double` has summands so far apart that the smaller one is less than a quarter of the distance of the takums around the larger one; with the regimes of both summands (`lv_sig_reg`) this holds without exception, so no double rounding occurs (`sum32`). The other operations: nearest up to the error of the intermediate rounding (`wide_almost`), and witnesses that no more holds |
| C103 | `linSubtraction`. The difference is a multiple of the unit of the smaller argument and no larger than it; the unit of the takums of smaller magnitude is never larger (`lsb_mono`), so the difference is a takum (`sterbenz_pos`), and a takum is returned as it is (C102's `linEnc_qv`). 8 bits by the whole table |
| C104 | `precision`, `linVal`, `logVal`: consecutive patterns of the same sign are `2^-k` apart on the scale of `ell` and lie in a common unit interval (`psi_next`, `ell_step`), where `lam` is affine |
| C105 | `multiplication`, `division`: a sum of positions no larger than either is a multiple of the spacing at that place (`ell_sum`, `takum_exists`), so the product is a takum, and faithful rounding (C25) returns it |
| C106 | the NaN conditions of the manual pages word for word (`ManualNaR`) against the elementary functions: for 41 functions from C59 and C67; the other pages are refuted. Partial |
| C107 | the ranges required of the C library (`Libm.Conforming`) carried through the reciprocal, the subtraction of 1, the cast and the encoder; 1 and -1 are takums and fixed by every rounding |
| C108 | linear: from the monotone rounding of the sum and the absence of underflow; logarithmic: from C31's sign theorem and the monotonicity of `addition` |
| C109 | `integerPowerL`, `root`, `multiplication`: C97's `exists_square` repeated (`squares_ell`); product and quotient of the logarithm with `2^k` are exact in the format of `l`. The 64-bit `integer_power` calls `pow` and is left out of the claim |
| C110 | the linear operations round once to the float type and once to the takum (`linAddition_eq`, ...), so a result that is a takum is returned; an integer within the bound is a multiple of the local unit (`lin_takum_exists`, `int_tab`), 8 bits by evaluation of all patterns |
| C111 | as C110, with the regime no longer for a characteristic closer to 0 (`rg_closer`) |
| C112 | a faithful result is the number itself or one of two neighbours that enclose it (`bracket`); their distance is that of C104 for the least `precision`, `n - 12`; nearest up to the slack of C25, C27, C102 |
| C113 | a takum is a multiple of the unit of every smaller takum, and multiples of a unit up to the takum it belongs to are takums (`mult_ulp`, `ulp_takum`, from the monotone unit of C103); nearest (C37, C101) bounds the error by the smaller operand; C103 makes the first subtraction exact. 64 bits are not in the claim: `lin64_sum_error_refuted` has an error that is no takum. Examples show that the condition on the operands is needed |
| C114 | positions of `n`-bit takums are multiples of `2^-(n-5)` (`ell_multiple_n`), and multiples of `2^-(n-4)` within the range are positions of takums of every wider type (`wide_takum`, from C103), so that the wider result is exact; the nearest takum is unique (`nearestEll_unique`), so narrowing (C15) yields the narrow result (C25, C26, C28). Beyond the range both saturate |
| C115 | a takum is a multiple of the unit of its exponent (`lin_unit`), the unit of the wider type at the exponent of the product divides the product of the units (`rg_prod`), so the product is a takum of the wider type (`prod_takum`) and the operation, which rounds once to a format that holds all takums, returns it. The narrowing is C15 and uniqueness of the nearest takum; out of range both sides saturate. `lin32_multiplication_wider_refuted` shows a 32-bit product that differs, being rounded to double precision first |
| C116 | the precision is `n - 5 - r` for the regime `r`, a function of bits 2 to 5 that falls and rises around the middle (`precision_dr`, `rr_up`, `rr_down`); negation and inversion reflect these bits (`dr_flip`, `dr_flip0`), widening keeps them |
| C117 | induction over the list of operands from the one-step bounds of C112 (`sum_step`, `prod_step`, `logprod_step`); a positive partial sum is at least the smallest takum (`lin_min`), so only overflow needs a proviso. The lists and the loop are the specification's; the library has no function on arrays |
| C118 | a product `l * n` that is in range has at most 35 bits and is exact, every other one saturates, also where `n` is rounded; a quotient `l / n` differs from the middle of two takums by at least `2^-(n-4) / n`, more than all roundings together (`index_gap`, `quot_up`, `margin_exists`), so that the encoder decides as for the exact quotient (`enc_nearest_of`) |
| C119 | an exponent that is an integer is converted exactly (`to_integer`: in the logarithmic format only 0, 1 and -1 are rational), so that both functions call `powl` with the same arguments; the repairs of `power.c` and `integer_power.c` agree by cases (`power_ext`); `double` against `long double` as for the test suite (`pair2_good`) |
| C120 | the operations of `CSem.lean` and `Fl.toInt`, and the accesses to memory in the models of `getline` and of the stack, are characterised by the conditions of the C standard and the value as an integer, apart from their definitions; added after an edit of `Buf.put` that let a write one past the end go unnoticed still built |
| C121 | the product `ell t * n` and the quotient `ell t / n` with the rounded index are monotone, rounding is (`lF_mono`), and so is the encoder (`enc_mono`, C56), for both signs (`enc_both`) |
| C122 | assumes `Libm.Angles` (AngleSpec.lean: a result of `asin`, `acos`, `atan`, `atan2` does not pass a float outside of the range of the real function; the ideal library has this, `ideal_angles`); the quotient by the rounded `PI`, the sum in `arccotl` and the conversion to `double` are monotone and keep the bounds (`round_btw`), the encoder maps the two floats next to pi, pi/2 and 1/2 to the constants of the header (`lin_pi`, `lin_half`, all eight evaluated by the kernel), and it is monotone |
| C123 | assumes `Libm.Inequalities` (IneqSpec.lean: a result does not pass a float on the wrong side of the inequality of the real function; `ideal_inequalities`); a takum converts to a float and back to itself (C14, C17), its negation to the opposite float, the encoder is monotone, and `DBL_MAX` and `DBL_MIN` lie beyond all arguments (`fixSinh_beyond`, `fixInf_ge`) |
| C124 | assumes `Libm.MonotoneTwo` (MonoSpec2.lean: `pow`, `hypot` and `atan2` are monotone on the floats in each argument; `ideal_monotone_two`) and, for logarithmic takums, the monotone logarithm of C78; the conversion to floats is monotone, `DBL_MAX` and `DBL_MIN` lie beyond the range of the takums on the same side as the results they replace (`Cl`, `exp_cl`, `cap_cl`), and the encoder is monotone up to saturation (`faithful_cl`) |
| C125 | the float result lies within `Res` of the value (C67, C68); a float that close to a takum is encoded to it (`linFrom_close` in Lemmas/ExactNear.lean: rounding to the grid and the logarithmic map of the encoder move it by less than half the distance to the next takum); the root also has the error of the rounded exponent 1/n, hence no claim with 64 bits |
| C126 | `NearestUpTo` (real value, all takums of the sign); the float lies within `Res` of the value and is converted to an almost nearest takum (`lin_from_almost_partial`, C12), so the tolerances add up (`Res.nearest`); beyond 2^300 and below 2^-300 both saturate. Not for 8 bits, where the encoder alone is off by up to 2^-14 of the value, and only for linear takums |
| C127 | `NearestLogUpTo` (distances of exponents, all takums of the sign). The encoder is nearest up to its grid (`enc_almost`); where it goes through 64 bits, the intermediate takum is within 2^-52 of the position (`faithful_close`, from the spacing of C104) and narrowing is nearest (C15), which adds twice that; the error of `log` is at most 4 units of a number below 256. Beyond the range the outermost takum is chosen (`sat_best`) |
| C128 | calls as data (`LinOp`, `LogOp`), their exact values as a relation on the reals (`Exact`). Every operation rounds the exact value (linear) or the exact exponent (logarithmic) to the floating type once (`LinOp.Exact.enc`, `LogOp.Exact.enc`) and encodes it; both steps are monotone. Linear inversion (rounded twice) and functions of the math library are not included |
| C129 | hypothesis `PowSymmetric` on `pow`/`powl` (`PowSymSpec.lean`). The fixers of `integer_power.c` and `power.c` commute with negation (`intPowFix_neg`, `lin_power_negative`), the conversion from `long double` is odd for linear takums except 16 bits (finding for C11) and odd up to one unit otherwise (`eFrom_neg`). Logarithmic takums of 8 to 32 bits need nothing of `pow`: the sign is set apart from the exponent |
| C130 | from the laws on negation (C24, C26, C34, C35) and the rule of signs; `absolute_linEnc`: rounding and encoding commute with the absolute value, the order by C128. The sum of logarithmic takums is monotone (C78) and odd up to a unit |
| C131, C133 | `Model/Interface.lean`: the prototypes of takum.h and the definitions of each file of `src` with their linkage, as data; complete evaluation in the kernel (finite tables), the names are split into type and rest |
| C132, C134 | `Model/ManPages.lean`: the scripts in `man` (exports, defaults, calls) and the templates, with an interpreter; `Documents` and the words of the conditions (`phrases`, `Cond.holds`) are the specification; complete evaluation over the 608 pages |
| C135 | `Model/Makefile.lean`: the prerequisites, the lists of the targets, the includes; `Reads` and `Runs` are inductive, so that nothing is bounded; a list of prerequisites that contains the source and is closed under inclusion contains everything that is read |
| C136, C137 | `Model/Install.lean`: the recipes as steps on a file system (a function from paths), with the loop over the minor versions; config.mk and `replace_line`. Each step removes or changes a set of paths, the sets are united; a line of config.mk sets at most one of the variables of configure (their first three letters differ) |
| C138, C139 | `Model/Dist.lean`: the rules of libraries, programs and tests, `clean`, and `dist` as commands that can fail. The rules have four forms (`rules_cases`); sources and written files differ in the last letter of their names |
| C140 | The difference is rounded faithfully, and a positive takum is at most twice its predecessor (`pred_half`, from the spacing of C104), so that half of the rounded difference is at most the exact difference; then the order of the operations (C128) |
| C141–C143 | `Model/Overview.lean`: the macros of takum.h, the names and comments of man/libtakum.sh, its loop. The comments are read as real numbers (`Note.real`); evaluation over the lists; the inverses are compared with the midpoints to their neighbours like the constants in C63 |
| C144 | The numbers of one sign with a regime of at most `R` are an interval (`regime_iff`); the operations are ordered like the real values (C128, C129), hence the result lies between the results at the corners of the intervals (`mul_corners`, `div_corners`); the kernel computes all the corners (7 regimes, 4 signs, 4 widths). 8 bits with a regime of 3 or more have no precision to lose |
| C145 | The square root is monotone (C28, C38), so that a number between two numbers that end at 1 ends at 1; the square roots of the smallest and the largest number are followed by the kernel (`settles`), the smaller half of the logarithmic takums by inversion (C98) |
| C146 | The powers of two from `2^-254` to `2^254` are takums (C111), the operations are ordered like the exact values (C128): a number of at least `2^c` becomes one of at least `2^(c+1)` (`double_grows`, `halve_shrinks`); the last step saturates |
| C147 | as C144, with the sums at the ends of the interval of a regime |
| C148 | integers within the bound are added exactly (C110); the bound plus one is a tie that is rounded back, by evaluation; induction over the steps |
| C149 | addition is monotone (C128), so the numbers that are lost are an interval, whose ends and their neighbours are evaluated (`add_interval`, `lost_facts`) |
| C150 | the square root of the square gives the number back (C97), and both operations are monotone (C128, C28) |
| C151 | between the exact quotient and the next integer there is the takum `q + 1 - 2^-s`, as the numbers around a small quotient have more bits than the bound of C110; the operations are monotone (C128). For the larger quotients with 32 bits C102 suffices; the remaining cases with 8 and 16 bits are evaluated |
| C64 | the conversion to `int64_t` with its undefined cases, on the exact decoding of linear takums; for the logarithmic types the irrationality of C70 |

## Hypotheses on the math library

`LibmSpec.lean` has one structure per group of functions; a theorem takes only the ones it needs:

* `NaNs` (NaN in, NaN out, with the exceptions of C99 F.9), `Specials` (`log 1`, `pow(x, 0)`, `pow(1, y)`), `Powers` and `Logs` (finite results, no sign bit, crude bounds, for the calls made by the conversions), `Accurate` (`pow` and `log` within two units in the last place), `PowSigns` (C99 F.9.4.4: `pow` of a negative base, sign, no NaN, and that the root of a number in the takum range neither overflows nor underflows).
* `Exps`, `Logarithms`, `Hyperbolics`, `Inverses`, `Circular`: NaN outside of the domain, infinite at a pole, finite and crudely bounded elsewhere, signs. `Conforming` is all of them.
* `Approximates` (`LibmAcc.lean`): every function within two units in the last place where the result is between 2^-1000 and 2^1000, tiny or huge of the right sign elsewhere.
* `Increasing`, `Monotone` (`MonoSpec.lean`): the functions of the library are monotone where the real functions are; used in C78 and C79 only.
* `Inequalities` (`IneqSpec.lean`): a result of the math library does not pass a float on the wrong side of an inequality of the real function (`|sin x| ≤ |x|`, `x ≤ sinh x` for `0 ≤ x`, `log(1+x) ≤ x` and others); used in C123 only. The ideal library has it (`Lemmas/IdealIneq.lean`).
* `MonotoneTwo` (`MonoSpec2.lean`): `pow` of positive bases, `hypot` and `atan2` are monotone in each argument on the floats, and `hypot` and `atan2` return floats of the type; used in C124 only. C does not demand it; the ideal library has it (`Lemmas/IdealMono2.lean`).
* `PowSymmetric` (`PowSymSpec.lean`): `pow` and `powl` with an even integer as exponent do not depend on the sign of the base, with an odd one they pass it on. Used for C129 only. The ideal library has it (`ideal_pow_symmetric`).
* `Angles` (`AngleSpec.lean`): the inverse trigonometric functions do not pass a float outside of the range of the real function; used in C122 only. The ideal library has it (`Lemmas/IdealAngles.lean`).
* `Points` (`PointSpec.lean`): values of C99 Annex F at 0 and 1, `hypot` of a zero; used in C80 only.
* `AccurateF` (`ConvSpec.lean`): `powf` with a base between 1 and 2 within two units in the last place where the result is between 2^-120 and 2^120.

`Ideal.lean` defines a library of correctly rounded real functions; `Lemmas/Ideal.lean`, `Lemmas/IdealInv.lean` and `Lemmas/IdealAcc.lean` prove that it satisfies every structure, so no theorem is vacuous.

## Where the code disagrees with its documentation or with the intended property

Each is a theorem with a concrete witness (name in parentheses); the part of the property that holds is proved beside it.

1. `takum32_absolute(NaR)`, `takum64_absolute(NaR)` and the linear ones: signed overflow (`absolute_nar_refuted`, C21, C39).
2. `power(NaR, 0) = 1`, `power(1, NaR) = 1`, `power(0, 0) = 1` (`power_nar_refuted`, `power_zero_refuted`, C40, C41).
3. Float to linear takum is not always the nearest takum (C12), and `takum_linear16_from_extended_float` is not odd (C11).
4. `takum64_multiplication`/`_division` are not correctly rounded (C25, C27); `takum64_root` is not odd (C31); narrowing in two steps differs from narrowing in one (C18).
5. `arcoth` of the `takum_linear64` number 1 + 2^-59 is NaR: `arcothl` calls `atanh` (`arcoth_refuted`, C53). The numbers concerned are exactly the 32 takums next to 1 and the 32 next to -1 (`arcoth_lin64_partial`). `arcschl` likewise calls `asinh`, which costs accuracy only.
6. `takum_linearN_root` of a negative number with an odd index of magnitude ≥ 3 is NaR, as `powl` of a negative number with exponent 1/n is (`lin_root_refuted`, C52). The logarithmic version returns the negative root.
7. `TAKUM64_6_PI` and `TAKUM64_6_PI_OVER_5` are one above the takum closest to 6π and 6π/5 (`constants_log_refuted`, C63).
8. `stack_push` in example/calculator.c increases `capacity` before `realloc` and keeps it when `realloc` fails; the next line writes through a null pointer (`stack_refuted`, C57).
9. The calculator converts results of the linear types to `int64_t` without checking; undefined for NaR and for numbers that do not fit, as for `1 0 /` (`integer_marker_refuted`, C64).
10. `fmodl` keeps the sign, so the `_pi_times` functions do not recognise negative odd integers and half-integers: `sin_pi_times(-1)` is not 0, `csc_pi_times(-1)` is not NaR, and so on (`pi_times_refuted`, C45).
11. On platforms whose `long double` has 53 or 113 bits the 32- and 64-bit encoders are wrong for every `l` that is not an integer: `q++` in `extended_float_fraction_to_rounded_bits` (src/codec.c:514, 533) leads to a shift by -1 for fractions of at least 1/2 and doubles the other fractions (`long_double_refuted`, C54).
12. With 53 bits the constant `bound` of the 64-bit encoder is rounded to 255 and the clamping has no effect: too large a number becomes √e^127, a large negative one NaR (`long_double_saturation_refuted`, C54).
13. The calculator takes integers below -2^63 for -2^63 and 2^63 - 1 for NaR (`typed_integer_refuted`, C74). `strtoll` clamps, so that the comparison with `INT64_MIN` never holds and the one with `INT64_MAX` holds for that number itself, which also is the marker for "no integer".
14. The calculator shows an integer that is typed as typed even if the current type cannot hold it (`shown_typed_refuted`, C76).
15. `0 inv abs` in the initial type of the calculator is undefined (`calculator_defined_refuted`, C77).
16. The random tests of functions of two 16-bit takums report 4194304 checks but make only 65536 different ones: the two shift registers have the same period 65535, so that the pairs repeat (`pairs_visited_16`, C83).
17. The test program for the absolute value is undefined for 32 and 64 bits when NaR is among its samples, which happens for example when `rand()` first returns 1 (`absolute_passes_refuted`, C84).
18. The comparison of the tests overflows `int64_t` when the largest 64-bit takum is expected and another one returned, so that such an error is undefined behaviour instead of a failed test (`undefined_64`, C85). Zero is accepted in place of the smallest number and NaR in place of the most negative one (`zero_accepted`, `nar_accepted`); a sign function that returns the number after 1 passes (`wrong_sign_passes`).
19. The tests of the elementary functions compare each function with itself: the reference is the `long double` function that the library uses (`reference_copies`, C87). `arcoth_unnoticed` and `sin_pi_times_unnoticed` show that the errors of findings on C53 and C45 pass, `wrong_sine_passes` that a library with sine 0 passes. test/arcoth.c:10 and test/arcsch.c:10 repeat the calls of `atanh` and `asinh` in place of `atanhl` and `asinhl`.
20. test/constants.c depends on the last bits of `logl` (`constants_accurate_refuted`, C88): for seven constants the logarithm of the literal is so near to the middle between two 64-bit logarithmic takums that an error of two units in the last place changes the takum. It does not notice the two constants of C63, as for them the rounded logarithm is exactly in the middle and the tie gives the macro (`constants_unnoticed`). Its exit status is the number of failures, of up to 288, modulo 256.
21. test/root.c cannot notice that the odd roots of negative linear takums are missing (finding on C52): the reference function has the same restriction, so that adding the index 3 to its list would not help (`root_unnoticed`, C89); the only odd indices in the list are 1 and -1.
22. The tests of the 64-bit logarithmic multiplication and division can execute undefined behaviour although the tested functions are right: for the factors `√e^128` and `√e^(127-3/2^53)` the product is `TAKUM64_POSITIVE_MAXIMUM - 1` and the converted reference `TAKUM64_POSITIVE_MAXIMUM`; the comparison computes the reference plus one in `int64_t` (`log_multiplication_refuted`, `log_division_refuted`, C90). The reference is the larger one because `SQRTE` as `long double` is rounded up.
23. The reference function of the test of the root is `powl(a, 1.0l / b)`, which is NaN for negative `a` and every odd `b` other than 1 and -1; the logarithmic root is right for these and would fail the test, the linear root is wrong (C52) and would pass (`root_test_fails`, C91; `root_unnoticed`, C89). The list of test cases contains no such index.
24. The mantissa functions drop the bits below the word before they round: `codec_takum16_from_s_and_l` of `2^-12 + 2^-65` is the takum of `ℓ = 0` although `2^-11` is closer (`encoder_lost_tie`, C94). The comments say "correctly rounded". The effect is limited to numbers within 2^-64 above a tie.
25. `util_round_uintN_to_number_of_bits` does not keep its promise that "any more significant bits are zero": a word of ones is rounded to `2^number_of_bits` for every number of bits. The callers rely on this carry. And 0 bits, inside the "proper range 0..N-1", is an undefined shift for 32 and 64 bits (`round_bits_refuted`, C95); no caller asks for it (C01, C15).
26. Where `long double` has 53 or 113 bits, the defect of C54 reaches the users of the library: `takum32_multiplication(t, TAKUM32_ONE)` is undefined or not `t` unless the mantissa of `t` is 0 (`long_double_one_refuted`, C96). With 53 bits every 64-bit function that decodes gives NaR; this is announced by a message of the compiler only.
27. Logarithmic squares are exact for 16, 32 and 64 bits but not for 8 bits: `takum_log8_multiplication(0x59, 0x59)` is `0x60` (`√e^15` instead of `√e^16`) and its square root is `0x58` (`square_exact_refuted`, C97). This is rounding, not a defect.
28. For 64 bits `root(t, -n)` need not be `inversion(root(t, n))`: with `t = 0x400000000000000b` and `n = 21` the results are `0x3fffffffffffffff` and `0x4000000000000000` (`inversion_root_refuted`, C98); the cause is that of C31.
29. The 32- and 64-bit linear divisions and square roots are not correctly rounded, because the quotient or root is first rounded to `double` (`long double`): `linear32_square_root(0x3fffffff)` is `0x40000000` although `0x3fffffff` is nearer to the root, `linear32_division(0x43b94177, 0x4414c343)` is `0x3f86cf4a` although `0x3f86cf4b` is nearer (`lin_division_nearest_refuted`, `lin_squareRoot_nearest_refuted`, C99). The inversion likewise: `linear32_inversion(0x47ffffff)`, the inverse of `2 - 2^-27`, is `0x38000000` although `0x38000001` is nearer (`lin_inversion_nearest_refuted`). Errors: `lin_arith_almost_partial`, `lin_inversion_almost_partial`, `lin_squareRoot_almost_partial`.
30. The 32-bit linear multiplication and the 64-bit linear multiplication, addition and subtraction are not correctly rounded, because the exact result is first rounded to `double` (`long double`): `linear32_multiplication(0x42163637, 0x4052a079)` is `0x427e6438` although `0x427e6437` is nearer, and `linear64_addition(0x4000000000000000, 0x10c0000000000001)` is `0x4000000000000000` although `0x4000000000000001` is nearer (`lin_arith_nearest_refuted`, C102). The 32-bit addition and subtraction are correctly rounded (`lin32_sum_nearest`, C101).
31. The NaN conditions of seven manual pages are wrong (C106, `manual_refuted`, `manual_root_refuted`, `pi_times_log_huge`). `arcsec_over_pi`: the domain instead of its complement, so the page is wrong for every number other than 1 and -1. `csc`: no condition although `csc(0)` is NaR. `tan_pi_times`, `sec_pi_times`: a comment calls the half-integers not exactly representable, but they are linear takums and the result is NaR. `csc_pi_times`, `cot_pi_times`: NaR for every logarithmic takum of magnitude at least 2^66, although none of these is an integer, because the argument becomes an even integer when it is converted to `long double`; the other four functions return 0, 1, 0, 1 there. `root`: NaR if "a and b are zero" where the code returns NaR for any a with b = 0, and for a = 0 with b < 0.
32. `power` and `integer_power` disagree for the exponent 0 and the bases 0 and NaR: `power(0, 0)` and `power(NaR, 0)` are 1, `integer_power(0, 0)` and `integer_power(NaR, 0)` are NaR, in all eight types (`power_integer_zero`, C119).
33. `arccot_over_pil`, `arccot_over_pi` (src/arccot.c:31, 41), `arccsc_over_pil` and `arccsc_over_pi` (src/arccsc.c:27, 33) lack the `static` of their siblings: the library exports four names without prefix (`linkage_refuted`, C133).
34. The manual pages of `precision` say that the result is given "as a takumN"; it is a `uint8_t` (`manual_result_refuted`, C134).
35. The Makefile has no prerequisites for six objects (10_raised, 2_raised, absolute, integer_power, root, sign; it has lines for exp2 and exp10, which do not exist), so that they are not compiled again after a change of their source; src/codec.h is missing for the seven objects that include it; the 320 pages of the linear types and of the conversions from them have no prerequisites (`make_objects_partial`, `make_pages_partial`, C135).
36. `make uninstall` stops at `rmdir` when there is another file beside the license, and leaves libraries, links, header and pkg-config file (`uninstall_refuted`, C136). After an upgrade it leaves the library of the earlier version (`uninstall_upgrade`).
37. `make dist` always fails: `DATA` is not defined, so that `cp` gets a single argument, and before that README does not exist (it is README.md). Beyond that, `MAN_TEMPLATE` lacks man/template/conversion.sh, so that the pages of the conversions between takums could not be written from the package (`dist_refuted`, `dist_readme`, `dist_pages`, C138).
38. As a consequence of 35, `make test` reports success without compiling a changed src/absolute.c, src/sign.c, src/root.c, src/integer_power.c, src/2_raised.c or src/10_raised.c (`make_test_refuted`, C139).
39. `a + (b - a)/2` can lie outside of `a` and `b`: with 16 bits it is `0x0011` for `0x0001` and `0x0002`, because the difference is rounded up to the smallest positive number. `(a + b)/2` is not `a` for `a = b = 0x4001` (`midpoint_refuted`, `mean_refuted`, C140). Both follow from takums having no subnormal numbers and from 2a having fewer fraction bits than a.
40. The loop of man/libtakum.sh prints `$man3` where it means `$LAST_MAN3`, so that the first page is missing and the last one is there twice; and `MAN3` contains the directory, so that the references of libtakum(7) read `man/takum16_sin(3)`, which no page is called (`overview_refuted`, `overview_partial`, C141).
41. The inverses of `TAKUM64_6_PI` and `TAKUM64_6_PI_OVER_5` are not the takums closest to 1/(6π) and 5/(6π), contrary to what libtakum(7) suggests; a consequence of the finding for C63 (`inverse_constants_refuted`, C143).
42. Repeated square roots of `takum_linear8` and `takum_linear16` numbers below 1 never reach 1: the square root of the largest number below 1, rounded correctly, is that number again (`lin_roots_stall`, C145). With 32 and 64 bits it becomes 1, because it is first rounded to a float, then as a tie to the even takum. With 8 bits doubling and halving do not change the smallest and the largest number (`doubling_refuted`, C146).
43. With 64 bits `1 + x` is 1 for `x` up to 17/16 of half the distance to the next takum, because the sum is rounded to `long double` first (`one_absorbs_refuted`, C149).
44. With 8 bits the square root of the product of `0x59` with itself is `0x58`, so that the geometric mean of a number with itself is another number (`geoMean_refuted`, C150, see C97).
45. With 64 bits the quotient of the integers 2^55 - 2^31 + 2^24 - 2 and 2^24 - 1 is returned as 2^31 + 1, although it is below it and both operands and the result have room to spare: the quotient is rounded to a tie in `long double` first (`lin_integer_quotient_refuted`, C151).

Observed while reading, not stated as theorems: the calculator has no operators for `2_raised`, `10_raised` and their `_minus_1` versions; `root` with an index that is not an integer ends the line without a message.
