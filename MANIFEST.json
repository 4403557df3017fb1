{"claims": [
 {"property": "C01", "status": "proved", "theorems": ["Takum.log_order", "Takum.nar_least"], "note": ""},
 {"property": "C02", "status": "proved", "theorems": ["Takum.lin_order", "Takum.nar_least"], "note": ""},
 {"property": "C03", "status": "proved", "theorems": ["Takum.neg_value"], "note": ""},
 {"property": "C04", "status": "proved", "theorems": ["Takum.lin_to_exact", "Takum.lin_to_rounded"], "note": ""},
 {"property": "C05", "status": "proved", "theorems": ["Takum.lin_roundtrip"], "note": ""},
 {"property": "C06", "status": "proved", "theorems": ["Takum.float64_roundtrip", "Takum.float32_roundtrip"], "note": ""},
 {"property": "C07", "status": "proved", "theorems": ["Takum.lin_from_total"], "note": ""},
 {"property": "C08", "status": "proved", "theorems": ["Takum.lin_from_monotone"], "note": ""},
 {"property": "C09", "status": "proved", "theorems": ["Takum.lin_from_nearest"], "note": ""},
 {"property": "C10", "status": "proved", "theorems": ["Takum.lin_from_faithful"], "note": ""},
 {"property": "C100", "status": "proved", "theorems": ["Takum.Test.block_status", "Takum.Test.zero_unary", "Takum.Test.zero_trip", "Takum.Test.zero_byte", "Takum.Test.zero_binary", "Takum.Test.zero_int"], "note": ""},
 {"property": "C101", "status": "proved", "theorems": ["Takum.lin32_sum_nearest"], "note": ""},
 {"property": "C102", "status": "partial", "theorems": ["Takum.lin_arith_almost_partial", "Takum.lin_arith_nearest_refuted"], "note": "False as stated (double rounding; lin_arith_nearest_refuted). Proved for all arguments of all four operations: the result is nearest up to 2^-52 (32 bits) or 2^-53 (64 bits) of the exact result."},
 {"property": "C103", "status": "proved", "theorems": ["Takum.lin_sterbenz"], "note": ""},
 {"property": "C104", "status": "proved", "theorems": ["Takum.precision_spacing_lin", "Takum.precision_error_lin", "Takum.precision_spacing_log"], "note": ""},
 {"property": "C105", "status": "proved", "theorems": ["Takum.product_toward_one_exact", "Takum.quotient_toward_one_exact"], "note": ""},
 {"property": "C106", "status": "partial", "theorems": ["Takum.manual_partial", "Takum.pi_times_log_huge", "Takum.manual_refuted", "Takum.manual_root_refuted"], "note": "false for arcsec_over_pi, csc, tan/csc/sec/cot_pi_times, arcoth (64 bits) and root; proved for the other 41 unary functions"},
 {"property": "C107", "status": "proved", "theorems": ["Takum.range_inside", "Takum.range_outside", "Takum.range_cosh", "Takum.range_minus_one"], "note": ""},
 {"property": "C108", "status": "proved", "theorems": ["Takum.lin_subtraction_order", "Takum.log_subtraction_order", "Takum.lin_addition_grows", "Takum.log_addition_grows"], "note": ""},
 {"property": "C109", "status": "proved", "theorems": ["Takum.power_two_exact"], "note": ""},
 {"property": "C11", "status": "partial", "theorems": ["Takum.lin_from_odd_partial", "Takum.lin_from_odd_refuted"], "note": "False for takum_linear16_from_extended_float (lin_from_odd_refuted). Proved for the other eleven functions and all floats."},
 {"property": "C110", "status": "proved", "theorems": ["Takum.lin_integers", "Takum.lin_integers_sharp", "Takum.lin_integer_arithmetic", "Takum.lin_integer_root"], "note": ""},
 {"property": "C111", "status": "proved", "theorems": ["Takum.lin_powers_of_two", "Takum.lin_scaling_exact"], "note": ""},
 {"property": "C112", "status": "proved", "theorems": ["Takum.lin_relative_error", "Takum.log_relative_error"], "note": ""},
 {"property": "C113", "status": "proved", "theorems": ["Takum.lin_sum_error", "Takum.lin_fast_two_sum", "Takum.lin64_sum_error_refuted"], "note": ""},
 {"property": "C114", "status": "proved", "theorems": ["Takum.log_multiplication_wider", "Takum.log_division_wider", "Takum.log_squareRoot_wider"], "note": ""},
 {"property": "C115", "status": "proved", "theorems": ["Takum.lin_multiplication_wider", "Takum.lin32_multiplication_wider_refuted"], "note": ""},
 {"property": "C116", "status": "proved", "theorems": ["Takum.precision_tapers", "Takum.precision_symmetric", "Takum.precision_neg_refuted", "Takum.precision_widen"], "note": ""},
 {"property": "C117", "status": "proved", "theorems": ["Takum.lin_sum_many", "Takum.lin_prod_many", "Takum.log_prod_many"], "note": ""},
 {"property": "C118", "status": "proved", "theorems": ["Takum.integerPower_nearest", "Takum.root_nearest", "Takum.root64_nearest_refuted"], "note": ""},
 {"property": "C119", "status": "proved", "theorems": ["Takum.power_integer", "Takum.power_integer_zero"], "note": ""},
 {"property": "C12", "status": "partial", "theorems": ["Takum.lin_from_nearest_partial", "Takum.lin8_from_nearest_partial", "Takum.lin_from_almost_partial", "Takum.lin8_from_almost_partial", "Takum.lin_from_nearest_refuted", "Takum.lin8_from_nearest_refuted"], "note": "False as stated: concrete arguments where the result is not the nearest takum (double rounding through the float position, and rounding in the logarithmic scale for 8 bits). Proved for arguments of at most 16 significant bits; for all arguments nearest up to a stated slack relative to the argument, 2^-14 for float to 16 bits, 2^-43 for double and long double to 16 bits, 2^-54 for long double to 32 and 64 bits and none otherwise (lin_from_almost_partial), and for 8 bits on the scale up to 2^-14 (lin8_from_almost_partial)."},
 {"property": "C120", "status": "proved", "theorems": ["Takum.c_rules", "Takum.c_shift_narrow", "Takum.c_conversion", "Takum.Calc.memory_rules"], "note": ""},
 {"property": "C121", "status": "proved", "theorems": ["Takum.integer_power_base", "Takum.integer_power_odd", "Takum.integer_power_exponent", "Takum.root_monotone", "Takum.root_index"], "note": ""},
 {"property": "C122", "status": "proved", "theorems": ["Takum.quarter_linear", "Takum.halfturn_linear", "Takum.quarter_over_pi", "Takum.halfturn_over_pi", "Takum.arctan2_over_pi_range", "Takum.arctan2_over_pi_quadrant", "Takum.arctan2_quadrant"], "note": ""},
 {"property": "C123", "status": "proved", "theorems": ["Takum.shrinks_le", "Takum.grows_ge", "Takum.ln_1_plus_le", "Takum.exp_minus_1_ge", "Takum.exp_ge", "Takum.lin_exp_ge", "Takum.ln_le", "Takum.lin_ln_le", "Takum.hypotenuse_between"], "note": ""},
 {"property": "C124", "status": "proved", "theorems": ["Takum.power_base_monotone", "Takum.power_exponent_monotone", "Takum.hypotenuse_monotone", "Takum.arctan2_first_monotone", "Takum.arctan2_second_monotone", "Takum.int_power_base_monotone", "Takum.int_power_exponent_monotone", "Takum.lin_root_monotone", "Takum.lin_root_index_monotone"], "note": ""},
 {"property": "C125", "status": "proved", "theorems": ["Takum.elementary_exact", "Takum.elementary_exact_64", "Takum.elementary_exact_of", "Takum.binary_exact", "Takum.integer_power_exact", "Takum.root_exact", "Takum.root_of_integer_power"], "note": ""},
 {"property": "C126", "status": "proved", "theorems": ["Takum.elementary_nearest", "Takum.binary_nearest", "Takum.integer_power_nearest", "Takum.lin_root_nearest_up_to", "Takum.nearest_unless_tie", "Takum.nearest_relative"], "note": ""},
 {"property": "C127", "status": "proved", "theorems": ["Takum.log_from_nearest", "Takum.log_from_lin_nearest", "Takum.log_addition_nearest", "Takum.elementary_nearest_log", "Takum.binary_nearest_log", "Takum.integer_power64_nearest", "Takum.nearestLog_unless_tie"], "note": ""},
 {"property": "C128", "status": "proved", "theorems": ["Takum.lin_operations_ordered", "Takum.lin_operations_agree", "Takum.lin_double_and_divide", "Takum.log_operations_ordered", "Takum.log_operations_agree", "Takum.log_small_indices"], "note": ""},
 {"property": "C129", "status": "proved", "theorems": ["Takum.int_power_even", "Takum.int_power_odd", "Takum.lin_power_negative", "Takum.int_power_negative_monotone", "Takum.int_power_odd_increasing"], "note": ""},
 {"property": "C13", "status": "proved", "theorems": ["Takum.widen_exact"], "note": ""},
 {"property": "C130", "status": "proved", "theorems": ["Takum.absolute_multiplication", "Takum.absolute_division", "Takum.sign_multiplication", "Takum.sign_division", "Takum.lin_absolute_ordered", "Takum.lin_triangle", "Takum.log_triangle"], "note": ""},
 {"property": "C131", "status": "proved", "theorems": ["Takum.Iface.interface_defined", "Takum.Iface.interface_complete", "Takum.Iface.interface_calculator"], "note": ""},
 {"property": "C132", "status": "proved", "theorems": ["Takum.Man.manual_synopsis", "Takum.Man.manual_list", "Takum.Man.manual_words"], "note": ""},
 {"property": "C133", "status": "partial", "theorems": ["Takum.Iface.linkage_refuted", "Takum.Iface.linkage_partial"], "note": "refuted: arccot_over_pi(l) and arccsc_over_pi(l) have external linkage, no prefix and no declaration; proved for all other functions"},
 {"property": "C134", "status": "partial", "theorems": ["Takum.Man.manual_result_refuted", "Takum.Man.manual_result_partial"], "note": "refuted: the eight pages of precision give the takum type, the function returns uint8_t; proved for all other pages"},
 {"property": "C135", "status": "partial", "theorems": ["Takum.Make.make_objects_partial", "Takum.Make.make_objects_refuted", "Takum.Make.make_pages_partial", "Takum.Make.make_pages_refuted"], "note": "refuted; the theorems say exactly which objects and which pages are rebuilt"},
 {"property": "C136", "status": "partial", "theorems": ["Takum.Install.install_frame", "Takum.Install.install_files", "Takum.Install.uninstall_install_partial", "Takum.Install.uninstall_refuted", "Takum.Install.uninstall_upgrade", "Takum.Install.install_libraries", "Takum.Install.install_links", "Takum.Install.install_upgrade", "Takum.Install.install_self_link"], "note": "that uninstall removes exactly the installed files is refuted when the directory of the license has another file (make stops at rmdir) and proved otherwise; the rest is proved"},
 {"property": "C137", "status": "proved", "theorems": ["Takum.Install.configure_lines", "Takum.Install.configure_idempotent", "Takum.Install.configure_default", "Takum.Install.configure_names"], "note": ""},
 {"property": "C138", "status": "partial", "theorems": ["Takum.Make.dist_refuted", "Takum.Make.dist_readme", "Takum.Make.dist_partial", "Takum.Make.dist_pages"], "note": "refuted: the recipe always fails; the theorems say what a recipe with the two failing commands repaired packs, and which pages can be written from that"},
 {"property": "C139", "status": "partial", "theorems": ["Takum.Make.make_test_partial", "Takum.Make.make_test_refuted", "Takum.Make.make_test_own", "Takum.Make.clean_built", "Takum.Make.clean_sources"], "note": "the first sentence is refuted for six source files and proved for all others; the rest is proved"},
 {"property": "C14", "status": "proved", "theorems": ["Takum.narrow_widen", "Takum.widen_widen"], "note": ""},
 {"property": "C140", "status": "partial", "theorems": ["Takum.lin_midpoint_partial", "Takum.midpoint_refuted", "Takum.midpoint_refuted_w8", "Takum.lin_mean_partial", "Takum.mean_refuted"], "note": "the first expression: proved for 16, 32 and 64 bits where the difference is zero or not below the smallest positive number, refuted otherwise (and for 8 bits); the second one is refuted even for a = b, proved is that it lies between the means of a with a and of b with b"},
 {"property": "C141", "status": "partial", "theorems": ["Takum.Overview.overview_refuted", "Takum.Overview.overview_partial", "Takum.Overview.see_also_prints"], "note": "refuted for every function: the names are printed with the directory man/. Apart from that the first page is missing and the last one is there twice, all others are there once"},
 {"property": "C142", "status": "proved", "theorems": ["Takum.Overview.macros_synopsis", "Takum.Overview.macros_nodup", "Takum.Overview.macros_described", "Takum.Overview.synopsis_values", "Takum.Overview.synopsis_rest"], "note": ""},
 {"property": "C143", "status": "partial", "theorems": ["Takum.Overview.pi_fractions", "Takum.Overview.inverse_constants_partial", "Takum.Overview.inverse_constants_refuted"], "note": "the first part is proved; the second part is refuted for the two 64-bit constants that are not the closest takum (C63), and proved for all others"},
 {"property": "C144", "status": "proved", "theorems": ["Takum.product_precision", "Takum.quotient_precision", "Takum.root_precision", "Takum.product_precision_sharp"], "note": ""},
 {"property": "C145", "status": "partial", "theorems": ["Takum.log_roots_reach_one", "Takum.lin_roots_reach_one_partial", "Takum.lin_roots_stall"], "note": "proved for logarithmic takums, for linear takums of 32 and 64 bits and for linear numbers that are at least 1; refuted for linear takums of 8 and 16 bits below 1, which end at the largest number below 1"},
 {"property": "C146", "status": "partial", "theorems": ["Takum.lin_doubling_reaches_partial", "Takum.lin_halving_reaches_partial", "Takum.doubling_refuted"], "note": "proved for 16, 32 and 64 bits, refuted for 8 bits, where neighbours are more than a factor of two apart"},
 {"property": "C147", "status": "proved", "theorems": ["Takum.sum_precision", "Takum.sum_precision_sharp"], "note": ""},
 {"property": "C148", "status": "proved", "theorems": ["Takum.lin_counting", "Takum.lin_counting_down", "Takum.lin_counting_loop"], "note": ""},
 {"property": "C149", "status": "partial", "theorems": ["Takum.one_absorbs_partial", "Takum.one_absorbs_64", "Takum.one_absorbs_refuted", "Takum.epsilon_loop"], "note": "proved for 8, 16 and 32 bits; for 64 bits the exact threshold is 17/16 of the stated one (refuted and the exact set proved); the statement about the loop is proved for all widths"},
 {"property": "C15", "status": "proved", "theorems": ["Takum.narrow_nearest"], "note": ""},
 {"property": "C150", "status": "partial", "theorems": ["Takum.geoMean_between_partial", "Takum.geoMean_refuted"], "note": "proved for 16, 32 and 64 bits as long as the squares of both numbers are in the range; refuted beyond (the square saturates) and for 8 bits"},
 {"property": "C151", "status": "partial", "theorems": ["Takum.lin_integer_quotient_partial", "Takum.lin_integer_sqrt_partial", "Takum.lin_integer_quotient_refuted"], "note": "quotient proved with 8, 16 and 32 bits as stated (and for divisors of any size), with 64 bits if the dividend is at most half the bound or the quotient is below 2^31; the counterexample with 64 bits has the quotient 2^31. Square root proved as stated for 16 and 32 bits, with 64 bits up to 2^54 (open between 2^54 and 2^55), with 8 bits up to 7 (refuted for 8)"},
 {"property": "C16", "status": "proved", "theorems": ["Takum.narrow_special"], "note": ""},
 {"property": "C17", "status": "proved", "theorems": ["Takum.narrow_mono", "Takum.narrow_neg", "Takum.narrow_inversion"], "note": ""},
 {"property": "C18", "status": "partial", "theorems": ["Takum.two_step_narrow_partial", "Takum.two_step_narrow_refuted"], "note": "The claim is false as stated: two_step_narrow_refuted gives a 32-bit pattern where narrowing in two steps differs from narrowing directly. The partial theorem says when both agree."},
 {"property": "C19", "status": "proved", "theorems": ["Takum.inversion_exact", "Takum.inversion_nar_iff"], "note": ""},
 {"property": "C20", "status": "proved", "theorems": ["Takum.inversion_antitone", "Takum.inversion_fixed"], "note": ""},
 {"property": "C21", "status": "partial", "theorems": ["Takum.absolute_value_partial", "Takum.absolute_nar", "Takum.absolute_nar_refuted"], "note": "Holds for every pattern but NaR. For NaR the 32- and 64-bit functions compute -INT_MIN, which is undefined behaviour (absolute_nar_refuted); 8 and 16 bits return NaR."},
 {"property": "C22", "status": "partial", "theorems": ["Takum.sign_value", "Takum.sign_mul_absolute", "Takum.lin_sign_mul_absolute"], "note": "Proved for every pattern but NaR, both families. For NaR the 32- and 64-bit product is undefined because absolute(NaR) is (absolute_nar_refuted)."},
 {"property": "C23", "status": "proved", "theorems": ["Takum.precision_value", "Takum.precision_mantissa"], "note": ""},
 {"property": "C24", "status": "proved", "theorems": ["Takum.multiplication_comm", "Takum.multiplication_one", "Takum.multiplication_special", "Takum.multiplication_sign", "Takum.multiplication_neg_left"], "note": ""},
 {"property": "C25", "status": "partial", "theorems": ["Takum.multiplication_nearest_partial", "Takum.multiplication_almost_partial", "Takum.multiplication_faithful", "Takum.multiplication_nearest_refuted"], "note": "False for 64 bits (multiplication_nearest_refuted: double rounding through long double). Correct rounding proved for 8, 16, 32 bits and for 64-bit products between sqrt(e)^-32 and sqrt(e)^32; for all products, faithful rounding, and nearest up to 2^-63 of the position of the exact product (multiplication_almost_partial)."},
 {"property": "C26", "status": "proved", "theorems": ["Takum.division_special", "Takum.division_inversion", "Takum.division_sign"], "note": ""},
 {"property": "C27", "status": "partial", "theorems": ["Takum.division_nearest_partial", "Takum.division_almost_partial", "Takum.division_faithful", "Takum.division_nearest_refuted"], "note": "False for 64 bits (division_nearest_refuted: double rounding through long double). Correct rounding proved for 8, 16, 32 bits and for 64-bit quotients between sqrt(e)^-32 and sqrt(e)^32; for all quotients, faithful rounding, and nearest up to 2^-63 of the position of the exact quotient (division_almost_partial)."},
 {"property": "C28", "status": "proved", "theorems": ["Takum.squareRoot_special", "Takum.squareRoot_nearest", "Takum.squareRoot_monotone"], "note": ""},
 {"property": "C29", "status": "proved", "theorems": ["Takum.integerPower_regular", "Takum.integerPower_special", "Takum.integerPower_laws", "Takum.integerPower_faithful"], "note": ""},
 {"property": "C30", "status": "proved", "theorems": ["Takum.root_sign", "Takum.root_special", "Takum.root_laws", "Takum.root_faithful"], "note": ""},
 {"property": "C31", "status": "partial", "theorems": ["Takum.root_odd_partial", "Takum.root_odd_unit_partial", "Takum.root_odd_refuted"], "note": "False for 64 bits (root_odd_refuted). Proved for 8, 16 and 32 bits, all patterns and all odd indices; for 64 bits the results differ by at most one unit (root_odd_unit_partial)."},
 {"property": "C32", "status": "proved", "theorems": ["Takum.multiplication_monotone", "Takum.division_monotone"], "note": ""},
 {"property": "C33", "status": "proved", "theorems": ["Takum.lin_addition_laws", "Takum.lin_addition_regular", "Takum.lin_subtraction_laws"], "note": ""},
 {"property": "C34", "status": "proved", "theorems": ["Takum.lin_multiplication_laws", "Takum.lin_multiplication_regular"], "note": ""},
 {"property": "C35", "status": "proved", "theorems": ["Takum.lin_division_laws", "Takum.lin_division_regular", "Takum.lin_inversion_special", "Takum.lin_inversion_pow2", "Takum.lin_inversion_division"], "note": ""},
 {"property": "C36", "status": "proved", "theorems": ["Takum.lin_monotone"], "note": ""},
 {"property": "C37", "status": "proved", "theorems": ["Takum.lin16_arith_nearest", "Takum.lin8_arith_nearest"], "note": ""},
 {"property": "C38", "status": "proved", "theorems": ["Takum.lin_squareRoot_special", "Takum.lin_squareRoot_monotone"], "note": ""},
 {"property": "C39", "status": "partial", "theorems": ["Takum.nar_unary", "Takum.nar_conversion", "Takum.nar_basic", "Takum.absolute_nar", "Takum.absolute_nar_refuted"], "note": "Proved for every function except absolute of 32 and 64 bits, where it is false: the negation of NaR is signed overflow (absolute_nar_refuted)."},
 {"property": "C40", "status": "partial", "theorems": ["Takum.nar_arith", "Takum.nar_binary", "Takum.nar_integer", "Takum.power_nar_partial", "Takum.power_nar_refuted"], "note": "Proved for every function except power, for which it is false: power(NaR, 0) = power(1, NaR) = 1 (power_nar_refuted); power_nar_partial shows that these are the only exceptions."},
 {"property": "C41", "status": "partial", "theorems": ["Takum.power_zero_partial", "Takum.power_zero_refuted"], "note": "False for exponent 0: power(0, 0) = 1 (power_zero_refuted); proved for all negative exponents."},
 {"property": "C42", "status": "proved", "theorems": ["Takum.exponential_positive"], "note": ""},
 {"property": "C43", "status": "proved", "theorems": ["Takum.logarithm_domain"], "note": ""},
 {"property": "C44", "status": "proved", "theorems": ["Takum.hyperbolic"], "note": ""},
 {"property": "C45", "status": "partial", "theorems": ["Takum.pi_times_partial", "Takum.pi_times_refuted", "Takum.pi_times_exact_partial", "Takum.pi_times_odd_refuted", "Takum.pi_times_half_refuted"], "note": "False for negative arguments, as fmodl keeps the sign: sin_pi_times(-1) and cos_pi_times(-1/2) are not 0, csc_pi_times(-1), tan_pi_times(-1/2) and sec_pi_times(-1/2) are not NaR (pi_times_refuted, for a math library with relative error at most 2^-50). Proved for all non-negative integers and half-integers, and for the negative ones the code reduces to 0. pi_times_exact_partial gives the exact sets of arguments where each function is 0 or NaR, so the symmetry fails at every negative odd integer and at every negative half-integer (pi_times_odd_refuted, pi_times_half_refuted)."},
 {"property": "C46", "status": "proved", "theorems": ["Takum.log_from_total"], "note": ""},
 {"property": "C47", "status": "proved", "theorems": ["Takum.log_round_trip"], "note": ""},
 {"property": "C48", "status": "proved", "theorems": ["Takum.log_to_total"], "note": ""},
 {"property": "C49", "status": "proved", "theorems": ["Takum.lin_from_log", "Takum.log_from_lin"], "note": ""},
 {"property": "C50", "status": "proved", "theorems": ["Takum.no_undefined_behaviour", "Takum.no_undefined_behaviour_elementary"], "note": ""},
 {"property": "C51", "status": "proved", "theorems": ["Takum.log_addition_comm", "Takum.log_addition_laws", "Takum.log_addition_sign"], "note": ""},
 {"property": "C52", "status": "partial", "theorems": ["Takum.lin_root_sign", "Takum.lin_root_partial", "Takum.lin_root_refuted"], "note": "False for negative radicands and odd indices of magnitude at least 3: the cube root of -8 is NaR (lin_root_refuted). lin_root_sign gives the complete actual behaviour; lin_root_partial is the property for non-negative radicands and indices 1, -1."},
 {"property": "C53", "status": "partial", "theorems": ["Takum.arcoth_partial", "Takum.arcoth_lin64_partial", "Takum.arcoth_log64_partial", "Takum.arcoth_refuted"], "note": "False for 64 bits: arcothl calls atanh instead of atanhl, so arcoth of the takum_linear64 1 + 2^-59 is NaR (arcoth_refuted). Proved for 8, 16 and 32 bits, and exactly which arguments fail for linear 64 bits: NaR iff NaR or magnitude at most 1 + 2^-54 (arcoth_lin64_partial); for logarithmic 64 bits NaR up to magnitude 1 + 2^-55 and not from 1 + 2^-53 on (arcoth_log64_partial)."},
 {"property": "C54", "status": "partial", "theorems": ["Takum.long_double_partial", "Takum.long_double_refuted", "Takum.long_double_saturation_refuted"], "note": "False for 53 and 113 bits: every l with a fractional part m >= 1/2 (after applying the sign) makes the encoder shift by -1, and m < 1/2 is encoded as 2m (long_double_refuted); with 53 bits the 64-bit encoder does not saturate (long_double_saturation_refuted). Proved for the 80-bit format and, for the other two, for integers and non-finite arguments."},
 {"property": "C55", "status": "proved", "theorems": ["Takum.constants_linear", "Takum.constants_special"], "note": ""},
 {"property": "C56", "status": "proved", "theorems": ["Takum.encoder_total", "Takum.encoder_monotone", "Takum.encoder_decoder", "Takum.decoder_exact", "Takum.encoder_nearest"], "note": ""},
 {"property": "C57", "status": "partial", "theorems": ["Takum.Calc.stack_partial", "Takum.Calc.stack_failure", "Takum.Calc.stack_refuted"], "note": "False after a failed allocation: stack_push has then increased the capacity of a stack without memory, and the push of the next line writes through the null pointer (stack_refuted). Proved for all sequences of calls in which no allocation fails, and up to and including the first failure."},
 {"property": "C58", "status": "proved", "theorems": ["Takum.lin_arith_faithful", "Takum.lin_arith_exact"], "note": ""},
 {"property": "C59", "status": "proved", "theorems": ["Takum.documented_domain"], "note": ""},
 {"property": "C60", "status": "proved", "theorems": ["Takum.log_to_increasing"], "note": ""},
 {"property": "C61", "status": "proved", "theorems": ["Takum.integer_power_sign"], "note": ""},
 {"property": "C62", "status": "proved", "theorems": ["Takum.power_sign", "Takum.power_negative"], "note": ""},
 {"property": "C63", "status": "partial", "theorems": ["Takum.constants_log_partial", "Takum.constants_log_refuted"], "note": "False for TAKUM64_6_PI and TAKUM64_6_PI_OVER_5, which are one above the closest takum (constants_log_refuted); proved for all other constants and widths."},
 {"property": "C64", "status": "partial", "theorems": ["Takum.Calc.integer_marker_partial", "Takum.Calc.integer_marker_log", "Takum.Calc.integer_marker_refuted"], "note": "False in the linear modes: the conversion to int64_t is undefined exactly for NaR and for numbers that do not fit (integer_marker_refuted). Proved for all other linear takums and completely for the logarithmic types (with the irrationality of powers of e)."},
 {"property": "C65", "status": "proved", "theorems": ["Takum.Calc.calculator_line"], "note": ""},
 {"property": "C66", "status": "proved", "theorems": ["Takum.elementary_accurate", "Takum.elementary_accurate_lin"], "note": ""},
 {"property": "C67", "status": "proved", "theorems": ["Takum.trig_nar"], "note": ""},
 {"property": "C68", "status": "proved", "theorems": ["Takum.binary_accurate", "Takum.binary_accurate_lin", "Takum.log_addition_accurate", "Takum.integer_power_accurate", "Takum.lin_root_accurate"], "note": ""},
 {"property": "C69", "status": "proved", "theorems": ["Takum.float_to_log_accurate", "Takum.log_to_float_accurate", "Takum.log_to_float32_accurate", "Takum.lin_from_log_accurate", "Takum.log_from_lin_accurate"], "note": ""},
 {"property": "C70", "status": "proved", "theorems": ["Takum.log_number_irrational", "Takum.float_to_log_exact", "Takum.log_to_float_exact", "Takum.lin_from_log_exact", "Takum.log_from_lin_exact"], "note": ""},
 {"property": "C71", "status": "proved", "theorems": ["Takum.odd_lin", "Takum.odd_log", "Takum.even_lin", "Takum.even_log", "Takum.pi_symmetric_lin", "Takum.hypotenuse_symmetric", "Takum.arctan2_odd_lin", "Takum.arctan2_odd_log"], "note": ""},
 {"property": "C72", "status": "proved", "theorems": ["Takum.Calc.getline_reads"], "note": ""},
 {"property": "C73", "status": "proved", "theorems": ["Takum.Calc.operator_table", "Takum.Calc.operator_functions"], "note": ""},
 {"property": "C74", "status": "partial", "theorems": ["Takum.Calc.typed_integer_partial", "Takum.Calc.typed_real", "Takum.Calc.typed_invalid", "Takum.Calc.typed_integer_refuted"], "note": "False for integers below -2^63, which strtoll clamps to -2^63 (they are held as -2^63, not as NaR), and for 2^63-1, which is held as NaR although it fits (typed_integer_refuted). Proved for all other tokens."},
 {"property": "C75", "status": "proved", "theorems": ["Takum.Calc.calculator_program"], "note": ""},
 {"property": "C76", "status": "partial", "theorems": ["Takum.Calc.shown_result_partial", "Takum.Calc.shown_typed_refuted"], "note": "False for integers that are typed: 300 is shown as 300 in takum_linear8, where no takum is 300 (shown_typed_refuted). Proved for every result of an operation."},
 {"property": "C77", "status": "partial", "theorems": ["Takum.Calc.calculator_defined_partial", "Takum.Calc.calculator_undefined_iff", "Takum.Calc.calculator_defined_refuted"], "note": "False: '0 inv abs' in takum64 overflows and '0 inv' in a linear type converts NaN to int64_t (calculator_defined_refuted). Proved for all inputs without the word abs and without the linear types; calculator_undefined_iff gives exactly the inputs for which the program is undefined."},
 {"property": "C78", "status": "proved", "theorems": ["Takum.log_from_monotone", "Takum.lin_from_log_monotone", "Takum.log_from_lin_monotone", "Takum.log_addition_monotone"], "note": ""},
 {"property": "C79", "status": "proved", "theorems": ["Takum.elementary_increasing", "Takum.elementary_decreasing", "Takum.elementary_positive", "Takum.elementary_negative"], "note": ""},
 {"property": "C80", "status": "proved", "theorems": ["Takum.exact_points", "Takum.hypotenuse_zero", "Takum.hypotenuse_comm", "Takum.arctan2_axis"], "note": ""},
 {"property": "C81", "status": "proved", "theorems": ["Takum.log_lin_log", "Takum.lin_log_lin", "Takum.lin_log_lin_outside"], "note": ""},
 {"property": "C82", "status": "proved", "theorems": ["Takum.Test.sweep_trip", "Takum.Test.sweep_null", "Takum.Test.sweep_unary", "Takum.Test.sweep_byte", "Takum.Test.sweep_binary", "Takum.Test.sweep_int"], "note": ""},
 {"property": "C83", "status": "proved", "theorems": ["Takum.Test.generator_cycle", "Takum.Test.random_trip", "Takum.Test.random_unary", "Takum.Test.random_byte", "Takum.Test.random_int", "Takum.Test.random_binary", "Takum.Test.pairs_visited", "Takum.Test.pairs_visited_16"], "note": ""},
 {"property": "C84", "status": "partial", "theorems": ["Takum.Test.codec_passes", "Takum.Test.conversion_passes", "Takum.Test.precision_passes", "Takum.Test.sign_passes", "Takum.Test.absolute_passes_partial", "Takum.Test.absolute_passes_refuted"], "note": "the test of the absolute value passes for 8 and 16 bits; for 32 and 64 bits it passes or is undefined, and it is undefined when rand() first returns 1, because NaR is then among the samples"},
 {"property": "C85", "status": "proved", "theorems": ["Takum.Test.accepted", "Takum.Test.expects_unique", "Takum.Test.zero_accepted", "Takum.Test.nar_accepted", "Takum.Test.undefined_64", "Takum.Test.wrong_sign_passes", "Takum.Test.no_cases"], "note": ""},
 {"property": "C86", "status": "proved", "theorems": ["Takum.Test.addition_passes", "Takum.Test.subtraction_passes", "Takum.Test.lin_multiplication_passes", "Takum.Test.lin_division_passes", "Takum.Test.lin_inversion_passes", "Takum.Test.lin_squareRoot_passes"], "note": ""},
 {"property": "C87", "status": "proved", "theorems": ["Takum.Test.reference_copies", "Takum.Test.copies_pass", "Takum.Test.copies_pass2", "Takum.Test.converted_pass", "Takum.Test.arcoth_unnoticed", "Takum.Test.sin_pi_times_unnoticed", "Takum.Test.wrong_sine_passes"], "note": ""},
 {"property": "C88", "status": "proved", "theorems": ["Takum.Test.constants_pass", "Takum.Test.constants_accurate", "Takum.Test.constants_accurate_refuted", "Takum.Test.constants_unnoticed"], "note": ""},
 {"property": "C89", "status": "proved", "theorems": ["Takum.Test.power_case", "Takum.Test.power_passes", "Takum.Test.root_case", "Takum.Test.root_passes", "Takum.Test.root_unnoticed"], "note": ""},
 {"property": "C90", "status": "proved", "theorems": ["Takum.Test.multiplication_near", "Takum.Test.division_near", "Takum.Test.log_inversion_case", "Takum.Test.log_squareRoot_case", "Takum.Test.inversion_passes", "Takum.Test.squareRoot_passes", "Takum.Test.log_multiplication_case", "Takum.Test.log_division_case", "Takum.Test.log_multiplication_passes", "Takum.Test.log_division_passes", "Takum.Test.multiplication_passes", "Takum.Test.division_passes", "Takum.Test.log_multiplication_refuted", "Takum.Test.log_division_refuted", "Takum.Test.multiplication_stops"], "note": ""},
 {"property": "C91", "status": "proved", "theorems": ["Takum.Test.log_root_case", "Takum.Test.root_odd_fails", "Takum.Test.root_test_passes", "Takum.Test.root_test_fails", "Takum.Test.log_power_case", "Takum.Test.power_types", "Takum.Test.power_test_passes"], "note": ""},
 {"property": "C92", "status": "proved", "theorems": ["Takum.Test.elementary_case", "Takum.Test.elementary_passes", "Takum.Test.elementary_needs_overflow"], "note": ""},
 {"property": "C93", "status": "proved", "theorems": ["Takum.Test.binary_case", "Takum.Test.binary_passes"], "note": ""},
 {"property": "C94", "status": "partial", "theorems": ["Takum.fraction_bits_partial", "Takum.fraction_bits_refuted", "Takum.fraction_bits_undefined", "Takum.encoder_lost_tie"], "note": "False: bits below the last bit of the word are dropped before rounding, so that a fraction slightly above a tie counts as a tie (fraction_bits_refuted, encoder_lost_tie). fraction_bits_partial says exactly when the result is correctly rounded and bounds the error otherwise."},
 {"property": "C95", "status": "partial", "theorems": ["Takum.round_bits_partial", "Takum.round_bits_refuted", "Takum.round_bits_undefined"], "note": "False in two ways: rounding up may carry into the bit above (all ones), and 0 bits, which the comment includes in the proper range, shifts by the full width for N = 32 and 64. round_bits_partial gives correct rounding everywhere else and exactly when the carry happens."},
 {"property": "C96", "status": "partial", "theorems": ["Takum.long_double_one_partial", "Takum.long_double_one_refuted", "Takum.ld_same", "Takum.ld_laws"], "note": "False for 53 and 113 bits: the product of t and 1 is undefined for every t of 8, 32 (and, with 113 bits, 64) bits with mantissa at least 1/2, and the takum with the doubled mantissa otherwise; with 53 bits the 64-bit functions give NaR for all arguments (long_double_one_refuted). Proved for the 80-bit format, for 16 bits, and for integer positions. The same holds for the quotient of t and 1 and the first root (ld_laws)."},
 {"property": "C97", "status": "partial", "theorems": ["Takum.square_exact_partial", "Takum.square_exact_refuted"], "note": "False for 8 bits, where the characteristic itself is rounded: the square of sqrt(e)^8 is sqrt(e)^15 and the root of that sqrt(e)^7 (square_exact_refuted). Proved for 16, 32 and 64 bits."},
 {"property": "C98", "status": "partial", "theorems": ["Takum.inversion_laws", "Takum.inversion_power", "Takum.inversion_root_partial", "Takum.inversion_root_refuted"], "note": "False for the 64-bit root: m = fract(l) is rounded differently for l and -l (inversion_root_refuted). Proved for everything else."},
 {"property": "C99", "status": "partial", "theorems": ["Takum.lin16_division_nearest_partial", "Takum.lin8_division_nearest_partial", "Takum.lin16_squareRoot_nearest_partial", "Takum.lin8_squareRoot_nearest_partial", "Takum.lin_division_nearest_refuted", "Takum.lin_squareRoot_nearest_refuted", "Takum.lin_arith_almost_partial", "Takum.lin_inversion_almost_partial", "Takum.lin_inversion_nearest_refuted", "Takum.lin_squareRoot_almost_partial"], "note": "Proved for 8 and 16 bits. False for 32 and 64 bits (double rounding; lin_division_nearest_refuted, lin_inversion_nearest_refuted, lin_squareRoot_nearest_refuted), where the result is nearest up to 2^-52 (32 bits; inversion 2^-51) or 2^-53 (64 bits; inversion 2^-52) of the exact one."}
]}
