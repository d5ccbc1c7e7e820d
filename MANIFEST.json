{
 "claims": [
  {
   "property": "C01",
   "status": "proved",
   "theorems": [
    "Props.C01_exact_partials",
    "Props.C01_completes",
    "Props.C01_chain_rule",
    "Props.C01_unary",
    "Props.C01_binary",
    "Props.C01_var_real",
    "Props.C01_real_var"
   ],
   "note": "programs of any length over every modelled scalar operation, run in any reachable state"
  },
  {
   "property": "C02",
   "status": "proved",
   "theorems": [
    "Props.C02_dot_real",
    "Props.C02_real_dot",
    "Props.C02_norm2",
    "Props.C02_matmul_real",
    "Props.C02_real_matmul",
    "Props.C18_sum",
    "Props.C18_dot",
    "Props.C18_matmul",
    "Props.C30_log_sum_exp",
    "Props.C01_exact_partials",
    "Props.C01_completes",
    "Props.C01_chain_rule"
   ],
   "note": "Value and derivative of each vector operation, for any operands in any reachable state; whole programs with them, of any size, by C01."
  },
  {
   "property": "C03",
   "status": "proved",
   "theorems": [
    "Props.C03_everywhere",
    "Props.C03_everywhere_covers",
    "Props.C03_values"
   ],
   "note": "every program over scalars, vectors and matrices, in every reachable state, at every point of the domain (also where it is not differentiable, and where compared numbers are equal)"
  },
  {
   "property": "C04",
   "status": "proved",
   "theorems": [
    "Props.C04_new",
    "Props.C04_all_results",
    "Props.C04_array",
    "Props.C04_array_default",
    "Props.C04_matrix"
   ],
   "note": "Every way of creating variables, in every reachable state: the stored value and an adjoint of zero."
  },
  {
   "property": "C05",
   "status": "proved",
   "theorems": [
    "Props.C05_clears",
    "Props.C05_then_gradient"
   ],
   "note": "Reset in every reachable state, for every reading of real64; the following sweep exact over the reals."
  },
  {
   "property": "C06",
   "status": "proved",
   "theorems": [
    "Props.C06_undisturbed"
   ],
   "note": "Value, adjoint, operands and data of every existing variable are the same after any creating call."
  },
  {
   "property": "C07",
   "status": "proved",
   "theorems": [
    "Props.C07_set_value",
    "Props.C07_set_adjoint",
    "Props.C07_entry_value",
    "Props.C07_entry_zero"
   ],
   "note": "Writing one variable's value or adjoint changes no other variable and nothing else of it."
  },
  {
   "property": "C08",
   "status": "proved",
   "theorems": [
    "Props.C08_gradient",
    "Props.C08_C10_session"
   ],
   "note": ""
  },
  {
   "property": "C09",
   "status": "partial",
   "theorems": [
    "Props.C09_values_partial",
    "Props.C09_jacobian_values_partial",
    "Props.C09_gradient_any_partial",
    "Props.C09_jacobian_any_partial",
    "Props.C09_zero_adjoints_partial",
    "Props.C09_jacobian_zero_adjoints_partial",
    "Props.C09_effect_partial",
    "Props.C09_refuted"
   ],
   "note": "False of the code as it stands: gradient and jacobian sweep the whole tape. Values, operands, data, tape position and nesting level are kept (for any function, in any arithmetic), zero adjoints stay zero; C09_refuted is the counterexample."
  },
  {
   "property": "C10",
   "status": "proved",
   "theorems": [
    "Props.C10_jacobian",
    "Props.C08_C10_session"
   ],
   "note": ""
  },
  {
   "property": "C11",
   "status": "proved",
   "theorems": [
    "Props.C11_restores",
    "Props.C11_untouched",
    "Props.C11_values",
    "Props.C11_adjoints",
    "Props.C11_noop"
   ],
   "note": "Any balanced region run from any reachable state; what outer variables named in the region receive is C21_region."
  },
  {
   "property": "C12",
   "status": "proved",
   "theorems": [
    "Props.C12_level",
    "Props.C12_ten",
    "Props.C12_eleventh"
   ],
   "note": ""
  },
  {
   "property": "C13",
   "status": "proved",
   "theorems": [
    "Props.C13_assign",
    "Props.C13_assign_array",
    "Props.C13_assign_all",
    "Props.C13_assign_matrix",
    "Props.C13_assign_matrix_all"
   ],
   "note": "Assignment of a real changes the value of the named variables and nothing else."
  },
  {
   "property": "C14",
   "status": "partial",
   "theorems": [
    "Props.C14_var_var",
    "Props.C14_var_real",
    "Props.C14_real_var_partial",
    "Props.C14_iff",
    "Props.C14_refuted"
   ],
   "note": "False of the code for <, <=, >, >= with a real left operand, which compare in the swapped order (C14_refuted, exact condition C14_iff). Proved for var/var, var/real, and real/var with == and /=."
  },
  {
   "property": "C15",
   "status": "partial",
   "theorems": [
    "Props.C15_value",
    "Props.C15_same_partial",
    "Props.C15_leaf_partial",
    "Props.C15_exp",
    "Props.C15_refuted",
    "Props.C15_product_refuted"
   ],
   "note": "The value half holds for every operand and arithmetic. The propagation half is false of the code: the short cut overwrites the operand's chain pointer (C15_exp in every state, C15_refuted concretely; x*1.0, 1.0*x, x/1.0 break every later sweep, C15_product_refuted). Positive parts: operands without operands (+,-), operands made by the same operation."
  },
  {
   "property": "C16",
   "status": "partial",
   "theorems": [
    "Props.C16_derivative_partial",
    "Props.C16_iff",
    "Props.C16_refuted"
   ],
   "note": "False of the code: the value is 1 for every x /= 0 (exact condition C16_iff, counterexample C16_refuted). The derivative is right."
  },
  {
   "property": "C17",
   "status": "partial",
   "theorems": [
    "Props.C17_negative",
    "Props.C17_leaf_partial",
    "Props.C17_sign",
    "Props.C17_exp",
    "Props.C17_refuted"
   ],
   "note": "hypot(x,0.0) with x<0 is right for every operand; x>0 is right only for independent variables. False of the code otherwise: hypot(0.0,x) returns x, wrong value for x<0 (C17_sign); propagation through a computed operand is overwritten (C17_exp, C17_refuted)."
  },
  {
   "property": "C18",
   "status": "proved",
   "theorems": [
    "Props.C18_sum",
    "Props.C18_product",
    "Props.C18_dot",
    "Props.C18_matmul"
   ],
   "note": "Sum, product, dot_product and matmul with any repetition pattern; the general case is C01_chain_rule / C02."
  },
  {
   "property": "C19",
   "status": "proved",
   "theorems": [
    "Props.C19_independent_input",
    "Props.C19_unrelated",
    "Props.C19_same_derivatives"
   ],
   "note": "Over the exact reals."
  },
  {
   "property": "C20",
   "status": "proved",
   "theorems": [
    "Props.C20_linear"
   ],
   "note": "Over the exact reals, for any sequence of seeds, sweeps and resets before."
  },
  {
   "property": "C21",
   "status": "proved",
   "theorems": [
    "Props.C21_same_adjoints",
    "Props.C21_region"
   ],
   "note": "Same adjoints as a full sweep on the region (every reading of real64); exact effect on inner and outer variables over the reals."
  },
  {
   "property": "C22",
   "status": "proved",
   "theorems": [
    "Props.C22_operands_and_data",
    "Props.C22_operands",
    "Props.C22_data",
    "Props.C22_integers"
   ],
   "note": "What is stored in a record is read back."
  },
  {
   "property": "C23",
   "status": "proved",
   "theorems": [
    "Props.C23_partials"
   ],
   "note": "Results of precomputed partials (var_with_partials)."
  },
  {
   "property": "C24",
   "status": "proved",
   "theorems": [
    "Props.C24_normal",
    "Props.C24_C25_differentiable"
   ],
   "note": "normal_lpdf against Mathlib's gaussianPDFReal."
  },
  {
   "property": "C25",
   "status": "proved",
   "theorems": [
    "Props.C25_lognormal",
    "Props.C24_C25_differentiable",
    "Props.lognormal_density"
   ],
   "note": "lognormal_lpdf; the density is justified by lognormal_density."
  },
  {
   "property": "C26",
   "status": "partial",
   "theorems": [
    "Props.C26_initial",
    "Props.C26_parameters_partial",
    "Props.C26_parameters_refuted",
    "Props.C26_jacobian",
    "Props.C26_fills",
    "Props.C26_transparent"
   ],
   "note": "Initial values: all cases. Parameters: set_sens_rhs declares pvar(3), so every call with another number of parameters is erroneous (C26_parameters_refuted, for all states); for three parameters the formula is proved for every right-hand side and every size of the state."
  },
  {
   "property": "C27",
   "status": "partial",
   "theorems": [
    "Props.C27_initial",
    "Props.C27_parameters_partial",
    "Props.C27_parameters_refuted",
    "Props.C27_data",
    "Props.C27_data_completes",
    "Props.C27_unique",
    "Props.C27_error_stops",
    "Props.C27_completes",
    "Props.C27_completes_parameters",
    "Props.C27_times_refuted",
    "Props.C27_later",
    "Props.C27_later_parameters"
   ],
   "note": "The solver is an arbitrary parameter that asks for right-hand sides and sensitivity right-hand sides. Without variables proved in full (C27_data, C27_data_completes: exactly the calls in which the solver succeeds complete). With variables proved for every call that completes, with any number of output times; completion is proved for one output time, from the start of the program and after every history of correct calls that has closed no nested region (C27_later, C27_later_parameters). False of the code: parameters other than three (C27_parameters_refuted), and several output times already for y'=y*y in every reachable state (C27_times_refuted: chain procedures left behind by end_nested are run)."
  },
  {
   "property": "C28",
   "status": "partial",
   "theorems": [
    "Props.C28_nonzero",
    "Props.C28_zero_partial",
    "Props.C28_refuted"
   ],
   "note": "Proved for x /= 0. At 0 proved as long as no closed nested region has left a stale propagation rule in the slot taken; C28_refuted shows the failure otherwise."
  },
  {
   "property": "C29",
   "status": "proved",
   "theorems": [
    "Props.C29_acosh",
    "Props.C29_atanh",
    "Props.C29_real"
   ],
   "note": ""
  },
  {
   "property": "C30",
   "status": "proved",
   "theorems": [
    "Props.C30_log_sum_exp",
    "Props.C30_weights",
    "Props.C30_exponents",
    "Props.C30_exponents_sweep"
   ],
   "note": "Value, softmax derivatives, weights, and that exp is applied to numbers <= 0 only, in the value and in the sweep."
  },
  {
   "property": "C31",
   "status": "proved",
   "theorems": [
    "Props.C31_range",
    "Props.C31_logistic",
    "Props.C31_inverse",
    "Props.C31_inverse_tail",
    "Props.C31_variable"
   ],
   "note": "The round trip is exact where the logistic function is used; in the far tail it is off by less than 2^-1021."
  },
  {
   "property": "C32",
   "status": "proved",
   "theorems": [
    "Props.C32_large",
    "Props.C32_tiny",
    "Props.C32_pole",
    "Props.C32_reflection",
    "Props.C32_reflection_small",
    "Props.C32_log_gamma"
   ],
   "note": "Over the reals; the reflection term is exact up to a relative error of 1e-19 coming from the decimal constant for pi/4. The accuracy of the rational approximations is C64."
  },
  {
   "property": "C33",
   "status": "partial",
   "theorems": [
    "Props.C33_fresh_partial",
    "Props.C33_refuted"
   ],
   "note": "False of the code after end_nested: a slot keeps the chain pointer of the variable that used it before. Proved: inert when no region has been closed over the slot."
  },
  {
   "property": "C34",
   "status": "proved",
   "theorems": [
    "Props.C34_capacity",
    "Props.C34_smallest",
    "Props.C34_never_shrinks",
    "Props.C34_only_failure"
   ],
   "note": "Growth of both stacks."
  },
  {
   "property": "C35",
   "status": "partial",
   "theorems": [
    "Props.C35_no_operands_partial",
    "Props.C35_iff",
    "Props.C35_refuted"
   ],
   "note": "False of the code for records with operands or data: the reported length counts the operand and data numbers wrongly. Proved for records without operands, with the exact condition (C35_iff) and a concrete counterexample."
  },
  {
   "property": "C36",
   "status": "partial",
   "theorems": [
    "Props.C36_end_nested_partial",
    "Props.C36_refuted",
    "Props.C36_full_refuted"
   ],
   "note": "False of the code: end_nested writes one word past the storage when the storage is exactly full, or was never allocated. Proved whenever there is one free word."
  },
  {
   "property": "C37",
   "status": "partial",
   "theorems": [
    "Props.C37_stored_partial",
    "Props.C37_between_partial",
    "Props.C37_refuted"
   ],
   "note": "False of the code for the adjoint query at the current position, which returns the value. The other queries are proved."
  },
  {
   "property": "C38",
   "status": "proved",
   "theorems": [
    "Props.C38_unary",
    "Props.C38_binary",
    "Props.C38_var_real",
    "Props.C38_real_var",
    "Props.C38_sizes"
   ],
   "note": "All functions and operators, any array length, repeated elements. Real operands: outside the scalar defects C15, C16, C17."
  },
  {
   "property": "C39",
   "status": "partial",
   "theorems": [
    "Props.C39_var_real_partial",
    "Props.C39_real_var",
    "Props.C39_var_var",
    "Props.C39_base_zero_partial",
    "Props.C39_base_zero_refuted"
   ],
   "note": "Derivative for every exponent; the value for every exponent except -2, where the code is wrong (C16_refuted). Two variables: positive base, or base 0 and exponent above 1; at base 0 and exponent 1 the code gives derivative 0 instead of 1."
  },
  {
   "property": "C40",
   "status": "proved",
   "theorems": [
    "Props.C40_reading"
   ],
   "note": "Every query and comparison leaves the whole state as it is."
  },
  {
   "property": "C41",
   "status": "proved",
   "theorems": [
    "Props.C41_gradient",
    "Props.C41_jacobian",
    "Props.C41_derive",
    "Props.C41_region",
    "Props.C41_again",
    "Props.C41_jacobian_again"
   ],
   "note": "For any arithmetic and any user function built from the library's calls and branching on values; both calls are assumed to complete."
  },
  {
   "property": "C42",
   "status": "proved",
   "theorems": [
    "Props.C42_gradient_reach",
    "Props.C42_jacobian_reach"
   ],
   "note": "For any arithmetic and any user function built from the library's calls and branching on values, using any variables of the client."
  },
  {
   "property": "C43",
   "status": "proved",
   "theorems": [
    "Props.C43_only_adjoints"
   ],
   "note": "Any arithmetic, any sequence of sweeps and resets after any history."
  },
  {
   "property": "C44",
   "status": "proved",
   "theorems": [
    "Props.C44_rows"
   ],
   "note": "Any arithmetic, any user function of Spec/Code.lean; both calls completed, histories arbitrary and different."
  },
  {
   "property": "C45",
   "status": "proved",
   "theorems": [
    "Props.C45_reset",
    "Props.C45_nested"
   ],
   "note": "Any arithmetic; all views (value, adjoint, operands, data) equal after reset and sweep."
  },
  {
   "property": "C46",
   "status": "partial",
   "theorems": [
    "Props.C46_variables_partial",
    "Props.C46_reals_partial",
    "Props.C46_vector_of_reals_refuted",
    "Props.C46_vector_of_variables_refuted"
   ],
   "note": "Rank two proved in full. The code violates the property for rank one: refuted in every reachable state."
  },
  {
   "property": "C47",
   "status": "proved",
   "theorems": [
    "Props.C47_derivative",
    "Props.C47_bounds_fixed",
    "Props.C47_bounds_each",
    "Props.C47_guide_log",
    "Props.C47_guide_div",
    "Props.C47_guide_div_real",
    "Props.C01_exact_partials",
    "Props.C01_completes"
   ],
   "note": "User operations are also instructions of programs and calls of histories, so all theorems on programs and reachable states cover them. C47_bounds_*: a chain procedure that passes the bounds check of the model reads nothing outside the operands and data it declares."
  },
  {
   "property": "C48",
   "status": "proved",
   "theorems": [
    "Props.C48_call",
    "Props.C48_program",
    "Props.C48_gradient",
    "Props.C48_jacobian"
   ],
   "note": "For every arithmetic in which multiplication and hypot commute. inv_square and exponent -2 are excluded (defect, C16); hypot with a real zero is excluded (C17); x+0, x-0, x*1, x/1 are x and some powers are done without **, as the specification says."
  },
  {
   "property": "C49",
   "status": "proved",
   "theorems": [
    "Props.C49_gradient",
    "Props.C49_jacobian"
   ],
   "note": "Exact equality with Code.bookGradient and Code.bookJacobian of Spec/Textbook.lean, in every arithmetic with commutative product, after every history, for all programs without neutral data operands (C15) and without inv_square / exponent -2 (C16)."
  },
  {
   "property": "C50",
   "status": "partial",
   "theorems": [
    "Props.C50_initial",
    "Props.C50_parameters_partial",
    "Props.C50_parameters_refuted",
    "Props.C50_data_partial",
    "Props.C50_data_refuted"
   ],
   "note": "Holds when the initial values are variables. With a real initial state the code violates it: the solver's vector wraps the caller's array, so it is overwritten by the solution at the last output time (proved exactly, with counterexamples)."
  },
  {
   "property": "C51",
   "status": "partial",
   "theorems": [
    "Props.C51_proper_partial",
    "Props.C51_released_partial",
    "Props.C51_returns",
    "Props.C51_standard_refuted",
    "Props.C51_result_refuted",
    "Props.C51_empty_refuted"
   ],
   "note": "Proved for compilers that finalize local variables only. With the finalizations the Fortran standard demands (left-hand side of the assignment, function result) every call releases undefined pointers and uses released memory; with no sensitivities in a version with variables an undefined pointer is used."
  },
  {
   "property": "C52",
   "status": "proved",
   "theorems": [
    "Props.C52_call",
    "Props.C52_make",
    "Props.C52_reach",
    "Props.C52_ask",
    "Props.C52_asks"
   ],
   "note": "For every interpretation of real64: Spec/Proper.lean states what a caller has to observe (Call.Proper, Ask.Suits). After every history of correct calls every correct call completes (C52_call); creating calls give the numbers of plain reals and take exactly Make.words (C52_make); gradient and jacobian complete and return the textbook numbers (C52_ask), any number of times (C52_asks). Neutral elements (C15) and plain variables after a closed region (C33) are outside the rules, as the library fails there."
  },
  {
   "property": "C53",
   "status": "partial",
   "theorems": [
    "Props.C53_log_sum_exp_wide_partial",
    "Props.C53_log_sum_exp_partial",
    "Props.C53_plus_infinity_partial",
    "Props.C53_minus_infinity_refuted",
    "Props.C53_inv_logit",
    "Props.C53_inv_logit_infinite"
   ],
   "note": "Arithmetic of Spec/Over.lean (exact, overflow to infinities, NaN). Refuted for log_sum_exp of all -Infinity: the result is NaN, because is_inf tests for +Infinity only. Proved for all other arrays without NaN whose answer, with its distance from each finite entry, is in range (Spec/InRange.lean), in particular for all finite entries up to a quarter of the largest double; inv_logit is proved for every argument."
  },
  {
   "property": "C54",
   "status": "proved",
   "theorems": [
    "Props.C54_gradient",
    "Props.C54_jacobian",
    "Props.C54_dot",
    "Props.C54_normal",
    "Props.C54_lognormal"
   ],
   "note": "Floats: any arithmetic over the reals with relative errors at most u (no overflow or underflow). The densities are stated for calls with two variables, against the derivatives of the density itself (C54_normal, C54_lognormal). Functions whose local derivative is computed with cancellation (asin, acos, acosh, atanh, logit, inv_logit), and erf, erfc, log_gamma, log_sum_exp and user rules are outside the statement."
  },
  {
   "property": "C55",
   "status": "proved",
   "theorems": [
    "Props.C55_tape",
    "Props.C55_operands",
    "Props.C55_record",
    "Props.C55_operand_values",
    "Props.C55_matmul",
    "Props.C55_matmul_real_right",
    "Props.C55_matmul_real_left"
   ],
   "note": "A tape by itself for every sequence of writes, records of every reachable state, and entries of matrix products."
  },
  {
   "property": "C56",
   "status": "partial",
   "theorems": [
    "Props.C56_near",
    "Props.C56_equal",
    "Props.C56_exact",
    "Props.C56_arrays_partial",
    "Props.C56_matrices_partial",
    "Props.C56_sizes_refuted",
    "Props.C56_nan_refuted",
    "Props.C56_absolute"
   ],
   "note": "Proved for numbers and arrays of the same shape. The full statement is false: NaN passes every check and the size of the second array is not looked at; both are proved."
  },
  {
   "property": "C57",
   "status": "partial",
   "theorems": [
    "Props.C57_gradient_partial",
    "Props.C57_jacobian_partial",
    "Props.C57_real",
    "Props.C57_finite",
    "Props.C57_refuted"
   ],
   "note": "The full statement is false: the chain procedure of an unused result runs with adjoint zero, and 0/0 or 0*Infinity is NaN (C57_refuted: an unused sqrt(x) at 0). The parts cover all programs, histories and arithmetics in which the unused calls are quiet; C57_real shows that all calls of the library are quiet in exact arithmetic, C57_finite that with infinities and NaN they are quiet if their local derivatives are finite."
  },
  {
   "property": "C58",
   "status": "partial",
   "theorems": [
    "Props.C58_grad",
    "Props.C58_gradient",
    "Props.C58_data",
    "Props.C58_param_partial",
    "Props.C58_param_completes",
    "Props.C58_param_unchecked",
    "Props.C58_param_refuted",
    "Props.C58_param_later_partial"
   ],
   "note": "The README and user guide programs are proved for all inputs (sigma > 0), the function for gradient also after every history of correct calls with room on the tape. The ODE example without variables is proved in full (C58_data). The ODE example with parameters is proved for every completed call and every solver that does not ask at time 1, and completes for one output time, also after every history of correct calls that has closed no nested region (C58_param_later_partial); built without checks of array shapes it completes for any number of output times after every history of correct calls (C58_param_unchecked). False in general: at t = 1.0 the product p*t overwrites the chain procedure of its operand (C58_param_refuted, every reachable state), and with several output times (C27_times_refuted is the same defect) it meets chain procedures left by end_nested."
  },
  {
   "property": "C59",
   "status": "proved",
   "theorems": [
    "Props.C59_agree",
    "Props.C59_agree_ask",
    "Props.C59_call",
    "Props.C59_make",
    "Props.C59_ask",
    "Props.C59_asks",
    "Props.C59_agree_products",
    "Props.C59_products_refuted"
   ],
   "note": "Model/Lenient.lean: the chain procedures without shape checks, with arbitrary numbers behind the end of a record; correct use is Spec/Lenient.lean. Chain procedures of matrix products are excluded from nested regions because they compute addresses from what they read; products outside of regions are allowed. C59_products_refuted (Model/LenientMatmul.lean) shows that this exclusion is needed: with a product in a closed region, an independent variable can get a derivative of 3 by another one. Commutes R holds for the reals and for the machine arithmetics used elsewhere."
  },
  {
   "property": "C60",
   "status": "proved",
   "theorems": [
    "Props.C60_agree",
    "Props.C60_rates",
    "Props.C60_initial",
    "Props.C60_parameters",
    "Props.C60_stops_initial",
    "Props.C60_stops_parameters"
   ],
   "note": "cvodes_sol without checks of array shapes: any number of output times, right-hand sides that make constants; three parameters (for other numbers C27_parameters_refuted). Matrix products in right-hand sides are excluded, their chain procedures compute addresses. The history may itself contain solutions of differential equations and derivatives of functions that use them (OrderlyS)."
  },
  {
   "property": "C61",
   "status": "proved",
   "theorems": [
    "Props.C61_chain_rule",
    "Props.C61_gradient",
    "Props.C61_new",
    "Props.C61_unary",
    "Props.C61_binary",
    "Props.C61_var_real",
    "Props.C61_real_var"
   ],
   "note": "After every history of correct calls (as in C59, and solutions of differential equations among them, OrderlyS), closed nested regions included; programs may create constants and use matrix products. The defects C15-C17 are excepted as in C01."
  },
  {
   "property": "C62",
   "status": "partial",
   "theorems": [
    "Props.C62_jacobian",
    "Props.C62_jacobian_real",
    "Props.C62_completes_jacobian",
    "Props.C62_completes_jacobian_real",
    "Props.C62_gradient_partial",
    "Props.C62_completes_gradient_partial",
    "Props.C62_gradient_plain_partial",
    "Props.C62_then_call",
    "Props.C62_agree",
    "Props.C62_refuted",
    "Props.C62_code"
   ],
   "note": "With jacobian as the outer call the property is proved, also for inner functions that use variables of the outer one: whenever the call completes if array shapes are checked, and for every correct call (which then completes) if they are not, whatever is in memory. With gradient as the outer call it is false: an inner gradient whose function uses outer variables leaves adjoints on them, which gradient does not reset before its sweep (C62_refuted: 4 instead of 3). C62_gradient_partial and C62_completes_gradient_partial prove it for inner functions that use no outer variables, in real arithmetic."
  },
  {
   "property": "C63",
   "status": "proved",
   "theorems": [
    "Props.C63_gradient",
    "Props.C63_jacobian",
    "Props.C63_solve_initial",
    "Props.C63_solve_parameters"
   ],
   "note": "Without checks of array shapes (with them the questions on the way to a second output time meet leftover chain procedures, C27_times_refuted). The function may look at values at any point and go on as they tell, if small changes of these values do not change what it means (Steadily). Solver correctness is a hypothesis (Right): CVODES is not part of this code. Right-hand sides without matrix products, three parameters (C27_parameters_refuted), at most 8 open nested regions; room on the tape, and not exactly full (C36)."
  },
  {
   "property": "C64",
   "status": "proved",
   "theorems": [
    "Props.C64_right",
    "Props.C64_huge",
    "Props.C64_left",
    "Props.C64_small",
    "Props.C64_digamma",
    "Props.C64_log_gamma"
   ],
   "note": "In exact arithmetic, against the derivative of log|Gamma| of Mathlib; rounding is not part of the claim. The coefficients are those of the source, converted to integers; the signs of two pairs of polynomials are computed by the kernel (decide +kernel), for all real arguments at once."
  },
  {
   "property": "C65",
   "status": "proved",
   "theorems": [
    "Props.C65_asks",
    "Props.C65_asks_unchecked",
    "Props.C65_peak"
   ],
   "note": "With checks of array shapes for histories that have closed no nested region and calls with the same number of inputs (others need not complete, C52); without the checks after every history of correct calls. C65_peak covers all sequences of library calls that complete."
  },
  {
   "property": "C66",
   "status": "proved",
   "theorems": [
    "Props.C66_initial",
    "Props.C66_parameters",
    "Props.C66_right_initial",
    "Props.C66_right_parameters",
    "Props.C66_smooth",
    "Props.C66_smooth_family",
    "Props.C66_smooth_from",
    "Props.C66_smooth_with",
    "Props.C66_solutions_from",
    "Props.C66_solutions_with",
    "Props.C66_unique",
    "Props.C66_program_initial",
    "Props.C66_program_parameters"
   ],
   "note": "The solver is an arbitrary parameter; its accuracy on correct answers is the hypothesis AccurateTo, the true solutions Y and sensitivities S are hypotheses too. That the solutions of the sensitivity equations are the derivatives of the solutions is proved with Groenwall's inequality (Proof/FlowDeriv.lean, Proof/Variation.lean). C66_right_*: an exact solver satisfies the hypothesis Right of C63, so that gradient and jacobian of functions that solve differential equations return the derivatives of the true solutions. C66_smooth*: the condition that the right-hand side is continuously differentiable near the solution follows if the program that computes it can be differentiated step by step along the solution; branches and real constants that depend on time are allowed; powers with variable exponent need a positive base, functions of the user must be continuously differentiable themselves. C66_solutions_*: near one solution all others with close initial values or parameters exist on the whole interval, and the sensitivity equations along it have a solution (Picard-Lindeloef and Groenwall, Proof/FlowExist.lean). C66_unique: both are unique. C66_program_*: the whole claim for right-hand sides given by programs; only one solution is a hypothesis, its neighbours are part of the conclusion. Three parameters (for other numbers C27_parameters_refuted)."
  },
  {
   "property": "C67",
   "status": "proved",
   "theorems": [
    "Props.C67_gradient_path",
    "Props.C67_gradient",
    "Props.C67_jacobian_path",
    "Props.C67_jacobian",
    "Props.C67_completes",
    "Props.C67_gradient_completes",
    "Props.C67_unchecked",
    "Props.C67_gradient_unchecked",
    "Props.C67_jacobian_unchecked",
    "Props.C67_stable",
    "Props.C67_comparisons",
    "Props.C67_detached"
   ],
   "note": "C67_gradient and C67_jacobian: the derivatives are those of the function wherever small changes of the inputs do not change the instructions carried out. C67_gradient_path and C67_jacobian_path: at every point, the derivatives of the straight-line computation. C67_completes, C67_gradient_completes: the calls complete. C67_unchecked, C67_gradient_unchecked, C67_jacobian_unchecked: without checks of array shapes the calls complete after every history of correct calls, with these results (inside gradient and jacobian no matrix products, at most 8 open nested regions, tape not exactly full). C67_stable, C67_comparisons: when the decisions do not change. C67_detached: a witness that values used as data are constants."
  },
  {
   "property": "C68",
   "status": "proved",
   "theorems": [
    "Props.C68_reach_initial",
    "Props.C68_reach_parameters",
    "Props.C68_keeps_initial",
    "Props.C68_keeps_parameters",
    "Props.C68_same_initial",
    "Props.C68_same_parameters"
   ],
   "note": "For every call that completes, with checks of array shapes; when calls complete is C27, C63. C68_same_*: Carries is the whole record of each returned variable, so both runs return the same solutions and sensitivities. Nothing is said about adjoints of variables of the program that the right-hand side uses: nested sweeps run into them, as in C09."
  },
  {
   "property": "C69",
   "status": "proved",
   "theorems": [
    "Props.C69_initial",
    "Props.C69_parameters",
    "Props.C69_checked_initial",
    "Props.C69_checked_parameters",
    "Props.C69_goes_on",
    "Props.C69_later_initial",
    "Props.C69_later_parameters"
   ],
   "note": "For the library built without checks of array shapes (Model/LenientOde.lean), where correct calls complete; C69_checked_* for the library with checks, if the call completes; C69_later_*: with checks the call does complete, for one output time, after every history of correct calls without closed nested regions, if the right-hand side makes no plain variables, and the program can then go on with correct calls that make no plain variables, such as operations on the solution and grad (for several output times it need not: C27_times_refuted). Correct calls are Ode.ProperY and Ode.ProperP: the solver reports success, jacobian of the right-hand side would be a correct call at each question, no matrix products in it. Nothing is said about adjoints of variables of the caller that the right-hand side uses (C09)."
  },
  {
   "property": "C70",
   "status": "partial",
   "theorems": [
    "Props.C70_jacobian",
    "Props.C70_gradient_partial",
    "Props.C70_agree",
    "Props.C70_checked_jacobian",
    "Props.C70_checked_gradient_partial",
    "Props.C70_goes_on",
    "Props.C70_code",
    "Props.C70_refuted",
    "Props.C70_later_gradient_partial",
    "Props.C70_later_jacobian_partial"
   ],
   "note": "For the library built without checks of array shapes (Model/Lenient.lean, Model/LenientOde.lean), any arithmetic with commutative product. jacobian: the full claim (functions handed to an inner gradient make no inner calls and their right-hand sides use no variables but state and parameters). gradient: functions without inner calls whose right-hand sides use no variables of the function; for others the claim is false, C70_refuted, with and without the checks: the sweeps for the right-hand side leave adjoints behind in the variable it uses, and gradient adds to them. With checks: C70_agree, C70_checked_*, every call that completes gives the same numbers. C70_later_*: with checks the call does complete, after every history of correct calls without closed nested regions, for functions that solve one equation for one output time or (jacobian) make one inner call for a function of the same kind, and make no plain variables from then on (Spec/PlanOnce.lean), and the program can go on; for several output times it need not (C27_times_refuted)."
  },
  {
   "property": "C71",
   "status": "proved",
   "theorems": [
    "Props.C71_rewrite",
    "Props.C71_rewrite_jacobian",
    "Props.C71_linear",
    "Props.C71_compose",
    "Props.C71_compose_jacobian"
   ],
   "note": "Between results of gradient and jacobian calls in any programs after any histories: the same function gives the same results however it is written, linear combinations, compositions (product of jacobians). In exact arithmetic, at points where small changes do not change the decisions; in floating point the order of evaluation may change roundings."
  },
  {
   "property": "C72",
   "status": "proved",
   "theorems": [
    "Props.C72_scalar",
    "Props.C72_array",
    "Props.C72_all",
    "Props.C72_matrix",
    "Props.C72_last",
    "Props.C72_self",
    "Props.C72_swap"
   ],
   "note": "Any arithmetic; equality of results and states (or errors) in front of every continuation, in every reachable state."
  },
  {
   "property": "C73",
   "status": "partial",
   "theorems": [
    "Props.C73_assign_partial",
    "Props.C73_refuted"
   ],
   "note": "Full claim false of the code: chain procedures read operand values when the sweep runs (C73_refuted). Proved for the variables created before the assigned one, and the assigned one itself if it has no operands; missing are the variables computed afterwards."
  },
  {
   "property": "C74",
   "status": "proved",
   "theorems": [
    "Props.C74_call",
    "Props.C74_program",
    "Props.C74_gradient",
    "Props.C74_jacobian",
    "Props.C74_inv_square",
    "Props.C74_infinity"
   ],
   "note": "For every arithmetic with NanRules (Spec/Nan.lean), which the reals with overflow and NaN meet (nanRules_over). Make.reads says what a call computes from; the exceptions are listed there. hypot with a real 0 is excluded (property C17), inv_square has its own theorem."
  },
  {
   "property": "C75",
   "status": "proved",
   "theorems": [
    "Props.C75_gradient",
    "Props.C75_jacobian",
    "Props.C75_fewer",
    "Props.C75_fewer_rows"
   ],
   "note": "Exact equality in every arithmetic with commutative product, between calls in any two reachable states. Stands and Code.rename (Spec/Chosen.lean) say where the variables stand; C75_fewer is the case of the same program with fewer inputs. Restrictions as for C49."
  },
  {
   "property": "C76",
   "status": "proved",
   "theorems": [
    "Props.C76_gradient",
    "Props.C76_jacobian"
   ],
   "note": "Exact equality in every arithmetic with commutative product, between calls in any two reachable states. Literal (Spec/Literal.lean) says which programs are compared; Placed where the remaining variables stand. Restrictions as for C49; real exponents 0.5, 1, 2, -2, -1, -0.5 are left out, where the library computes another function."
  },
  {
   "property": "C77",
   "status": "partial",
   "theorems": [
    "Props.C77_gradient_partial",
    "Props.C77_jacobian_partial",
    "Props.C77_completes_partial",
    "Props.C77_refuted",
    "Props.prodLoop_gradient"
   ],
   "note": "Proved for code that assigns variables only (results of operations, copies, var(d)); C77_refuted: a real assigned to a copy of a variable changes the variable. Decisions must not change nearby (Stmt.Stable), as in C67. prodLoop_gradient is the product of an array in a loop."
  },
  {
   "property": "C78",
   "status": "partial",
   "theorems": [
    "Props.C78_sens_initial_partial",
    "Props.C78_sens_parameters_partial",
    "Props.C78_jacobian_partial",
    "Props.C78_initial_partial",
    "Props.C78_parameters_partial",
    "Props.C78_unique",
    "Props.C78_unchecked_initial_partial",
    "Props.C78_unchecked_parameters_partial",
    "Props.C78_completes_partial",
    "Props.C78_completes_parameters_partial",
    "Props.C78_refuted",
    "Props.C78_later_partial",
    "Props.C78_later_parameters_partial"
   ],
   "note": "Codes without assignment of reals to variables, except zeros assigned to components of the result before anything else (C78_refuted: such an assignment also changes the other copies, and the sensitivities are wrong); three parameters (C27_parameters_refuted); the unchecked versions are for codes without matrix products, the checked completion theorems for one output time and codes without new constants, from the start of the program and after every history of correct calls that has closed no nested region."
  }
 ]
}