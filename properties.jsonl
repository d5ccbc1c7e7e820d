{"id": "C01", "title": "Reverse sweep computes exact partial derivatives of scalar programs", "statement": "After building any expression from independent variables with the scalar operators and functions of the library (+,-,*,/,**, unary minus, sin..atanh, sqrt, inv, square, inv_sqrt, exp, log, logit, inv_logit, erf, erfc, abs, hypot, with var or real operands, at points where each step is differentiable), calling f%grad() on a result makes x%adj() equal to the partial derivative of the mathematical function with respect to x, for every independent variable x (exact real arithmetic). Real operands that are the neutral element of the operator, the exponent -2 and hypot with a zero real are the subject of C15, C16, C17 and C39.", "quantifier": "every straight-line program of any length and sharing pattern, every input point in the domain, every output variable, every independent variable", "why_tests_cant": "A test fixes one expression and one point; the claim is over all expressions, all sharing patterns and all points, and is about the mathematical derivative, which a test only compares with another float.", "anchors": ["src/var.F90: grad", "src/add.F90", "src/sub.F90", "src/mul.F90", "src/div.F90", "src/pow.F90", "src/hypot.F90", "src/sin.F90 ... src/erfc.F90: chain_*"]}
{"id": "C02", "title": "Reverse sweep is exact for vector and matrix operations", "statement": "The derivative property of C01 also holds when the program uses sum, norm2, log_sum_exp, dot_product (var/var, var/real, real/var) and matmul (var/var, var/real, real/var) of any conforming shapes.", "quantifier": "every program mixing scalar and array operations, all array sizes, all matrix shapes, all inputs in the domain", "why_tests_cant": "Shapes and element positions are unbounded; an index slip for one row or column only shows for particular shapes.", "anchors": ["src/sum.F90", "src/norm2.F90", "src/log_sum_exp.F90", "src/dot_product.F90", "src/matmul.F90", "src/array_in_tape.F90"]}
{"id": "C03", "title": "Forward values agree with the mathematical function", "statement": "The value of every var produced by an operator or function equals the mathematical function of the operand values (exact real arithmetic), for var and real operand positions alike. inv_square, the exponent -2 and hypot with a zero real left operand are the subject of C16, C39 and C17.", "quantifier": "every program, every input in the domain", "why_tests_cant": "Tests compare values at a handful of points; branches on special operand values (0, 1, 2, -2, 0.5, negative) are easily missed.", "anchors": ["src/*.F90: all forward functions", "src/inv_square.F90: inv_square_d/inv_square_v", "src/hypot.F90"]}
{"id": "C04", "title": "A new variable starts with zero adjoint", "statement": "In any reachable state, a variable just created by var(x), by a constructor from an array, or as the result of any operation has adjoint exactly 0 and, for var(x), value exactly x.", "quantifier": "every history of API calls, including growth of the storage and re-use of storage after nested regions", "why_tests_cant": "The adjoint field is never written on creation: the property rests on all storage above the head being zero after every possible history.", "anchors": ["src/tape.F90: push_val, push_val_op, push_val_dop, push_val_op_dop", "src/nested.F90: end_nested"]}
{"id": "C05", "title": "set_zero_all_adj resets exactly the adjoints", "statement": "After set_zero_all_adj() every existing variable has adjoint 0, and no value, no operand record and no number of stored variables has changed; a following f%grad() gives the derivatives of f whatever sweeps were done before.", "quantifier": "every history of sweeps with any outputs, every graph", "why_tests_cant": "Stale adjoints only show after particular sequences of sweeps.", "anchors": ["src/vari.F90: set_zero_all_adj", "src/grad.F90: set_zero_all_adj", "src/var.F90: grad"]}
{"id": "C06", "title": "Creating variables never disturbs existing ones", "statement": "Creating any variable or array block leaves the value, adjoint, operands and data of all earlier variables unchanged, also when the storage or the variable table has to be enlarged.", "quantifier": "every state, every number of variables, every record size, any growth step", "why_tests_cant": "Growth happens at particular fill levels that depend on record sizes; tests hit a few.", "anchors": ["src/tape.F90: alloc_storage", "src/vari.F90: alloc_vari_stack_n"]}
{"id": "C07", "title": "Distinct variables never share storage", "statement": "Setting the value or the adjoint of one variable does not change the value, adjoint, operands or data of any other variable.", "quantifier": "every reachable state, every pair of distinct variables", "why_tests_cant": "Needs the non-overlap of all variable-length records in any history.", "anchors": ["src/tape.F90: set_val_at, set_adj_at", "src/vari.F90: set_indexed_val", "src/var.F90: set_var_0d"]}
{"id": "C08", "title": "gradient returns the function value and its gradient", "statement": "gradient(f, x) returns f(x) in its first entry and the partial derivatives of f in the others, whatever variables, values and adjoints already exist on the tape.", "quantifier": "every f built from the supported operations, every x in the domain, every prior tape content", "why_tests_cant": "The prior tape is swept too; only a proof over all prior states shows it cannot leak into the result.", "anchors": ["src/grad.F90: gradient"]}
{"id": "C09", "title": "gradient leaves the caller's variables as they were", "statement": "After gradient(f, x) the number of variables, and the value and the adjoint of every variable that existed before the call, are as before.", "quantifier": "every prior tape, every f and x", "why_tests_cant": "Depends on adjoints left over from earlier sweeps: the sweep in gradient runs over the whole tape.", "anchors": ["src/grad.F90: gradient", "src/var.F90: grad", "src/nested.F90: end_nested"]}
{"id": "C10", "title": "jacobian returns the values and all partial derivatives", "statement": "jacobian(f, n, x) returns in row i the value of f_i(x) and the partial derivatives of f_i, for each i, whatever already exists on the tape.", "quantifier": "every vector-valued f with shared sub-expressions, every n, every x in the domain, every prior tape", "why_tests_cant": "Rows are computed by repeated sweeps on a shared graph; contamination of one row by an earlier one depends on the graph.", "anchors": ["src/grad.F90: jacobian", "src/nested.F90: set_zero_nested_adj"]}
{"id": "C11", "title": "Nested regions are transparent", "statement": "begin_nested, any calls that close the regions they open, end_nested: afterwards the tape position, the number of variables, the nesting level and the outer variables themselves are as at begin_nested. The value of an outer variable is unchanged if the region assigns to no outer variable; its adjoint is unchanged if the region makes no sweep, and also under nested sweeps if the region does not use that variable (outer variables that are used receive exactly the derivative, C21). Holds to any allowed nesting depth. end_nested without an open region does nothing.", "quantifier": "every outer state, every content of the region, all nesting depths up to the limit", "why_tests_cant": "Region contents and depth are unbounded.", "anchors": ["src/nested.F90: begin_nested, end_nested"]}
{"id": "C12", "title": "Nesting depth is respected", "statement": "Ten levels of nesting can be opened; opening an eleventh is not detected and indexes outside the bookkeeping arrays.", "quantifier": "every history of begin/end calls", "why_tests_cant": "The limit is a silent out-of-bounds write; a test sees whatever memory follows.", "anchors": ["src/nested.F90: begin_nested, max_nested_stack"]}
{"id": "C13", "title": "Assignment of a real to a var updates it in place", "statement": "x = r for an existing var x sets its value to r for every handle on the same variable, creates no variable, and changes no adjoint and no other variable; array assignment does so element by element.", "quantifier": "every state, every variable, every value, every array", "why_tests_cant": "Aliasing and neighbouring records are history dependent.", "anchors": ["src/var.F90: set_var_0d, set_var_1d, set_var_2d, set_var_1d_0d, set_var_2d_0d", "src/vari.F90: set_indexed_val"]}
{"id": "C14", "title": "Comparison operators compare the values", "statement": "a op b for op in ==, /=, <, <=, >, >= with var/var, var/real or real/var operands equals the comparison of the operand values in that order.", "quantifier": "all operand values, all states", "why_tests_cant": "A swapped operand is invisible on symmetric or equal test values.", "anchors": ["src/relational.F90"]}
{"id": "C15", "title": "Arithmetic with a neutral element leaves operands intact", "statement": "x + 0, 0 + x, x - 0, x * 1, 1 * x, x / 1 (real constant) have the value and derivative of x and do not change how derivatives propagate through x.", "quantifier": "every variable x, however it was computed", "why_tests_cant": "The short cut returns the operand itself; the effect depends on the operation that created it.", "anchors": ["src/add.F90: add_vd, add_dv", "src/sub.F90: sub_vd", "src/mul.F90: mul_vd, mul_dv", "src/div.F90: div_vd"]}
{"id": "C16", "title": "Inverse square has the right value", "statement": "inv_square(x) and x**(-2.0) have value 1/x**2 for x /= 0 and derivative -2/x**3.", "quantifier": "all x /= 0", "why_tests_cant": "The implementation evaluates 1/x*x; a test at x = 1 passes.", "anchors": ["src/inv_square.F90: inv_square_d, inv_square_v", "src/pow.F90: pow_vd"]}
{"id": "C17", "title": "hypot is right when one real argument is zero", "statement": "hypot(0.0, x) and hypot(x, 0.0) have value |x| and derivative sign(x) for x /= 0, and leave the propagation through x unchanged.", "quantifier": "all x /= 0, however computed", "why_tests_cant": "Special-case branch; wrong only for negative or non-leaf operands.", "anchors": ["src/hypot.F90: hypot_vd, hypot_dv"]}
{"id": "C18", "title": "Repeated operands accumulate", "statement": "When the same variable occurs several times among the operands of an operation (x*x, sum([x,x,x]), dot_product(v,v), matmul(A,A)), its adjoint receives the sum of all contributions.", "quantifier": "all operations, all multiplicities and positions of the repeated operand", "why_tests_cant": "Multiplicity patterns are unbounded.", "anchors": ["src/vari.F90: set_operand_adj_all, set_operand_adj_by_index"]}
{"id": "C19", "title": "Unrelated variables receive nothing and change nothing", "statement": "Variables the output does not depend on have adjoint 0 after a sweep from cleared adjoints, and creating further unrelated variables (before, between or after) does not change the adjoints of the others.", "quantifier": "all graphs, all positions of unrelated variables", "why_tests_cant": "Interleavings are unbounded.", "anchors": ["src/var.F90: grad"]}
{"id": "C20", "title": "Sweeps are linear in the seeds", "statement": "A sweep started from arbitrary adjoints (for example a second grad without reset) yields at the independent variables the derivative of the correspondingly weighted sum of the variables.", "quantifier": "all graphs, all seed adjoints", "why_tests_cant": "Needs all combinations of seeds.", "anchors": ["src/var.F90: grad", "all chain procedures"]}
{"id": "C21", "title": "grad_nested stays inside the region", "statement": "Inside a nested region f%grad_nested() runs the sweep only over variables of the region: it computes the same adjoints of region variables as a full sweep would and does not propagate among outer variables.", "quantifier": "all outer states, all regions", "why_tests_cant": "Depends on the outer tape.", "anchors": ["src/var.F90: grad_nested", "src/nested.F90: curr_nested_vari_head"]}
{"id": "C22", "title": "Records are read back as written", "statement": "The value, adjoint, operand list and data list stored with a variable are read back exactly (bit for bit for reals), for every number of operands and data items.", "quantifier": "all reals (all bit patterns), all list lengths, all positions", "why_tests_cant": "Mixed integer/real words with variable offsets: length combinations are unbounded.", "anchors": ["src/tape.F90: push_*, val_at, adj_at, operand_index, n_operand, n_data_operand, data_operand, set_real_at, get_real_at"]}
{"id": "C23", "title": "Supplied partial derivatives propagate", "statement": "var_with_partials(val, ops, partials) yields a variable with the given value whose sweep adds adjoint*partial_i to operand i, for every number of operands.", "quantifier": "all operand lists, partials and incoming adjoints", "why_tests_cant": "Length and repetition are unbounded.", "anchors": ["src/chain_eager_adj.F90: chain_eager_adj, var_with_partials"]}
{"id": "C24", "title": "Normal log density has right value and derivatives", "statement": "normal_lpdf(y, mu, sigma) with sigma > 0 is the sum over y of the log of the normal density and its derivatives with respect to mu and sigma are the mathematical ones, in all var/real combinations.", "quantifier": "all data vectors of any length, all mu, all sigma > 0", "why_tests_cant": "Data size is unbounded and formulas are checked at few points.", "anchors": ["src/prob/normal_lpdf.F90"]}
{"id": "C25", "title": "Lognormal log density has right value and derivatives", "statement": "lognormal_lpdf(y, mu, sigma) with sigma > 0 and y > 0 is the sum of log lognormal densities, with the mathematical derivatives with respect to mu and sigma, in all var/real combinations.", "quantifier": "all positive data vectors, all mu, all sigma > 0", "why_tests_cant": "As C24.", "anchors": ["src/prob/lognormal_lpdf.F90"]}
{"id": "C26", "title": "ODE sensitivity right-hand side is J*s + df/dp", "statement": "The sensitivity right-hand side handed to the ODE solver equals, for each parameter or initial condition, the Jacobian of the user's right-hand side times the sensitivity vector plus the partial derivative with respect to the parameter.", "quantifier": "all user right-hand sides built from supported operations, all states, all sensitivity vectors, all numbers of parameters and components", "why_tests_cant": "The number of parameters and components and the right-hand side are arbitrary.", "anchors": ["src/cvodes_model.F90: set_sens_rhs, calc_jac_yvar"]}
{"id": "C27", "title": "ODE solution variables carry the solver's sensitivities", "statement": "The vars returned by cvodes_sol have the solver's solution values, and a sweep from any of them adds to each initial-condition or parameter variable the solver's sensitivity; the sensitivity initial conditions are the identity for initial-value sensitivities and zero for parameters.", "quantifier": "all problem sizes, output times and solver results", "why_tests_cant": "Index arithmetic over three dimensions of arbitrary size.", "anchors": ["src/cvodes.F90: cvodes_sol, y0_sens, par_sens"]}
{"id": "C28", "title": "abs has the right value and derivative on each side", "statement": "abs(x) has value |x| and derivative sign(x) for x /= 0, without disturbing x; abs of 0 is a constant with zero derivative.", "quantifier": "all x, however computed", "why_tests_cant": "Branch per sign with aliasing of the operand.", "anchors": ["src/abs.F90"]}
{"id": "C29", "title": "Domain errors stop the program", "statement": "acosh(x) stops with an error for x below its domain bound as coded, atanh(x) for |x| >= 1, and neither stops inside the domain.", "quantifier": "all x", "why_tests_cant": "Boundary behaviour over a continuum.", "anchors": ["src/acosh.F90", "src/atanh.F90"]}
{"id": "C30", "title": "log_sum_exp equals log of the sum of exponentials", "statement": "log_sum_exp(x) equals log(sum(exp(x_i))) for every non-empty finite vector, its derivatives are the softmax weights, which are non-negative and add up to 1, and no exponential of a positive number is formed.", "quantifier": "all non-empty vectors of any length", "why_tests_cant": "Length is unbounded; the shift by the maximum depends on the position of the maximum.", "anchors": ["src/log_sum_exp.F90"]}
{"id": "C31", "title": "inv_logit and logit are inverse and in range", "statement": "inv_logit(x) lies strictly between 0 and 1, logit(inv_logit(x)) = x, and inv_logit is the logistic function except in the far negative tail, where exp(x) is used with a bounded relative error.", "quantifier": "all x", "why_tests_cant": "Branches over a continuum.", "anchors": ["src/inv_logit.F90", "src/logit.F90"]}
{"id": "C32", "title": "digamma handles poles, signs and reflection", "statement": "digamma returns the signalling value with the error flag for non-positive integers, tiny and hugely negative arguments, and elsewhere for negative arguments agrees with the reflection formula applied to the value at 1-x.", "quantifier": "all x", "why_tests_cant": "Branch structure over a continuum.", "anchors": ["src/digamma.F90"]}
{"id": "C33", "title": "A fresh independent variable is inert in sweeps", "statement": "A variable created by var(x) takes part in sweeps as a leaf: the sweep never changes anything because of it, whatever happened before, including closed nested regions.", "quantifier": "every history with nested regions", "why_tests_cant": "The variable table entry is recycled; its old propagation rule depends on the earlier region.", "anchors": ["src/vari.F90: new_vari_val", "src/nested.F90: end_nested"]}
{"id": "C34", "title": "Storage growth policy", "statement": "The variable table has capacity 1024*2^k and the word storage 12288*2^k with the smallest k that fits what was asked for; nothing shrinks; growth beyond 32-bit sizes is the only failure of creation.", "quantifier": "every history of creations", "why_tests_cant": "Sizes are unbounded.", "anchors": ["src/env.F90", "src/tape.F90: alloc_storage", "src/vari.F90: alloc_vari_stack_n"]}
{"id": "C35", "title": "Record length query is right", "statement": "The record length reported for a variable equals the number of words its record occupies.", "quantifier": "all records", "why_tests_cant": "Only records without operands are tested.", "anchors": ["src/tape.F90: record_len"]}
{"id": "C36", "title": "Closing a region never writes outside the storage", "statement": "end_nested (and so gradient and jacobian) only writes inside the allocated storage, at every fill level.", "quantifier": "every fill level of the tape", "why_tests_cant": "Needs the tape to be exactly full.", "anchors": ["src/nested.F90: end_nested"]}
{"id": "C37", "title": "Current-record queries read the current record", "statement": "The queries for the value and the adjoint at the current tape position return the value and the adjoint of the record there.", "quantifier": "every state", "why_tests_cant": "On a fresh tape both are zero.", "anchors": ["src/tape.F90: val_curr, adj_curr"]}
{"id": "C38", "title": "Elementwise array application is scalar application per element", "statement": "Applying a scalar function or operator to an array of vars gives for each element the value and the derivative of the scalar application, in element order, and each element's operand is only the corresponding element.", "quantifier": "all array lengths and contents, repeated elements included", "why_tests_cant": "Lengths unbounded.", "anchors": ["src/*.F90: impure elemental functions"]}
{"id": "C39", "title": "Power covers the special exponents consistently", "statement": "x**d with real d gives value x^d and derivative d*x^(d-1) for x > 0 for every d, including the special-cased exponents 0.5, 1, 2, -2, -1, -0.5; d**x gives log(d)*d^x for d > 0; x**y with two variables gives both partial derivatives, also at base 0 for every exponent at which the power is differentiable in x.", "quantifier": "all x >= 0, all real d and y", "why_tests_cant": "Special-cased exponents are isolated points.", "anchors": ["src/pow.F90"]}
{"id": "C40", "title": "Reading never changes anything", "statement": "val, adj, value_of, comparisons and the queries on records leave the whole state unchanged.", "quantifier": "every state", "why_tests_cant": "Every state.", "anchors": ["src/var.F90: val, adj", "src/value_of.F90", "src/relational.F90"]}
{"id": "C41", "title": "Derivatives are reproducible", "statement": "The value and derivatives that gradient and jacobian return depend only on the user's function, the point, and the values of the outer variables the function uses. They do not depend on what the program did before: how much is on the tape, which adjoints are left over, how many regions are open. In particular the same call made twice gives the same result, and gradient gives what one gets by hand with new variables, grad and adj.", "quantifier": "all user functions (any calls, any branching on values), all points, all pairs of prior histories", "why_tests_cant": "Ranges over pairs of histories and all user functions; a test fixes one history.", "anchors": ["src/grad.F90: gradient, jacobian", "src/nested.F90: begin_nested", "src/tape.F90", "src/vari.F90"]}
{"id": "C42", "title": "A program may go on after gradient and jacobian", "statement": "After gradient or jacobian completes, the library is in a state that a program can also reach by plain calls only, and the client holds the same variables. So every guarantee for sequences of calls (storage, nesting, adjoints, values) keeps holding however gradient and jacobian calls are mixed in.", "quantifier": "every prior history, every user function, every point", "why_tests_cant": "Ranges over all histories and all user functions.", "anchors": ["src/grad.F90: gradient, jacobian", "src/nested.F90: begin_nested, end_nested"]}
{"id": "C43", "title": "Sweeps and resets change adjoints only", "statement": "Any sequence of grad, grad_nested, set_zero_all_adj and set_zero_nested_adj leaves the set of variables, their values, operands and data, the variable table, the nesting data and the length of the tape unchanged. Only adjoints change.", "quantifier": "every prior history, every sequence of sweeps and resets", "why_tests_cant": "Ranges over all histories and all sequences; a test reads back a few values.", "anchors": ["src/var.F90: grad, grad_nested", "src/vari.F90: set_zero_all_adj, chain", "src/nested.F90: set_zero_nested_adj"]}
{"id": "C44", "title": "Rows of jacobian are gradients", "statement": "Row i of the Jacobian matrix and value i that jacobian returns are exactly, not up to rounding, what gradient returns for component i of the function at the same point, however different the prior histories of the two calls are.", "quantifier": "all user functions (any calls, any branching on values), all components, all points, all pairs of prior histories, any arithmetic", "why_tests_cant": "Ranges over all functions and histories, and asserts exact equality in any rounding.", "anchors": ["src/grad.F90: gradient, jacobian", "src/nested.F90: set_zero_nested_adj"]}
{"id": "C45", "title": "A reset makes sweeps independent of earlier sweeps", "statement": "set_zero_all_adj followed by y%grad() gives every variable the same adjoint whatever sweeps and resets were made before. Inside a nested region the same holds for set_zero_nested_adj followed by y%grad_nested() and the variables of the region.", "quantifier": "every prior history, every sequence of earlier sweeps and resets, every variable", "why_tests_cant": "Ranges over all histories and all sequences of sweeps.", "anchors": ["src/vari.F90: set_zero_all_adj", "src/nested.F90: set_zero_nested_adj", "src/var.F90: grad, grad_nested"]}
{"id": "C46", "title": "Arrays put on the tape are read back", "statement": "An array of variables or of reals put on the tape for use by a chain procedure is read back as it was: number of rows and columns, every row, every column, element by element; no variable is disturbed; and it is still read back after any further creation of variables.", "quantifier": "all reachable states, all array shapes and contents, all later calls that create variables", "why_tests_cant": "Ranges over all shapes, histories and later reallocations of the storage.", "anchors": ["src/array_in_tape.F90: var_2d_array_in_tape, data_2d_array_in_tape, var_1d_array_in_tape, data_1d_array_in_tape, nrow, ncol, row, col, row_val, col_val", "src/tape.F90: push"]}
{"id": "C47", "title": "Operations added by the user are differentiated", "statement": "An operation a user adds as the guide documents (a variable made from a value, operands and data, and a chain procedure that passes on its adjoint times factors computed from values and data) has the value the user computed, and its derivative with respect to any variable is the sum of the factors times the derivatives of the operands. The guide's own examples log_v, div_vv, div_vd are right. Gradients of programs mixing such operations with the library's are exact when the factors are the partial derivatives.", "quantifier": "all chain procedures over the intrinsics that are linear in the adjoint, all operands (repeated or not), data, points and reachable states", "why_tests_cant": "Ranges over all operations a user may add and all states.", "anchors": ["doc/fazang_user_guide.org: Add operation functions", "src/vari.F90: chain_op, set_chain, operand_val, data_operand, set_operand_adj", "src/var.F90: new_var_op, new_var_op_dop, set_chain"]}
{"id": "C48", "title": "The same numbers as with plain reals", "statement": "Replacing reals by variables does not change what a program computes: every operation, and every program built from the library's operations (with branches on values), gives exactly the numbers, rounding included, that the same operations give on real64; gradient and jacobian return exactly these numbers as the value of the function.", "quantifier": "all arithmetics with commutative multiplication and hypot and any meaning of the intrinsics sum, dot_product, norm2 and matmul (so any order of their additions), all reachable states, programs, arguments; apart from inv_square and exponent -2 (C16)", "why_tests_cant": "Ranges over all programs, all inputs including NaN and infinities, and all states.", "anchors": ["src/*.F90: forward functions of all operations", "src/grad.F90: gradient, jacobian", "src/prob/normal_lpdf.F90", "src/prob/lognormal_lpdf.F90"]}
{"id": "C49", "title": "Gradient and jacobian are the textbook algorithm to the last bit", "statement": "The result of gradient and jacobian is exactly what reverse-mode differentiation over a plain list of steps gives: evaluate the steps in order, then visit them from the last to the first, each adding the adjoint times its local derivative to its operands in the order of the operands; one such pass per component for jacobian. Rounding, NaN and infinities included, nothing in the result depends on what the tape held before, on nesting or on the representation.", "quantifier": "all arithmetics with commutative multiplication and hypot and any meaning of the intrinsics sum, dot_product, norm2 and matmul (so any order of their additions), all reachable states, all programs with branches that may use variables of the caller, all arguments; without neutral data operands (C15), inv_square and exponent -2 (C16)", "why_tests_cant": "Ranges over all programs, inputs and earlier histories; the order of floating-point additions is visible only in the last bits.", "anchors": ["src/grad.F90: gradient, jacobian", "src/var.F90: grad", "src/vari.F90: chain, set_operand_adj", "src/*.F90: chain procedures of all operations"]}
{"id": "C50", "title": "cvodes_sol leaves its arguments as they were", "statement": "After a completed cvodes_sol the initial state, the parameters and every variable that existed before have the values and adjoints they had before the call, so the same call can be repeated with the same arguments.", "quantifier": "all solvers, right-hand sides, numbers of states, parameters and output times, reachable states", "why_tests_cant": "Ranges over all solvers and reachable states; the tests use each initial state once.", "anchors": ["src/cvodes.F90: new_cvodes_service, cvodes_sol_data, cvodes_sol_y0_sens, cvodes_sol_par_sens"]}
{"id": "C51", "title": "cvodes_sol releases the solver's objects", "statement": "Every object a call of cvodes_sol creates in the solver library (context, vector, matrix, linear solver, solver memory, vectors of sensitivities) is used and released only while it exists; if the call returns, each has been released exactly once, the context after all others.", "quantifier": "all versions of cvodes_sol, numbers of equations, sensitivities and output times, error flags at setup and at every output time, and the finalizations a compiler makes", "why_tests_cant": "Ranges over all failure points and numbers of objects; a wrong release usually goes unnoticed.", "anchors": ["src/cvodes.F90: cvodes_service, new_cvodes_service, free_cvodes_service, cvodes_sol_data, cvodes_sol_y0_sens, cvodes_sol_par_sens"]}
{"id": "C52", "title": "Correct calls do not fail", "statement": "If arrays that belong together have the same extent, acosh and atanh get arguments they are defined for, named variables exist, a nested region is open where one is needed and at most ten are, and the tape has room and is not exactly full when a region is closed, then no call fails (no error stop, no access out of bounds, no nonconformable arrays) - leaving out the two cases with known defects: neutral elements as operands (C15), and plain variables created after a nested region was closed (C33; the inputs of gradient and jacobian may be, if their number is always the same). A creating call takes exactly the words of tape that can be computed from its arguments, and any number of calls of gradient and jacobian in a row return the numbers of reverse-mode differentiation by the book.", "quantifier": "all arithmetics with commutative product, histories of correct calls, functions with branches, inputs, numbers of calls", "why_tests_cant": "Ranges over all histories, sizes and arithmetics; a bound that is off by one fails only at a particular tape length or nesting depth.", "anchors": ["src/tape.F90", "src/vari.F90", "src/var.F90", "src/nested.F90", "src/grad.F90: gradient, jacobian", "src/matmul.F90", "src/array_in_tape.F90", "src/acosh.F90", "src/atanh.F90"]}
{"id": "C53", "title": "log_sum_exp and inv_logit do not overflow", "statement": "In an arithmetic where a result above the largest double becomes an infinity: log_sum_exp of entries that are finite or -Infinity is the logarithm of the sum of their exponentials and its derivatives are the quotients of the exponentials and their sum, also where the exponentials overflow; with an entry +Infinity it is +Infinity; if all entries are -Infinity it is -Infinity. inv_logit of every finite number lies between 0 and 1, up to the smallest normal double it is the logistic function r, its derivative is r(1-r); at the infinities it is 0 and 1 with derivative 0.", "quantifier": "all array lengths, entries that are infinities or finite with an answer in range, orders in which the compiler adds, reachable states", "why_tests_cant": "Ranges over all arrays of numbers and infinities; tests use small numbers, where the naive formulas work as well.", "anchors": ["src/log_sum_exp.F90", "src/inv_logit.F90", "src/inv.F90", "src/arith.F90: is_inf, log_epsilon"]}
{"id": "C54", "title": "Derivatives are exact up to rounding", "statement": "In every arithmetic whose operations and elementary functions have a relative error of at most u, the entries of gradient and jacobian differ from the exact derivatives of the steps taken (exact local derivatives at the computed numbers, exact products and sums) by at most ((1/(1-u))^N - 1) times the same sums with absolute values, N counting 8 + 3 per operand for each step. There is no truncation error as of a difference quotient. For a dot product of n variables and n reals, in whatever order the products are added, the value has at most n+1 roundings and each derivative at most 2. The value and the derivatives of normal_lpdf and lognormal_lpdf of n data are those of the density up to n plus a fixed number of roundings.", "quantifier": "all rounded arithmetics, histories, points and programs of arithmetic operations, powers of positive numbers, hypot, sqrt, exp, log, sin, cos, tan, atan, sinh, cosh, tanh, asinh, abs, square, inv, inv_sqrt, inv_square, sum, norm2, dot_product, matmul and values with given partial derivatives, where they are differentiable", "why_tests_cant": "Tests compare a few numbers with a tolerance; the bound ranges over all programs, points and roundings.", "anchors": ["src/grad.F90: gradient, jacobian", "src/vari.F90", "src/dot_product.F90", "src/norm2.F90", "src/matmul.F90", "src/prob/normal_lpdf.F90", "src/prob/lognormal_lpdf.F90"]}
{"id": "C55", "title": "What is written to the storage is read back as written", "statement": "Every sequence of pushes (records with value, operands and data, arrays of integers and reals, matrices, empty records) and stores into them that fits completes; each push returns the place after the previous item; and every procedure that reads an item returns what was last written to it, wherever it lies and however often the storage was enlarged. For every variable the number and list of operands, number and list of data, and the values and adjoints of its operands agree with what the operand variables hold; an entry of a matrix product gives its row, its column and places where both factors are read back.", "quantifier": "all sequences of writes, all items, all histories of calls, all matrix shapes (also empty)", "why_tests_cant": "Places depend on everything written before and on when the storage was enlarged; an offset that is wrong by one word shows only for some sequences.", "anchors": ["src/tape.F90: push, push_n, push_int_array, push_real_array, push_real_2d_array, push_val*, set_val_at, set_adj_at, set_real_at, set_real_array_at, val, adj, n_operand, operand_index, operand_info, operand_val, operand_adj, n_data_operand, data_operand", "src/vari.F90: vari_at, operand_index, matrix_operand_1_index, matrix_operand_2_index", "src/array_in_tape.F90", "src/matmul.F90"]}
{"id": "C56", "title": "A passing check means close numbers", "statement": "EXPECT_NEAR(a, b, tol) passes if and only if |a-b| < tol; EXPECT_FLOAT_EQ and EXPECT_DBL_EQ pass if and only if all corresponding elements differ by less than 4 units of the single or double precision at 1; EXPECT_EQ and EXPECT_TRUE pass exactly for equal integers and true conditions; otherwise the program stops with the code of the check. Arrays of different shapes and NaN do not pass.", "quantifier": "all numbers, tolerances, arrays and matrices", "why_tests_cant": "The checks are what the tests consist of; a check that accepts too much lets every test pass.", "anchors": ["src/test.F90: expect_near_impl, expect_float_eq_impl_0/1/2, expect_dbl_eq_impl_0/1/2, expect_eq_impl, expect_true_impl"]}
{"id": "C57", "title": "Results that are not used do not matter", "statement": "Adding calls to a function whose results are used neither for what it returns nor for its decisions changes neither the value nor the derivatives that gradient and jacobian return.", "quantifier": "all functions of the user (with branches and variables of the caller), all unused calls of the library at any places, all inputs and histories, all arithmetics", "why_tests_cant": "A test adds one unused call at one input; the effect appears only where a local derivative of the unused call is infinite or NaN.", "anchors": ["src/grad.F90: gradient, jacobian", "src/var.F90: grad", "src/sqrt.F90: chain_sqrt", "src/log.F90: chain_log"]}
{"id": "C58", "title": "The examples of the documentation compute what they say", "statement": "The quick-start programs of the README and the user guide return the logarithm of the normal density and its derivatives with respect to mu and sigma; the ODE example without variables solves y1'' = 0.3 t y1 and returns the solver's solutions at the output times; the ODE example with parameters solves the equations of the oscillator and their sensitivities with respect to the three parameters, and gives these sensitivities as derivatives of the solution.", "quantifier": "all y, mu and sigma > 0, all histories before the call; all parameter values, initial values, output times and solvers", "why_tests_cant": "A run of an example covers one set of numbers from the start of a program, and the time points chosen by one solver.", "anchors": ["README.md", "doc/fazang_user_guide.org", "example/ode/data.F90: eval_rhs, cvodes_solve_data", "example/ode/param.F90: eval_rhs_pvar, cvodes_demo", "src/grad.F90: gradient", "src/cvodes.F90: cvodes_sol_data, cvodes_sol_par_sens"]}
{"id": "C59", "title": "Without checks of array shapes, closed nested regions do no harm to later plain variables", "statement": "Built with a compiler that does not check array shapes, and with matrix products kept out of nested regions: plain variables may be created after nested regions have been closed, and every correct call completes with a result that does not depend on what the chain procedures of closed regions find in memory; gradient and jacobian, called any number of times in a row with any numbers of inputs, return the numbers of the textbook. Where the program with shape checks completes, the program without does the same.", "quantifier": "all histories of correct calls, solutions of differential equations and calls of gradient and jacobian for functions of every kind (with decisions, inner calls, solutions of differential equations) among them, all contents of memory behind the ends of arrays, all interpretations of real64 with commutative sum and product", "why_tests_cant": "The leftover procedures read memory behind the end of a record; a test sees one content of memory and one order of leftover procedures.", "anchors": ["src/nested.F90: begin_nested, end_nested", "src/vari.F90: new_vari, set_chain", "src/grad.F90: gradient, jacobian", "src/mul.F90: chain_mul_vv", "src/chain_eager_adj.F90"]}
{"id": "C60", "title": "Without checks of array shapes, ODE solutions for any number of output times complete with the right sensitivities", "statement": "Built with a compiler that does not check array shapes: cvodes_sol, for variables as initial values or for three variable parameters, completes for any number of output times and for right-hand sides that make constants (but no matrix products), if the solver succeeds on correct answers; each component has the solver's value, its derivative with respect to any existing variable is the sum of the solver's sensitivities times the derivatives of the initial values or parameters, and earlier variables keep values and derivatives. None of this depends on what chain procedures of closed nested regions find in memory. If the solver reports an error at one of the output times, the program stops.", "quantifier": "all histories of correct calls, solutions of differential equations and calls of gradient and jacobian for functions of every kind (with decisions, inner calls, solutions of differential equations) among them, all solvers, output times, right-hand sides given by programs without matrix products, all variables to differentiate by, all contents of memory behind the ends of arrays", "why_tests_cant": "The variables of the second output time take the place of the variables of the first one's nested regions; a test sees one content of memory, one solver and one equation.", "anchors": ["src/cvodes.F90: cvodes_sol_y0_sens, cvodes_sol_par_sens", "src/cvodes_model.F90: set_sens_rhs", "src/nested.F90: begin_nested, end_nested", "src/chain_eager_adj.F90"]}
{"id": "C61", "title": "Without checks of array shapes, the rules of differentiation hold after every history", "statement": "Built with a compiler that does not check array shapes: after every history of correct calls, nested regions that were closed included, every program of operations on existing variables completes; its outputs have the values of the real computation; the derivative of each output with respect to any existing variable, as a sweep gives it, is the derivative of the program along the derivatives of its arguments (chain rule); new variables have derivative 0 with respect to old ones; values and derivatives of old variables stay. Creating independent variables, running a program and sweeping gives the gradient. None of this depends on what chain procedures left behind by closed regions find in memory.", "quantifier": "all histories of correct calls, solutions of differential equations and calls of gradient and jacobian for functions of every kind (with decisions, inner calls, solutions of differential equations) among them, all programs (with constants, branches, matrix products), all argument variables, repeated or not, all variables to differentiate by, all contents of memory behind the ends of arrays", "why_tests_cant": "Which chain procedures are left in which slots depends on the whole history, and what they read on the rest of memory; a test sees one history and one memory.", "anchors": ["src/var.F90: grad", "src/vari.F90: new_vari_val, chain", "src/nested.F90: end_nested", "src/chain_eager_adj.F90"]}
{"id": "C62", "title": "gradient and jacobian may be called inside the function that is being differentiated", "statement": "A function handed to gradient or jacobian may, while it runs, call gradient and jacobian for other functions, to any depth, at points of its choice, and go on as their answers tell. The answers are the values and derivatives of the inner functions, they are constants of the outer computation, and computing them does not change the outer value and derivatives.", "quantifier": "all histories of correct calls, solutions of differential equations and calls of gradient and jacobian for functions of every kind (with decisions, inner calls, solutions of differential equations) among them, all functions with branches and inner calls of gradient and jacobian nested to any depth, inner functions that do or do not use variables of the outer ones, all points, all numbers of components, every interpretation of real64 with commutative product (for jacobian)", "why_tests_cant": "The inner sweep runs over the records of the outer computation; whether it disturbs them depends on depth, on the variables the inner function uses and on the adjoints left before. A test sees one arrangement.", "anchors": ["src/grad.F90: gradient, jacobian", "src/var.F90: grad", "src/nested.F90: begin_nested, end_nested, set_zero_nested_adj"]}
{"id": "C63", "title": "gradient and jacobian through cvodes_sol", "statement": "A function handed to gradient or jacobian may call cvodes_sol any number of times, between other operations, branches and decisions that depend on values, on initial values or (three) parameters that it has computed itself. Built with a compiler that does not check array shapes, the call then completes after every history of correct calls, and returns the value and the partial derivatives of the function in which every cvodes_sol is replaced by the solution, provided the solver, when its questions about the right-hand sides are answered correctly, returns the solution and its derivatives. The tape and the values of the caller's variables are as before.", "quantifier": "all histories of correct calls, solutions of differential equations and calls of gradient and jacobian for functions of every kind (with decisions, inner calls, solutions of differential equations) among them; all functions of operations, branches and solutions; all solvers, right-hand sides without matrix products, numbers of states and output times; all points; all contents of memory behind the ends of arrays", "why_tests_cant": "Every question of the solver opens and closes a nested region in the middle of the region of gradient; what the sweep meets depends on how often the solver asks and on everything computed before. A test sees one solver run.", "anchors": ["src/grad.F90: gradient, jacobian", "src/cvodes.F90: cvodes_sol", "src/cvodes_model.F90: set_sens_rhs", "src/chain_eager_adj.F90: var_with_partials"]}
{"id": "C64", "title": "digamma is the derivative of log_gamma, to real64 accuracy", "statement": "At every real number that is not a pole, not closer to 0 than 5.89e-39 and above -3.6e16, the value of digamma differs from the derivative of the logarithm of the absolute value of the gamma function by at most 6e-16 plus 1e-16 of that derivative (by at most 3e-17 between 1/2 and 2.04e15), so the derivative that log_gamma of a variable gets is right to the accuracy of the arithmetic. This is about the approximations and their constants, in exact arithmetic.", "quantifier": "all real arguments", "why_tests_cant": "A test compares finitely many arguments with a reference; a wrong digit in one of the 30 coefficients, or a branch boundary in the wrong place, can leave the tested points within tolerance.", "anchors": ["src/digamma.F90: digamma", "src/log_gamma.F90: chain_log_gamma"]}
{"id": "C65", "title": "Memory does not grow with the number of derivative evaluations", "statement": "Any number of calls of gradient and jacobian in a row leave the tape and the list of variables as long as they were, and the storage grows no further than the largest single call needs. In general the storage after a run of calls, with nested regions opened and closed, is the smallest capacity that holds what was in use at the worst moment.", "quantifier": "all histories of correct calls, all functions with branches, all points, all numbers of calls; all sequences of library calls", "why_tests_cant": "A leak shows only in runs longer than a test; the bound is about every length of run and every sequence of functions.", "anchors": ["src/tape.F90: alloc_storage", "src/vari.F90: alloc_vari_stack_n", "src/nested.F90: begin_nested, end_nested", "src/grad.F90: gradient, jacobian"]}
{"id": "C66", "title": "The derivatives of ODE solutions are those of the true solution, up to the solver's tolerance", "statement": "Built with a compiler that does not check array shapes: let the initial values, or the three parameters, passed to cvodes_sol depend on an earlier variable u, and let the program that computes the right-hand side be differentiable, step by step, along the solution (the right-hand side is then continuously differentiable near it). If the solver, given correct right-hand sides and sensitivity right-hand sides, returns solution and sensitivities with errors of at most eps, then the value of each returned variable differs from the true solution of the differential equation at that output time by at most eps, and its derivative with respect to u differs from the derivative of the true solution with respect to u by at most eps times the sum of the absolute derivatives of the initial values or parameters. With an exact solver, gradient and jacobian of functions that call cvodes_sol on the way return the derivatives of the function in which the true solutions stand.", "quantifier": "all histories of correct calls, solutions of differential equations and calls of gradient and jacobian for functions of every kind (with decisions, inner calls, solutions of differential equations) among them, all solvers, tolerances, output times, right-hand sides given by programs without matrix products, all families of solutions, all variables to differentiate by", "why_tests_cant": "A test compares one equation at a few times with a tabulated solution; that solving the sensitivity equations gives the derivative of the solution is a theorem about all right-hand sides.", "anchors": ["src/cvodes.F90: cvodes_sol_y0_sens, cvodes_sol_par_sens", "src/cvodes_model.F90: set_sens_rhs"]}
{"id": "C67", "title": "Loops and decisions that depend on values", "statement": "The function handed to gradient or jacobian may look at the values of its variables and go on as they tell: branches on several values, loops whose number of steps depends on the data, iterations until convergence. At every point where small changes of the inputs do not change the instructions that are carried out, the value and the derivatives returned are those of the function. At every other point the value is right and the derivatives are those of the straight-line computation carried out, values that were looked at counting as constants.", "quantifier": "all histories of library calls, all functions whose control flow depends in any way on values (finitely many steps at each point, no bound over the points), all points at which the steps carried out are differentiable, all numbers of inputs and outputs", "why_tests_cant": "The tape records only the path taken; whether that gives the derivative of the whole function is a statement about all nearby inputs and all possible paths.", "anchors": ["src/grad.F90: gradient, jacobian", "src/var.F90: val, grad", "src/relational.F90"]}
{"id": "C68", "title": "ODE solutions are reproducible, and the program can go on after solving", "statement": "Let a program call cvodes_sol with variables as initial values or as parameters, at any point, with any right-hand side (which may use other variables of the program) and any solver. If the call completes, then every variable there was keeps its value and what it depends on, and its adjoint unless the right-hand side uses it; the variables returned are new ones, each with the solution as its value, the initial values or parameters as its operands, and the sensitivities as its partial derivatives; and the program is in a state that ordinary library calls lead to, so everything promised after ordinary calls holds after it. If the same problem is solved at two points, of the same program or of different ones, and the variables used have the same values, then the solutions and the sensitivities are the same, whatever happened before.", "quantifier": "all histories of library calls, all arithmetics, all solvers, all right-hand sides that create variables and read values, all initial values, parameters, and numbers of output times", "why_tests_cant": "What the solver's many callbacks leave on the shared tape depends on everything the program has done; a test sees a few histories, and comparing two runs over all histories is a relational property.", "anchors": ["src/cvodes.F90: cvodes_sol_y0_sens, cvodes_sol_par_sens", "src/cvodes_model.F90: set_sens_rhs", "src/nested.F90: begin_nested, end_nested"]}
{"id": "C69", "title": "ODE solutions are the textbook's numbers, in any arithmetic", "statement": "Let a program that uses the library correctly call cvodes_sol with variables as initial values, or with three variables as parameters, any number of times, between other calls. Each such call completes, provided the solver reports success and there is room on the tape. Every time the solver asks for the right-hand side of the sensitivities s_j it is given (dF/dy) s_j, plus dF/dq_j for a parameter, where the partial derivatives are the numbers that the textbook's reverse sweep over the operations of F gives, in floating-point arithmetic as in any other, operation by operation. The variables returned carry, at every output time, exactly the solution and the sensitivities that the solver computes from these answers. Every other variable keeps its value. Afterwards all correct calls work as before, and gradient and jacobian return the textbook's numbers.", "quantifier": "all histories of correct calls, solutions of differential equations and calls of gradient and jacobian for functions of every kind (with decisions, inner calls, solutions of differential equations) among them, all arithmetics, all solvers, all right-hand sides that create variables (no matrix products) and read values, with or without variables of the caller, all numbers of state components and output times, all contents of memory behind the end of arrays; the library built without checks of array shapes, where the call completes for any number of output times (with them: completion for one output time, and the same numbers whenever the call completes)", "why_tests_cant": "A solver may ask any number of questions, in any order, at any states; each answer goes through the shared tape that the whole history of the program has filled. Tests compare a few solutions with a tolerance and cannot see that every answer is the textbook's to the last bit.", "anchors": ["src/cvodes.F90: cvodes_sol_y0_sens, cvodes_sol_par_sens", "src/cvodes_model.F90: set_sens_rhs", "src/var.F90: grad_nested", "src/nested.F90: set_zero_nested_adj, begin_nested, end_nested"]}
{"id": "C70", "title": "gradient and jacobian of functions that solve differential equations return the textbook's numbers, in any arithmetic", "statement": "Let a program that uses the library correctly call gradient or jacobian for a function that calls cvodes_sol any number of times, goes on with the solutions, decides on values, and calls gradient and jacobian for other functions of this kind. The call completes, provided the solvers report success and there is room on the tape. It returns the numbers of the textbook's reverse sweep, in floating-point arithmetic as in any other, operation by operation, in which each component of a solution is one step that passes its adjoint times its sensitivities to the initial values, or to the parameters, of its equation. All variables of the caller keep their values, the tape is as long as before, and all correct calls afterwards work as before.", "quantifier": "all histories of correct calls, solutions of differential equations and calls of gradient and jacobian for functions of every kind (with decisions, inner calls, solutions of differential equations) among them, all arithmetics with commutative product, all solvers, all functions built from the operations without matrix products, solutions, decisions and inner calls, all points, all contents of memory behind the end of arrays; the library built without checks of array shapes, where the call completes (with them: the same numbers whenever the call completes)", "why_tests_cant": "Inside one region of gradient any number of regions are opened and closed by the solver's questions, and records are created over the remains of closed regions. A test sees one function with one solver and compares with a tolerance.", "anchors": ["src/grad.F90: gradient, jacobian", "src/cvodes.F90: cvodes_sol_y0_sens, cvodes_sol_par_sens", "src/cvodes_model.F90: set_sens_rhs", "src/nested.F90: begin_nested, end_nested, set_zero_nested_adj", "src/chain_eager_adj.F90: var_with_partials"]}
{"id": "C71", "title": "The laws of calculus hold between the results of calls", "statement": "In exact arithmetic: gradient and jacobian of two functions that agree near the point return the same values and the same derivatives, however the functions are written (order of evaluation of operands, rearranged formulas, other branches or loops), whatever happened before the calls and however numbers are stored. The gradient of a linear combination of functions is the linear combination of their gradients. The gradient of a composition is the gradient of the outer function at the values of the inner one times the jacobian of the inner one, and the jacobian of a composition is the product of the jacobians.", "quantifier": "all functions built from the operations with decisions and loops, all points where small changes do not change the decisions, all histories before each of the calls", "why_tests_cant": "Relates calls of different functions at every point and after every history; a test compares a few pairs at a few points up to a tolerance.", "anchors": ["src/grad.F90: gradient, jacobian", "src/var.F90: grad", "src/nested.F90: begin_nested, end_nested"]}
{"id": "C72", "title": "Declaring a variable and assigning to it is the same as constructing it", "statement": "x = var(); x = d leaves the program in the same state as x = var(d) and returns the same handle, or stops with the same error; likewise for arrays declared by their size and assigned element by element or all at once, and for matrices assigned column by column. Of two assignments to a variable the last counts, x = x%val() does nothing, and assignments to different variables can be made in any order.", "quantifier": "all reachable states, all values, all array and matrix sizes, everything the program does afterwards", "why_tests_cant": "Equality of two programs in front of every continuation, after every history, including histories that run out of storage between the declarations.", "anchors": ["src/var.F90: new_var, new_var_val, new_var_1d, new_var_2d, set_var_0d, set_var_1d, set_var_2d, set_var_1d_from_0d", "src/vari.F90: new_vari, new_vari_val, set_indexed_val", "src/tape.F90: push_val, set_val_at, alloc_storage"]}
{"id": "C73", "title": "Assigning a real to a variable leaves derivatives alone", "statement": "x = d changes the value of x; the derivatives of the other existing variables with respect to each other, as a reset and a sweep give them, remain what they were. (False of the code for variables computed from x: the sweep reads the current values of operands. True for all variables created before x, and for x itself if it has no operands.)", "quantifier": "all reachable states, all existing variables, all assigned values", "why_tests_cant": "Ranges over every tape a program can build and every pair of variables on it.", "anchors": ["src/var.F90: set_var_0d, grad", "src/vari.F90: set_indexed_val, set_zero_all_adj, operand_val", "src/mul.F90: chain_mul_vv"]}
{"id": "C74", "title": "NaN in, NaN out", "statement": "No function of the library hides a NaN: a variable computed, in any number of steps, from a NaN (a variable, an input or a constant) has value NaN, and is_nan says so; the value returned by gradient and the values returned by jacobian likewise. Exceptions are only those of IEEE 754 and Fortran, where the result does not depend on the operand: x**0, 1**y, and a NaN next to an infinity in hypot, norm2 and log_sum_exp.", "quantifier": "all programs with branches, all calls and arguments, all reachable states, every arithmetic that follows the NaN rules of IEEE 754", "why_tests_cant": "A branch that treats NaN as a number, as comparisons with NaN are false, shows only for the argument and the function where it happens; programs and positions of the NaN are unbounded.", "anchors": ["src/abs.F90: abs_v", "src/inv_logit.F90: inv_logit_d", "src/log_sum_exp.F90: log_sum_exp_d", "src/pow.F90: pow_vd", "src/acosh.F90, src/atanh.F90", "src/add.F90, src/sub.F90, src/mul.F90, src/div.F90", "src/arith.F90: is_nan_v, is_nan_d", "src/prob/normal_lpdf.F90, src/prob/lognormal_lpdf.F90"]}
{"id": "C75", "title": "Derivatives do not depend on what else is differentiated, nor on the order of the arguments", "statement": "Differentiating a function by all of its arguments, or by some of them while the others are variables of the caller with the same values, and passing the arguments in any order, gives the same value and the same derivatives by the arguments that are differentiated both times, to the last bit; so the gradient by some inputs is a part of the gradient by all inputs, and likewise for every row of the jacobian. Nothing of it depends on the state in which the calls are made.", "quantifier": "all programs with branches, all places of the arguments (every injective map), all inputs, all pairs of reachable states, all arithmetics with commutative multiplication and hypot; without neutral data operands (C15), inv_square and exponent -2 (C16)", "why_tests_cant": "A test fixes one function and one choice of the inputs; the adjoints of inputs and of the variables of the caller are in different parts of the tape, and a difference may be a last bit.", "anchors": ["src/grad.F90: gradient, jacobian", "src/var.F90: grad", "src/vari.F90: chain, set_operand_adj", "src/nested.F90"]}
{"id": "C76", "title": "A constant may be a variable or a real", "statement": "The parts of a computation that do not depend on the arguments of interest may be done with variables (inputs, variables of the caller, new variables) or with reals, using the operations of a variable and a real, and dot products, matrix products and log densities with real arguments: the value and the derivatives by the other inputs are the same, to the last bit.", "quantifier": "all programs with branches and every way to replace constant variables by reals, all inputs, all pairs of reachable states, all arithmetics with commutative multiplication and hypot; without neutral data operands (C15), inv_square and exponent -2 (C16), and without the real exponents that stand for sqrt, square, inv etc.", "why_tests_cant": "Each operation has a separate implementation for each combination of variables and reals, with its own chain procedure; a test compares them for one operation at a few numbers, not in all programs, and not to the last bit.", "anchors": ["src/add.F90", "src/mul.F90", "src/div.F90", "src/pow.F90", "src/hypot.F90", "src/dot_product.F90", "src/matmul.F90", "src/prob/normal_lpdf.F90", "src/grad.F90: gradient, jacobian"]}
{"id": "C77", "title": "Code written for reals keeps its meaning with variables", "statement": "A subroutine written for reals, with local variables that are changed by assignments, with copies, loops and decisions on values, is differentiated by declaring its numbers as variables: gradient and jacobian then return the results it has for reals and their partial derivatives. (False of the code if a real is assigned to a variable: the real is assigned in place, so that every copy made of the variable before, and the original, changes too. True for all code that assigns variables only - results of operations, copies, var(d).)", "quantifier": "all sequences of assignments, copies, loops and branches, of any length, on arrays of any size; all inputs in the domain where decisions do not change nearby; all reachable states", "why_tests_cant": "Whether two names stand for the same variable depends on the history of copies; programs are unbounded, and a test shows one of them.", "anchors": ["src/var.F90: var, set_var_0d, val", "src/grad.F90: gradient, jacobian"]}
{"id": "C78", "title": "Right-hand sides of differential equations may be written as ordinary code", "statement": "If the right-hand side passed to cvodes_sol is a subroutine that assigns results of operations and copies of variables to the elements of fy and to local variables, with loops and decisions that do not change near the point, then the sensitivity right-hand sides the solver is given are the derivatives of the function that the same code computes for reals, and the solutions are variables with the solver's values and sensitivities; without checks of array shapes the call completes for any number of output times if the solver succeeds.", "quantifier": "all such codes, states, parameters, solvers, output times and all histories of calls before", "why_tests_cant": "Tests have a handful of right-hand sides; the claim is about every sequence of assignments, every loop length and every sequence of questions a solver may ask.", "anchors": ["src/cvodes_model.F90: set_sens_rhs", "src/cvodes.F90: cvodes_sol", "src/var.F90: assignment(=)"]}
