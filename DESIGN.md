# Formal model of Fazang (reverse-mode automatic differentiation in Fortran)

The code under study is `/repo/src/*.F90` (pinned commit). It is read as text; nothing of it is run.

## 1. Architecture

* `Verif/Model/*` - the model, function by function, every definition citing file and lines.
  * `Basic`   - outcomes (`ok`, or an error: `oob` array index out of bounds or null pointer, `nonconf` array
    shapes that do not conform, `shortArg` actual argument shorter than the explicit-shape dummy, `overflow`
    allocation size beyond int32, `stop` = `error stop`), the arithmetic interface `Arith R` (the Fortran
    intrinsics on `real64`) and the representation interface `Rep W R` (`transfer` between one `real64` and two
    `int32`).
  * `Tape`    - `tape.F90` at word level.
  * `Vari`    - `vari.F90`, `var.F90`, `value_of.F90`: variable table, chain pointers as tags, creation.
  * `Chain`   - the `chain_*` procedures.
  * `Ops`     - the forward functions of all operator/function files, `relational.F90`, `matmul.F90`,
    `array_in_tape.F90`, `chain_eager_adj.F90`.
  * `Grad`    - `nested.F90`, `grad.F90`, `grad`/`grad_nested` of `var.F90`.
  * `Prob`, `Digamma`, `Cvodes` - `prob/*.F90`, `digamma.F90`, `cvodes_model.F90` and `cvodes.F90`.
  * `RealArith` - the arithmetic interface with the exact reals.
* `Verif/Spec/*` - the vocabulary of the theorem statements, apart from the proofs. `Prog`: user programs and their
  meaning over the reals, no reference to tape, records or chain procedures. `Run`: the same programs executed on the
  model. `History`: sequences of API calls by a client, `Reach h c` = "the client state `c` is reached by the
  history `h`". `Deriv`: gradient and Jacobian in the sense of analysis (Fréchet derivative). `Drive`: what a user
  does to get derivatives. `Partial`: `rate`, `Rates`, `Gives` (derivatives as read off by a sweep). `View`: what can
  be read about a variable. `Nest`, `Region`, `Seeds`, `Queries`, `Density`, `Ode`: what single properties need.
  `Reps`: instances of the representation laws, so that no theorem is vacuous.
* `Verif/Proof/*` - representation invariant, refinement and derivative lemmas.
* `Verif/Props/*` - the property theorems `C01_...` with concrete instances (`example`) beside them. One instance may
  serve several theorems with the same hypotheses; its comment says which. `Cases` and `CasesMore` hold further instances.
* `Verif/Conform/*` - the unit tests of /repo/test/unit run on the model (see section 4). No theorem depends on these
  files.

The central device of the proofs is a ghost graph: a list of nodes (position, operand positions, data, chain tag,
kind) such that `Inv s g val adj` says that the word-level state `s` holds exactly these records with these values and
adjoints, with zero words above the head. Every operation of the model is shown to refine an operation on the graph;
sweeps refine a fold over the nodes; the derivative theorems pair the fold with tangents (the sum over all nodes of
adjoint times tangent does not change while one chain procedure runs).

## 2. Two readings of `real64`

* Storage-level theorems are proved for **every** type `R` with any arithmetic whatsoever (no laws assumed),
  as long as `transfer` to two words and back is the identity and the all-zero words are `0.0`. The instance
  with `R = BitVec 64`, `W = BitVec 32` satisfies this for arbitrary arithmetic on bit patterns, so these
  theorems hold of IEEE doubles including NaN payloads.
* Derivative theorems are proved for `R = ℝ` (exact arithmetic). Rounding, overflow, NaN and infinities are not
  modelled there.

## 3. Plan and result per property

"refuted" means: a theorem with a concrete history shows that the code violates the property; the `_partial`
theorems and, where there is one, an exact condition (`_iff`) say what holds.

| id | what is modelled | how proved | result |
|----|------------------|------------|--------|
| C01 | all scalar ops, chain procedures, `grad` | representation invariant + pairing invariant of the reverse sweep + `HasFDerivAt` of each step; induction over programs | proved |
| C02 | sum, norm2, log_sum_exp, dot_product, matmul with array blocks | same induction, blocks in the invariant | proved |
| C03 | all forward functions over ℝ | induction over programs; differentiable steps reuse the derivative lemmas with constant functions, the other points one by one | proved on the whole domain (`Spec/Value.lean`) |
| C04 | push_* on zero-filled storage | invariant "all words above head are zero" kept by every operation | proved |
| C05 | set_zero_all_adj | loop invariant; combined with C01 | proved |
| C06 | alloc_storage, alloc_vari_stack | invariant: growth is the identity on contents | proved |
| C07 | set_val/set_adj | records occupy disjoint intervals | proved |
| C08 | gradient | C01 in an arbitrary outer state | proved |
| C09 | gradient | whole-tape sweep pollutes outer adjoints | refuted; partial |
| C10 | jacobian | induction over rows | proved |
| C11 | begin/end_nested | invariant with a stack of saved positions | proved |
| C12 | begin_nested | reachable levels; out-of-bounds outcome at level 10 | proved |
| C13 | assignment | disjointness | proved |
| C14 | relational | case analysis | real-op-var order relations refuted; partial |
| C15 | add_vd etc. | concrete histories, every-state theorem | refuted; partial |
| C16 | inv_square | real arithmetic | value refuted; derivative proved |
| C17 | hypot_vd/hypot_dv | concrete histories | refuted; partial |
| C18 | set_operand_adj_* | accumulated updates | proved |
| C19, C20 | grad | sweep lemmas with arbitrary seeds | proved |
| C21 | grad_nested | sweep lemma on a suffix | proved |
| C22 | push/read functions | word-level round trips, any R | proved |
| C23 | chain_eager_adj | chain lemma | proved |
| C24, C25 | lpdf | algebra over finite sums + HasDerivAt; Mathlib's `gaussianPDFReal` as specification | proved |
| C26 | set_sens_rhs, calc_jac_yvar | grad_nested theorem + induction over components and sensitivities | partial: three parameters, hard-coded in the code (refuted otherwise) |
| C27 | cvodes_sol | the solver is an arbitrary parameter; induction over output times and over the solver's questions | partial: see C26; completion for one output time, after every history of correct calls without closed regions (`Props/OdeLater.lean`), refuted for several (C27_times_refuted) |
| C28, C29 | abs, acosh, atanh | case analysis | C28 at 0 partial (stale rule); C29 proved |
| C30 | log_sum_exp | algebra over lists | proved |
| C31 | logit, inv_logit | real analysis | proved |
| C32 | digamma | case analysis of the coded branches; accuracy of the rational approximations: C64 | proved |
| C33 | stale chain pointers | concrete history | refuted; partial |
| C34 | allocation | invariant | proved |
| C35, C37 | record_len, adj_curr | | refuted; partial |
| C36 | end_nested | | refuted (exactly full tape); partial |
| C38 | elemental application | induction over lists | proved |
| C39 | pow | real analysis, case analysis | proved but for the value at exponent -2 (C16) and two variables at base 0, exponent 1 |
| C40 | readers | readers return the state they get | proved |
| C41 | gradient, jacobian, any user function, any R | relation between two runs that start after different histories (same new records up to a shift of positions), kept by every creating call and by sweeps | proved |
| C42 | gradient, jacobian, any user function, any R | a completed call is replayed as a history | proved |
| C43 | grad, grad_nested, both resets, any R | induction over the calls, same ghost graph and values | proved |
| C44 | jacobian and gradient, any user function, any R | two-run simulation, one side frozen while the other goes through the rows | proved |
| C45 | both resets and both sweeps, any R | after the reset both runs have the same ghost adjoints (of the region) | proved |
| C46 | `array_in_tape.F90`: matrices and vectors of variables and reals, any R | blocks of the ghost graph hold the words; readers evaluated on them; `Evo` keeps them | partial: holds for rank two; for rank one `nrow`, `col` are refuted |
| C47 | chain procedures of the user (`Model/User.lean`): straight-line expressions linear in the adjoint, over ℝ | contribution = adjoint times `factors`, then `Sim.op` as for built-in operations; `user` is an instruction of programs and histories; by induction over expressions, procedures that pass the bounds check read only what they declare | proved |
| C48 | evaluation with numbers only (`Spec/Plain.lean`) for every arithmetic | `Gives`: effect of a call together with the values of its results; induction on programs | proved |
| C49 | reverse mode over a list of steps (`Spec/Textbook.lean`): forward log, backward pass, local rules; for every arithmetic | `Booked`: the records since `begin_nested` are the steps, `Writes` for every call, induction on programs; sweep against backward pass by induction from the last record | proved |
| C50 | the contents of the solver's vector, which is the caller's array `y`, threaded through the output times | induction on the output times; C68 for the variables, in any arithmetic; counterexamples with the Euler method | partial: violated for a real initial state |
| C51 | calls of the solver library as events on numbered objects (`Model/Service.lean`), the compiler's finalizations a parameter; `Spec/Trace.lean`: proper use, release | shape of the event list, induction on the output times | partial: violated under the standard's finalization rules |
| C52 | rules for the caller as predicates on calls and programs (`Spec/Proper.lean`: `Call.Proper`, `Orderly`, `Ask.Suits`), exact count of tape words | every creating call: progress lemma `Live` (completes, takes exactly `n` words, new records fit their chain procedures); invariant `Sound` along correct histories; regions as in C49 | proved |
| C53 | arithmetic with overflow, infinities and NaN (`Spec/Over.lean`); arrays whose answer is in range (`Spec/InRange.lean`) | C52 gives completion and the numbers of the book; closed form of the book's row for one call (`Proof/BookOne.lean`); bounds on the shifted exponentials | partial: all entries `-Infinity` refuted |
| C54 | arithmetic with bounded relative errors (`Spec/Round.lean`: `Floats`), exact steps at the computed numbers | C49 reduces to the book; every step of the book is paired with its exact and its absolute step (`Pair`), errors of products and sums by induction from the last step; the densities against the derivatives of the density, their sums in any order (`sums_off`) | proved |
| C55 | a tape by itself as a list of items (`Spec/Cells.lean`), all writing and reading procedures of `tape.F90`; records of reachable states; entries of `matmul` | invariant: the words of the tape are those of the items in order (`Holds`), kept by each procedure; for histories the invariant of C02 | proved |
| C56 | the checks of `test.F90` (`Model/Check.lean`) | induction over the arrays; NaN in the arithmetic with overflow of C53 | partial: false for NaN and for arrays of different sizes, both proved |
| C57 | programs with further calls (`Spec/Unused.lean`), by the book of C49 | simulation of the two logs: the further steps keep adjoint zero and pass on what changes no sum | partial: false where a local derivative of an unused result is not finite (proved, in the arithmetic of C53) |
| C58 | the programs of README, user guide, example/ode/param.F90 (`Props/Examples.lean`) and example/ode/data.F90 (`Props/OdeData.lean`) | C01, C49 (the book of gradients), C27 with closed forms of the derivatives; without checks of array shapes C60 | partial: the ODE example is erroneous when the solver asks at time 1 (proved) |
| C59 | the chain procedures without shape checks (`Model/Lenient.lean`, for the refutation `Model/LenientMatmul.lean`), what lies behind the end of a record is arbitrary; correct use in `Spec/Lenient.lean`, histories in `Spec/Orderly.lean` | a leftover procedure does nothing on a record without operands (`runChainL_leaf`); every run is mirrored by a run of the strict model in which the leftover procedures are replaced by a mark (`Akin`, `Shadow`), to which C52 applies | proved |
| C60 | `cvodes_sol` with the sweeps of C59 (`Model/LenientOde.lean`) | as C59: each question of the solver is answered in step with a run of the strict model, whose leftover procedures are then replaced by a mark (`Shade`), to which C26/C27 apply; induction over the solver's questions and the output times | proved |
| C61 | operations, programs and sweeps with the chain procedures of C59 | as C60: the strict run of the twin (`prog_step` with constants), mirrored by the run without checks; every call that creates variables treats the two alike (`blind_prog_all`) | proved |
| C62 | functions that call `gradient`/`jacobian` while they run (`Deep`), over C03, C05, C06 | induction over the function: the records of the outer function stay the steps of the book, the inner region is cut off again; for an outer `gradient` also that adjoints of outer records stay 0 (`Sealed`); without shape checks every correct call completes, by a clean twin of the state (`Shadow`) on which the proof with checks runs | partial: outer `gradient` with inner functions that use outer variables is wrong in the code (refuted) |
| C63 | functions that call `cvodes_sol` on the way and may look at values (`Flow`), under `gradient` and `jacobian`, with the sweeps of C59; histories that contain such calls and everything of `OrderlyL` (`OrderlyS`, which C58, C60, C61, C62 over ℝ, C66 and C67 quantify over too) | induction over the function: each solution appends records whose partials are the sensitivities (C60), the other operations as in C01; the derivative of the composition follows step by step (`flow_step`); the solver enters only through `Right`, that it solves | proved |
| C64 | `digamma` over the reals against Mathlib's gamma function | `ψ` is the only function with `ψ(x+1) = ψ(x) + 1/x` and `ψ(x) - log x → 0` (convexity of `log Γ`); the code's approximation beyond 3 misses that equation by a function whose derivative has the sign of a polynomial of degree 55 with integer coefficients, which the kernel computes; on [1/2, 3] by three steps of the equation, a polynomial of degree 49 and one value; left of 1/2 by reflection (C32) | proved |
| C65 | the capacities of the word storage and of the variable table before and after calls of `gradient` and `jacobian` and runs of library calls (`Spec/Footprint.lean`) | the growth bound of C34 is carried through the region of the call (`Slim`) and composed over the list of calls; for runs of library calls induction over the run with the words in use at every moment (`StaysIn`) | proved |
| C66 | families of true solutions and their sensitivities (`Spec/Variation.lean`) beside the results of C60 | Grönwall's inequality (Mathlib) first keeps the family in the tube in which the right-hand side is uniformly differentiable, then bounds the remainder of the linearisation (`Proof/FlowDeriv.lean`); lists to vectors in `Proof/Variation.lean`; then C60; that programs are continuously differentiable near a solution: `Spec/Smooth.lean`, by induction on the program and compactness of the solution curve (`Proof/Smooth.lean`); that the neighbours of one solution and its sensitivities exist on the whole interval: Picard–Lindelöf (Mathlib) for the right-hand side clamped to a tube, and Grönwall (`Proof/FlowExist.lean`); both are unique | proved |
| C67 | user functions with inspections of values at any point, as infinitely branching trees (`Spec/Algo.lean`): their meaning and the straight-line program carried out at a point | induction over the tree: the run is the run of the straight-line program (`Proof/Algo.lean`), to which C08, C10, C61, C63 apply (`Proof/AlgoFlow.lean`); near the point both functions agree. A witness shows that values used as data are constants of the sweep | proved |
| C68 | `cvodes_sol` with variables, right-hand sides as `Spec/Code.lean`, any solver as a tree of questions, any arithmetic (`Spec/Solution.lean`) | a completed evaluation of the sensitivity right-hand side is one nested region of library calls (`Proof/OdeReplay.lean`), so the theorem about regions (C04) applies with the client that knows only the variables used; two runs side by side (C41); induction on the solver's questions and on the output times (`Proof/OdeReach.lean`) | proved |
| C69 | as C68, built without checks of array shapes (`Model/LenientOde.lean`); the book's answers to the solver's questions (`Spec/OdeBook.lean`): `solveBook` runs the solver on the textbook's rows, in any arithmetic | the rows that `set_sens_rhs` adds up are the rows of the book (`Proof/OdeBook.lean`, from C42's `Booked`), whatever was in the array before; the mirror (C61) carries a run through a region, and induction on the questions and on the output times carries it through a solution (`Proof/OdeBookRun.lean`); with checks of array shapes: the slots the inputs take in one evaluation are clean for the next (`Proof/OdeLive.lean`) | proved; right-hand sides without matrix products; with checks completion for one output time, and how the program goes on (C69_later_*, `Spec/Onward.lean`) |
| C70 | functions that solve differential equations, decide on values and make inner calls (`Plan`, `Spec/Plan.lean`), under `gradient` and `jacobian` without checks of array shapes; a component of a solution is one step of the book | induction over the function with the mirror of C61: solutions as in C69, inner calls as in C62, each leaving records of the book behind (`Proof/PlanRun.lean`); `jacobian` clears the adjoints before every row, `gradient` does not, so for `gradient` no right-hand side may use variables of the function; a witness by computation otherwise; with checks: the same run, where it does not fail (`C70_agree`), and for functions that solve one equation for one output time, or make one inner call for a function of the same kind, it does not (`C70_later_*`, `Spec/PlanOnce.lean`, the propagation rules on the tape and in the slots behind it followed through the solution) | partial: false for `gradient` with such right-hand sides (`C70_refuted`); without matrix products |
| C71 | the calls of C67, any two or three of them in any programs (`GradientOf`, `JacobianOf`, `Spec/Calculus.lean`) | from C67: lists of partial derivatives are unique (`IsGradAt.unique`), chain rule of analysis for lists (`grad_compose`) | proved |
| C72 | `newVar0`, `newVar1d`, `newVar2d`, `newVars`, the assignments; equality of programs in front of every continuation, errors included | word-level shape of creation (`newVars_shape`: storage grows the same way whatever it holds), writes to the same and to different places | proved |
| C73 | `rate` before and after `assign` | sweep over the records after `x` changes nothing (zero adjoints), over those before reads no changed value | partial; `C73_refuted`: `f = x * y; y = 5` changes the derivative of `f` |
| C74 | `NanRules` (IEEE 754 rules for NaN, assumed of the arithmetic), `Make.reads`, `Code.spoils` (what is computed from what) on top of `Code.plain` | case analysis over the calls, induction over programs, then C48 | proved; the rules are met by the reals with overflow (`nanRules_over`) |
| C75 | `Stands` (where each variable stands), `Code.rename` (the program for the new places), books of both programs | relation between the two books (`Ins`: inputs may be missing on either side), induction over the program forwards and over the steps backwards, then C49 | proved for all programs without neutral data operands |
| C76 | `Literal` (the same program with reals for constant variables), `Mixed` (one call), `Placed`; books of both programs | relation between the two books (`Ins`: steps of constants are missing in one, the others pass on the same to the operands they share), induction over the program forwards and over the steps backwards, then C49 | proved for all programs without neutral data operands and special exponents |
| C77 | `Stmt`, `Proc` (assignments, copies, local variables, loops, decisions; `Spec/Imperative.lean`): meaning for reals and for variables | translation into a function that only makes new variables (each array element stands for one of them), induction over statements, then C67 | partial; `C77_refuted`: a real assigned to a copy changes the original |
| C78 | right-hand sides of ODEs as `Proc` (`Spec/Rhs.lean`): `rhsY`, `rhsP` for variables, `rhsFn` for reals | the run of the code is that of a straight-line program (C77), decisions do not change nearby, then C26, C27, C60; zeros assigned to the result at the beginning change no word of the tape (`Proof/RhsZero.lean`) | partial; `C78_refuted` (reals assigned to variables), `C27_parameters_refuted` (three parameters) |

## 4. What is modelled, what is not

Modelled: `env.F90` (default sizes), `tape.F90`, `vari.F90`, `var.F90`, `value_of.F90`, `nested.F90`, `grad.F90`,
`arith.F90`, `relational.F90`, `array_in_tape.F90`, `chain_eager_adj.F90`, all function and operator files (`abs` ...
`tanh`, `add`, `sub`, `mul`, `div`, `pow`, `hypot`, `sum`, `norm2`, `log_sum_exp`, `dot_product`, `matmul`),
`digamma.F90`, `prob/*.F90`, `cvodes_model.F90` (`new_cvs_rhs*`, `calc_jac_yvar`, `set_sens_rhs`), the assembly of
solution and sensitivities in `cvodes.F90`.

Simplifications, each also said at the definition:

* Reals: section 2. The intrinsics `sum`, `dot_product`, `norm2` and `matmul` are uninterpreted functions like `sin` (the
  compiler chooses the order of the additions); an entry of `matmul` depends on its row and its column only. `maxval` is a
  left-to-right fold. In C54 `norm2` of n numbers has at most n + 2 roundings.
* `int32`: only non-negative numbers are stored by the library; words hold naturals; allocation past the largest
  `int32` is the outcome `overflow`. Failing `allocate` for lack of memory is not modelled.
* Pointers to chain procedures are tags. Chain procedures supplied by the user are expressions over the intrinsics, linear
  in the adjoint, with constant subscripts or one expression for all operands (`Model/User.lean`); other effects of such
  procedures are not modelled.
* Evaluation order: Fortran leaves the order of evaluation of operands open; the functions here have operands
  without side effects on each other.
* User functions passed to `gradient`, `jacobian` and the ODE routines are programs over the library's operations
  (`Spec/Prog.lean`), which may branch on comparisons; in C67 of `Spec/Algo.lean` and in C41, C42 and C44 of `Spec/Code.lean`, which may do
  anything that depends on values; in `C26_fills` and `C27_error_stops` arbitrary.
* The ODE solver (SUNDIALS CVODES) is a parameter: any deterministic program that asks for right-hand sides and
  sensitivity right-hand sides and returns a flag, a solution and sensitivities. C bindings and `N_Vector` data are
  not modelled; creation, use and release of the solver's objects are a separate model of events (`Model/Service.lean`). `cvodes_options.F90` only configures the solver.

Check of the model against the code: the code cannot be run here, but the unit tests of the repository say what its
authors saw it do. `Verif/Conform` reads the model in IEEE doubles (`Float`) with words of 32 bits and runs 44 of the 46
test programs statement by statement, with the checks of `test.F90` at their tolerances; the build fails if a check fails.
All of them pass (for the ODE tests a collocation method stands in for CVODES, and in cvodes_y0_test.F90 derivatives
are compared at the single-precision tolerance). cvodes_param_test.F90 passes only in the model without checks of array shapes
(`Model/LenientOde.lean`); with them it ends with an error at the second evaluation of the sensitivity right-hand side,
as `C27_times_refuted` says. These are tests run by Lean's interpreter, not proofs.

Not modelled: the build with `FZ_STACK_LEN`/`FZ_USE_STACK` (it does not compile at this commit: `env.F90` uses
`init_vari_stack_size`, which that branch does not define) and other values of `FZ_INIT_STACK_LEN`; the output of failing checks in `test.F90`; `fazang.F90` (re-exports only); meson files.

## 5. Defects found in the code

Each is a theorem unless marked (reading only).

1. `x + 0.0`, `0.0 + x`, `x - 0.0`, `x * 1.0`, `1.0 * x`, `x / 1.0` return `x` itself and overwrite its chain pointer:
   the propagation through `x` is lost or the next sweep is erroneous (C15).
2. `hypot(x, 0.0)`, `hypot(0.0, x)`: same overwriting; `hypot(0.0, x) = x` also for `x < 0` (C17).
3. `inv_square(x)` and `x ** (-2.0)` have the value `1/x*x` (C16).
4. `real < var` etc. evaluate `var < real` (C14).
5. `record_len` reads the wrong word for records with operands (C35); `adj_curr` returns the value (C37).
6. `begin_nested` at level 10 writes out of bounds (C12).
7. `end_nested` leaves chain pointers in the table, new variables inherit them (C33, C28).
8. `end_nested` writes one word past the storage if the tape is exactly full or was never allocated (C36).
9. `gradient` and `jacobian` sweep the whole tape, not the region: adjoints of the caller's variables change (C09).
10. `set_sens_rhs` declares `pvar(3)`: any other number of parameters is erroneous (C26, C27).
11. (`C27_times_refuted`) With several output times `cvodes_sol` runs into 7: the fresh variables of the second sensitivity evaluation land
    on slots with chain pointers left by the first.
12. `data_1d_array_in_tape`: `push(size(a))` resolves to `push_n`, not to pushing one integer, so the size of the
    array is lost; `col(1)` of a rank-one array of variables is off by one (C46).
13. `cvodes_sol` with a real initial state overwrites it with the solution at the last output time (C50).
14. `x ** y` with two variables, `x = 0`, `y = 1` has derivative 0 with respect to `x` (C39). (reading only) `-x` is not
    elemental; `log_sum_exp` of all `-Infinity` is NaN (proved: C53).

15. `cvodes_service` has a finalizer and is returned by value: under the standard's rules `serv = new_cvodes_service(...)`
    finalizes the undefined left-hand side, and the function result, whose pointers `serv` goes on using; with an empty
    list of parameters (or an empty state of variables) `FCVodeGetSens` gets an undefined pointer (C51).
16. (reading only) `cvodes_sol_par_sens` associates `ode%pval` with a local array that has no `target` attribute; the
    flags that most calls of the solver return are ignored.
17. Every check of `test.F90` passes for NaN, because it tests `|a - b| >= tol`; the size of the second array is not
    looked at (C56).
18. The chain procedures of unused results run, with adjoint zero; `0/0` and `0*Infinity` then put NaN into the
    derivatives of their operands.  An unused `sqrt(x)` at 0 is enough (C57).
19. The ODE example (example/ode/param.F90) computes `p(1)*p(2)*p(3)*t`: when the solver asks for sensitivities at exactly
    `t = 1.0`, defect 1 overwrites the chain pointer of the product (C58); with its three output times it meets 11.
20. `gradient` inside a function that is being differentiated with `gradient` (grad.F90:30-44): the inner sweep adds to
    the adjoints of outer variables the inner function uses, and the outer `gradient` does not reset adjoints before its
    sweep, so they end up in the outer derivative (C62: 4 instead of 3). `jacobian` resets them in its loop.
    C62 takes Fortran 2018 for granted, where procedures may be called recursively unless they say otherwise; before,
    `gradient` and `jacobian`, which are not declared `recursive`, may not be called inside each other with themselves
    active, and a compiler that checks for recursion stops the program.
21. `cvodes_sol` inside a function that is being differentiated with `gradient` (cvodes_model.F90:195-213, grad.F90:30-44):
    when the right-hand side uses a variable of that function, the sweeps of `set_sens_rhs` leave an adjoint in it, which
    `set_zero_nested_adj` does not reach, and `gradient` adds to it (C70: 2 instead of 1). `jacobian` is right.
22. An assignment `y = 5` after `f = x * y` changes the derivatives of `f` but not its value (var.F90:105-109,
    mul.F90:20-27): chain procedures read operand values when the sweep runs, so the derivative belongs to neither point
    (C73).
23. `t = x; t = 0.0` sets `x` to 0 too (var.F90:37-43, 105-109): the intrinsic assignment of variables copies the handle,
    the defined assignment of a real changes the variable behind it (C77).

A note on 1, 7, 11 and 19: a chain procedure that runs on a record without operands assigns arrays of different sizes.
The Fortran standard forbids this, and the model reports an error. A compiler that does not check shapes reads beyond
the record and, as `n_operand` is 0, writes nothing. C59 proves that for 7: with such a compiler, and with matrix products
kept out of nested regions, gradients and Jacobians after closed regions are right. C60 proves it for 11: `cvodes_sol`
completes for any number of output times, with the right sensitivities. Matrix products really have to stay out of nested
regions: their chain procedures write to addresses they read, and `C59_products_refuted` gives a sweep that completes and
reports a derivative of 3 of an independent variable by another one.

## 6. Wrong programs

`seeded/LOG.jsonl` records, for edits of the model that a realistic bug would make, which theorems stop proving and
which were tightened. The edits are made in a scratch copy; proofs that fail are replaced there by `sorry` until the
copy builds, and a theorem counts as failed if it then depends on `sorryAx` or no longer elaborates.
This measures proofs, not truth: a theorem also counts as failed if only a lemma it shares with the broken claim fails,
so long lists there do not mean that all of these claims are false of the edited program. What the log does show is
which edits no theorem objects to; those are the entries with `theorems_tightened`. Entries with `rebuilt` were checked
against the named modules only. For entries with `method: fast` the build was stopped at the first modules that failed:
`theorems_failed` and `lemmas_failed` are the declarations that failed by then, `theorems_resting_on_them` (the first
twelve of `number_resting`) the property theorems whose proofs use them.

## 7. Trusted base

Lean 4.33.0 kernel; axioms `propext`, `Classical.choice`, `Quot.sound` only; the reading of the Fortran text by
the author of the model. No axioms added, no `sorry`, no `native_decide`, no `bv_decide`.

Axioms of each property theorem (`p` = propext, `c` = Classical.choice, `q` = Quot.sound):

* pcq: `C01_binary`, `C01_chain_rule`, `C01_completes`, `C01_exact_partials`, `C01_real_var`, `C01_unary`, `C01_var_real`, `C02_dot_real`, `C02_matmul_real`, `C02_norm2`, `C02_real_dot`, `C02_real_matmul`, `C03_everywhere`, `C03_everywhere_covers`, `C03_values`, `C04_all_results`, `C04_array`, `C04_array_default`, `C04_matrix`, `C04_new`, `C05_clears`, `C05_then_gradient`, `C06_undisturbed`, `C07_entry_value`, `C07_entry_zero`, `C07_set_adjoint`, `C07_set_value`, `C08_C10_session`, `C08_gradient`, `C09_effect_partial`, `C09_gradient_any_partial`, `C09_jacobian_any_partial`, `C09_jacobian_values_partial`, `C09_jacobian_zero_adjoints_partial`, `C09_refuted`, `C09_values_partial`, `C09_zero_adjoints_partial`, `C10_jacobian`, `C11_adjoints`, `C11_noop`, `C11_restores`, `C11_untouched`, `C11_values`, `C12_eleventh`, `C12_level`, `C12_ten`, `C13_assign`, `C13_assign_all`, `C13_assign_array`, `C13_assign_matrix`, `C13_assign_matrix_all`, `C14_iff`, `C14_real_var_partial`, `C14_refuted`, `C15_exp`, `C15_leaf_partial`, `C15_product_refuted`, `C15_refuted`, `C15_same_partial`, `C15_value`, `C16_derivative_partial`, `C16_iff`, `C16_refuted`, `C17_exp`, `C17_leaf_partial`, `C17_negative`, `C17_refuted`, `C17_sign`, `C18_dot`, `C18_matmul`, `C18_product`, `C18_sum`, `C19_independent_input`, `C19_same_derivatives`, `C19_unrelated`, `C20_linear`, `C21_region`, `C21_same_adjoints`, `C22_data`, `C22_integers`, `C22_operands`, `C22_operands_and_data`, `C23_partials`, `C24_C25_differentiable`, `C24_normal`, `C25_lognormal`, `C26_fills`, `C26_initial`, `C26_jacobian`, `C26_parameters_partial`, `C26_parameters_refuted`, `C26_transparent`, `C27_completes`, `C27_completes_parameters`, `C27_data`, `C27_data_completes`, `C27_initial`, `C27_later`, `C27_later_parameters`, `C27_parameters_partial`, `C27_parameters_refuted`, `C27_times_refuted`, `C27_unique`, `C28_nonzero`, `C28_refuted`, `C28_zero_partial`, `C29_acosh`, `C29_atanh`, `C29_real`, `C30_exponents`, `C30_exponents_sweep`, `C30_log_sum_exp`, `C30_weights`, `C31_inverse`, `C31_inverse_tail`, `C31_logistic`, `C31_range`, `C31_variable`, `C32_large`, `C32_log_gamma`, `C32_pole`, `C32_reflection`, `C32_reflection_small`, `C32_tiny`, `C33_fresh_partial`, `C33_refuted`, `C34_capacity`, `C34_never_shrinks`, `C34_only_failure`, `C34_smallest`, `C35_iff`, `C35_no_operands_partial`, `C35_refuted`, `C36_end_nested_partial`, `C36_full_refuted`, `C36_refuted`, `C37_between_partial`, `C37_refuted`, `C37_stored_partial`, `C38_binary`, `C38_real_var`, `C38_sizes`, `C38_unary`, `C38_var_real`, `C39_base_zero_partial`, `C39_base_zero_refuted`, `C39_real_var`, `C39_var_real_partial`, `C39_var_var`, `C41_again`, `C41_derive`, `C41_gradient`, `C41_jacobian`, `C41_jacobian_again`, `C41_region`, `C42_gradient_reach`, `C42_jacobian_reach`, `C43_only_adjoints`, `C44_rows`, `C45_nested`, `C45_reset`, `C46_reals_partial`, `C46_variables_partial`, `C46_vector_of_reals_refuted`, `C46_vector_of_variables_refuted`, `C47_derivative`, `C47_guide_div`, `C47_guide_div_real`, `C47_guide_log`, `C48_call`, `C48_gradient`, `C48_jacobian`, `C48_program`, `C49_gradient`, `C49_jacobian`, `C50_data_partial`, `C50_data_refuted`, `C50_initial`, `C50_parameters_partial`, `C50_parameters_refuted`, `C51_proper_partial`, `C51_released_partial`, `C52_ask`, `C52_asks`, `C52_call`, `C52_make`, `C53_inv_logit`, `C53_inv_logit_infinite`, `C53_log_sum_exp_partial`, `C53_log_sum_exp_wide_partial`, `C53_minus_infinity_refuted`, `C53_plus_infinity_partial`, `C54_dot`, `C54_gradient`, `C54_jacobian`, `C54_lognormal`, `C54_normal`, `C55_matmul`, `C55_matmul_real_left`, `C55_matmul_real_right`, `C55_operand_values`, `C55_operands`, `C55_record`, `C55_tape`, `C56_absolute`, `C56_arrays_partial`, `C56_equal`, `C56_matrices_partial`, `C56_nan_refuted`, `C56_near`, `C56_sizes_refuted`, `C57_finite`, `C57_gradient_partial`, `C57_jacobian_partial`, `C57_real`, `C57_refuted`, `C58_data`, `C58_grad`, `C58_gradient`, `C58_param_completes`, `C58_param_later_partial`, `C58_param_partial`, `C58_param_refuted`, `C58_param_unchecked`, `C59_agree_products`, `C59_ask`, `C59_asks`, `C59_call`, `C59_make`, `C59_products_refuted`, `C60_initial`, `C60_parameters`, `C60_rates`, `C60_stops_initial`, `C60_stops_parameters`, `C61_binary`, `C61_chain_rule`, `C61_gradient`, `C61_new`, `C61_real_var`, `C61_unary`, `C61_var_real`, `C62_completes_gradient_partial`, `C62_completes_jacobian`, `C62_completes_jacobian_real`, `C62_gradient_partial`, `C62_gradient_plain_partial`, `C62_jacobian`, `C62_jacobian_real`, `C62_refuted`, `C62_then_call`, `C63_gradient`, `C63_jacobian`, `C63_solve_initial`, `C63_solve_parameters`, `C64_digamma`, `C64_huge`, `C64_left`, `C64_log_gamma`, `C64_right`, `C64_small`, `C65_asks`, `C65_asks_unchecked`, `C65_peak`, `C66_initial`, `C66_parameters`, `C66_program_initial`, `C66_program_parameters`, `C66_right_initial`, `C66_right_parameters`, `C66_smooth`, `C66_smooth_family`, `C66_smooth_from`, `C66_smooth_with`, `C66_solutions_from`, `C66_solutions_with`, `C66_unique`, `C67_comparisons`, `C67_completes`, `C67_detached`, `C67_gradient`, `C67_gradient_completes`, `C67_gradient_path`, `C67_gradient_unchecked`, `C67_jacobian`, `C67_jacobian_path`, `C67_jacobian_unchecked`, `C67_stable`, `C67_unchecked`, `C68_keeps_initial`, `C68_keeps_parameters`, `C68_reach_initial`, `C68_reach_parameters`, `C68_same_initial`, `C68_same_parameters`, `C69_checked_initial`, `C69_checked_parameters`, `C69_goes_on`, `C69_initial`, `C69_later_initial`, `C69_later_parameters`, `C69_parameters`, `C70_checked_gradient_partial`, `C70_checked_jacobian`, `C70_goes_on`, `C70_gradient_partial`, `C70_jacobian`, `C70_later_gradient_partial`, `C70_later_jacobian_partial`, `C70_refuted`, `C71_compose`, `C71_compose_jacobian`, `C71_linear`, `C71_rewrite`, `C71_rewrite_jacobian`, `C72_all`, `C72_array`, `C72_last`, `C72_matrix`, `C72_scalar`, `C72_self`, `C72_swap`, `C73_assign_partial`, `C73_refuted`, `C74_call`, `C74_gradient`, `C74_inv_square`, `C74_jacobian`, `C74_program`, `C75_fewer`, `C75_fewer_rows`, `C75_gradient`, `C75_jacobian`, `C76_gradient`, `C76_jacobian`, `C77_completes_partial`, `C77_gradient_partial`, `C77_jacobian_partial`, `C77_refuted`, `C78_completes_parameters_partial`, `C78_completes_partial`, `C78_initial_partial`, `C78_jacobian_partial`, `C78_later_parameters_partial`, `C78_later_partial`, `C78_parameters_partial`, `C78_refuted`, `C78_sens_initial_partial`, `C78_sens_parameters_partial`, `C78_unchecked_initial_partial`, `C78_unchecked_parameters_partial`, `C78_unique`
* pq: `C27_error_stops`, `C40_reading`, `C47_bounds_each`, `C47_bounds_fixed`, `C51_returns`, `C52_reach`, `C59_agree`, `C59_agree_ask`, `C60_agree`, `C62_agree`, `C62_code`, `C62_code_write`, `C70_agree`, `C70_code`, `C74_infinity`
* p: `C14_var_real`, `C14_var_var`, `C51_empty_refuted`, `C51_result_refuted`, `C51_standard_refuted`, `C56_exact`
