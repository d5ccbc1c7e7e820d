import Verif.Model.Grad

/-!
# `cvodes_model.F90`, `cvodes.F90`: sensitivities of ODE solutions

The solver (SUNDIALS CVODES) is not part of the library; it is a parameter of the model: any
deterministic program that asks for the right-hand side and for the sensitivity right-hand side at
points of its choice and finally returns an error flag, a solution and sensitivities.  Its options
(cvodes_options.F90, `cv_method`, tolerances) are part of that parameter.  Serial `N_Vector`s are
lists of reals; an array of them is a list of lists.
-/

namespace Fz
variable {W R : Type} [Arith R] [Rep W R]
open Arith

/-- cvodes_model.F90:9-21 `cvs_rhs`.  The user's routine on variables (23-43) gets `t`, the state, the
array `f` (intent inout) and, for `fPvar`, the parameters, and returns the array `f`.  Null pointers are
`none`.  `cvs_f` and `cvs_sens` always point to `RhsFn` and `CVSensRhsFn`. -/
structure CvsRhs (W R : Type) where
  f : R → List R → List R
  fYvar : Option (R → List Var → List Var → M W (List Var))
  fPvar : Option (R → List Var → List Var → List Var → M W (List Var))
  ys : Bool
  ns : Nat
  pval : Option (List R)

/-- cvodes_model.F90:52-57 `new_cvs_rhs`; `ys` and `ns` have their default values -/
def newCvsRhs (f : R → List R → List R) : CvsRhs W R := ⟨f, none, none, false, 0, none⟩
/-- cvodes_model.F90:59-71 `new_cvs_rhs_yvar` -/
def newCvsRhsYvar (ys : Bool) (ns : Nat) (f : R → List R → List R)
    (f2 : R → List Var → List Var → M W (List Var)) : CvsRhs W R := ⟨f, some f2, none, ys, ns, none⟩
/-- cvodes_model.F90:73-87 `new_cvs_rhs_pvar` -/
def newCvsRhsPvar (ys : Bool) (ns : Nat) (p : List R) (f : R → List R → List R)
    (f2 : R → List Var → List Var → List Var → M W (List Var)) : CvsRhs W R :=
  ⟨f, none, some f2, ys, ns, some p⟩

/-- use of a pointer, or of an array element, that may not be there (cvodes_model.F90:189-192, cvodes.F90:201-203) -/
def deref {α : Type} : Option α → M W α
  | some a => pure a
  | none => fail .oob

/-- component `i` of vector `j` of an array of vectors is assigned (cvodes_model.F90:202, 209) -/
def put (out : Nat → Nat → R) (j i : Nat) (x : R) : Nat → Nat → R :=
  fun j' i' => if j' = j ∧ i' = i then x else out j' i'

/-- the inner loop cvodes_model.F90:151-153 of `calc_jac_yvar`; `jac` is counted from 0, as are `i`, `j` -/
def jacCols (n i : Nat) (yvar : List Var) : List Nat → (Nat → R) → M W (Nat → R)
  | [], jac => pure jac
  | j :: js, jac => do
    let v ← deref yvar[j]?
    let a ← v.adj
    jacCols n i yvar js fun k => if k = i + j * n then a else jac k

/-- the loop cvodes_model.F90:148-154 -/
def jacRows (n : Nat) (yvar : List Var) : Nat → List Var → (Nat → R) → M W (Nat → R)
  | _, [], jac => pure jac
  | i, fv :: fvs, jac => do
    setZeroNestedAdj
    fv.gradNested
    let jac ← jacCols n i yvar (List.range n) jac
    jacRows n yvar (i + 1) fvs jac

/-- cvodes_model.F90:129-156 `calc_jac_yvar`: the array `jac(n * n)`, from its contents before -/
def calcJacYvar (ode : CvsRhs W R) (t : R) (y : List R) (jac : Nat → R) : M W (Nat → R) := do
  beginNested
  let yvar ← newVars y
  let fvar ← newVars (List.replicate y.length zero)
  let f ← deref ode.fYvar
  let fvar ← f t yvar fvar
  let fvar ← confN y.length fvar
  let jac ← jacRows y.length yvar 0 fvar jac
  endNested
  pure jac

/-- the loop cvodes_model.F90:197-203 of `set_sens_rhs`: component `i` of every `ySdot_j` -/
def sensDots (yvar : List Var) (yS : List (List R)) (i : Nat) :
    List Nat → (Nat → Nat → R) → M W (Nat → Nat → R)
  | [], out => pure out
  | j :: js, out => do
    let v ← deref yS[j]?
    let a ← adjs yvar
    let v ← confN a.length v
    sensDots yvar yS i js (put out j i (fdot a v))

/-- the loop cvodes_model.F90:206-210: vector `ns - m + j`, counted from 0 as `j` -/
def sensPars (pvar : List Var) (off i : Nat) : List Nat → (Nat → Nat → R) → M W (Nat → Nat → R)
  | [], out => pure out
  | j :: js, out => do
    let v ← deref pvar[j]?
    let a ← v.adj
    sensPars pvar off i js (put out (off + j) i (out (off + j) i +. a))

/-- the loop cvodes_model.F90:195-213; `m` is the number of variable parameters -/
def sensRows (yvar pvar : List Var) (yS : List (List R)) (ns m : Nat) (par : Bool) :
    Nat → List Var → (Nat → Nat → R) → M W (Nat → Nat → R)
  | _, [], out => pure out
  | i, fv :: fvs, out => do
    fv.gradNested
    let out ← sensDots yvar yS i (List.range ns) out
    let out ← (if par then sensPars pvar (ns - m) i (List.range m) out else pure out : M W _)
    setZeroNestedAdj
    sensRows yvar pvar yS ns m par (i + 1) fvs out

/-- cvodes_model.F90:158-215 `set_sens_rhs`.  `pvar` is declared with 3 elements (178).  A negative `m`
(181, when `ys` and `ns < n`) makes the loop at 206 empty, as does `m = 0`.  The array `f` is not used.
The result are the `ns` vectors `ySdot`, from their contents before. -/
def setSensRhs (ode : CvsRhs W R) (t : R) (y : List R) (yS : List (List R)) (out : Nat → Nat → R) :
    M W (Nat → Nat → R) := do
  let n := y.length
  let m := if ode.ys then ode.ns - n else ode.ns
  let par := !(ode.ys && ode.ns == n)
  beginNested
  let yvar ← newVars y
  let fvar ← newVars (List.replicate n zero)
  let (pvar, fvar) ← (if par then do
      let pv ← deref ode.pval
      let pvar ← newVars pv
      let pvar ← confN 3 pvar
      let f ← deref ode.fPvar
      let fvar ← f t yvar fvar pvar
      pure (pvar, fvar)
    else do
      let f ← deref ode.fYvar
      let fvar ← f t yvar fvar
      pure ([], fvar) : M W (List Var × List Var))
  let fvar ← confN n fvar
  let out ← sensRows yvar pvar yS ode.ns m par 0 fvar out
  endNested
  pure out

/-- what the solver does while it is called once (`FCVode`): it asks for the right-hand side
(`RhsFn`, cvodes_model.F90:98-127), for the sensitivity right-hand side (`CVSensRhsFn`, 217-251), or
returns its flag, the solution vector, the sensitivities (`FCVodeGetSens`) and its memory -/
inductive Solving (R σ : Type) where
  | done (ierr : Int) (y : List R) (yS : List (List R)) (mem : σ)
  | rhs (t : R) (y : List R) (k : List R → Solving R σ)
  | sens (t : R) (y : List R) (yS : List (List R)) (k : List (List R) → Solving R σ)

/-- the solver: `FCVodeInit`, `FCVodeSensInit` from the initial time, state and sensitivities, and
`FCVode` towards an output time (cvodes.F90:85, 108, 150, 192, 246) -/
structure Solver (R σ : Type) where
  init : R → List R → List (List R) → σ
  step : σ → R → Solving R σ

/-- the first `n` components of the first `ns` vectors (cvodes_model.F90:197-203) -/
def vecs (ns n : Nat) (out : Nat → Nat → R) : List (List R) :=
  (List.range ns).map fun j => (List.range n).map fun i => out j i

/-- the calls of the solver answered by the library; the vectors `ySdot` have `ns` elements and as many
components as `y`, their contents before the call are zeros here and do not matter (theorem `C26_fills`)
(cvodes_model.F90:98-127, 217-251) -/
def answer {σ : Type} (ode : CvsRhs W R) : Solving R σ → M W (Int × List R × List (List R) × σ)
  | .done e y yS m => pure (e, y, yS, m)
  | .rhs t y k => answer ode (k (ode.f t y))
  | .sens t y yS k => do
    let out ← setSensRhs ode t y yS fun _ _ => zero
    answer ode (k (vecs ode.ns y.length out))

/-- cvodes.F90:97-107: initial sensitivities -/
def sensInit (ode : CvsRhs W R) (neq : Nat) : List (List R) :=
  (List.range ode.ns).map fun is =>
    if ode.ys && decide (is < neq) then (List.replicate neq zero).set is one else List.replicate neq zero

/-- cvodes.F90:199-204, 253-258: `g(is + 1) = yS_is(i)`; `i` and `is` are counted from 0 -/
def gather (yS : List (List R)) (i : Nat) : List Nat → List R → M W (List R)
  | [], g => pure g
  | is :: l, g => do
    let v ← deref yS[is]?
    let x ← deref v[i]?
    if is < g.length then gather yS i l (g.set is x) else fail .oob

/-- cvodes.F90:198-207, 252-261: the solution variables at one output time -/
def solVars (ops : List Var) (ns : Nat) (y : List R) (yS : List (List R)) : List Nat → M W (List Var)
  | [] => pure []
  | i :: is => do
    let g ← gather yS i (List.range ns) (List.replicate ops.length zero)
    let x ← deref y[i]?
    let v ← varWithPartials x ops g
    let vs ← solVars ops ns y yS is
    pure (v :: vs)

/-- the loop cvodes.F90:191-208, 245-262; one column of `yt` for every output time.  The solution vector wraps the
array `y` that was given to `new_cvodes_service` (cvodes.F90:66, `FN_VMake_Serial` makes no copy), so every call of the
solver overwrites it; the second result is its final contents. -/
def solLoop {σ : Type} (sv : Solver R σ) (ode : CvsRhs W R) (ops : List Var) (neq : Nat) :
    List R → σ → List R → M W (List (List Var) × List R)
  | [], _, y => pure ([], y)
  | t :: ts, mem, _ => do
    let (e, y, yS, mem) ← answer ode (sv.step mem t)
    if e ≠ 0 then fail .stop else do
      let vs ← solVars ops ode.ns y yS (List.range neq)
      let (rest, y) ← solLoop sv ode ops neq ts mem y
      pure (vs :: rest, y)

/-- cvodes.F90:159-209 `cvodes_sol_y0_sens`; the solver works on a copy of the values (182) -/
def cvodesSolY0 {σ : Type} (sv : Solver R σ) (t : R) (y : List Var) (ts : List R)
    (f : R → List R → List R) (fy : R → List Var → List Var → M W (List Var)) : M W (List (List Var)) := do
  let ode := newCvsRhsYvar true y.length f fy
  let yval ← vals y
  let (yt, _) ← solLoop sv ode y y.length ts (sv.init t yval (sensInit ode y.length)) yval
  pure yt

/-- cvodes.F90:211-263 `cvodes_sol_par_sens`: the result and the final contents of the argument `y` -/
def cvodesSolPar {σ : Type} (sv : Solver R σ) (t : R) (y : List R) (ts : List R) (param : List Var)
    (f : R → List R → List R) (fp : R → List Var → List Var → List Var → M W (List Var)) :
    M W (List (List Var) × List R) := do
  let pval ← vals param
  let ode := newCvsRhsPvar false param.length pval f fp
  solLoop sv ode param y.length ts (sv.init t y (sensInit ode y.length)) y

/-- the loop cvodes.F90:149-156; the second result is the final contents of the argument `y`, see `solLoop` -/
def dataLoop {σ : Type} (sv : Solver R σ) (ode : CvsRhs W R) : List R → σ → List R → M W (List (List R) × List R)
  | [], _, y => pure ([], y)
  | t :: ts, mem, _ => do
    let (e, y, _, mem) ← answer ode (sv.step mem t)
    if e ≠ 0 then fail .stop else do
      let (rest, y') ← dataLoop sv ode ts mem y
      pure (y :: rest, y')

/-- cvodes.F90:130-157 `cvodes_sol_data`: the result and the final contents of the argument `y`; no sensitivities are
set up (`ns = 0`, line 97) -/
def cvodesSolData {σ : Type} (sv : Solver R σ) (t : R) (y : List R) (ts : List R)
    (f : R → List R → List R) : M W (List (List R) × List R) :=
  let ode := newCvsRhs f
  dataLoop sv ode ts (sv.init t y (sensInit ode y.length)) y

end Fz
