import Verif.Model.Lenient
import Verif.Model.Cvodes

/-!
# Solutions of differential equations, without checks of array shapes

The procedures of `Model/Cvodes.lean` with the sweeps of `Model/Lenient.lean`.  The assignments in `cvodes_model.F90`
and `cvodes.F90` themselves are as before, their errors are kept.
-/

namespace Fz
variable {W R : Type} [Arith R] [Rep W R]
open Arith

/-- the loop cvodes_model.F90:195-213 (compare `sensRows`) -/
def sensRowsL (J : Junk W R) (yvar pvar : List Var) (yS : List (List R)) (ns m : Nat) (par : Bool) :
    Nat → List Var → (Nat → Nat → R) → M W (Nat → Nat → R)
  | _, [], out => pure out
  | i, fv :: fvs, out => do
    fv.gradNestedL J
    let out ← sensDots yvar yS i (List.range ns) out
    let out ← (if par then sensPars pvar (ns - m) i (List.range m) out else pure out : M W _)
    setZeroNestedAdj
    sensRowsL J yvar pvar yS ns m par (i + 1) fvs out

/-- cvodes_model.F90:158-215 `set_sens_rhs` (compare `setSensRhs`) -/
def setSensRhsL (J : Junk W R) (ode : CvsRhs W R) (t : R) (y : List R) (yS : List (List R)) (out : Nat → Nat → R) :
    M W (Nat → Nat → R) := do
  let n := y.length
  let m := if ode.ys then ode.ns - n else ode.ns
  let par := !(ode.ys && ode.ns == n)
  beginNested
  let yvar ← newVars y
  let fvar ← newVars (List.replicate n zero)
  let (pvar, fvar) ← (if par then do
      let pv ← deref ode.pval
      let pvar ← newVars pv
      let pvar ← confN 3 pvar
      let f ← deref ode.fPvar
      let fvar ← f t yvar fvar pvar
      pure (pvar, fvar)
    else do
      let f ← deref ode.fYvar
      let fvar ← f t yvar fvar
      pure ([], fvar) : M W (List Var × List Var))
  let fvar ← confN n fvar
  let out ← sensRowsL J yvar pvar yS ode.ns m par 0 fvar out
  endNested
  pure out

/-- the calls of the solver answered by the library (compare `answer`) (cvodes_model.F90:98-127, 217-251) -/
def answerL {σ : Type} (J : Junk W R) (ode : CvsRhs W R) : Solving R σ → M W (Int × List R × List (List R) × σ)
  | .done e y yS m => pure (e, y, yS, m)
  | .rhs t y k => answerL J ode (k (ode.f t y))
  | .sens t y yS k => do
    let out ← setSensRhsL J ode t y yS fun _ _ => zero
    answerL J ode (k (vecs ode.ns y.length out))

/-- the loop cvodes.F90:191-208, 245-262 (compare `solLoop`) -/
def solLoopL {σ : Type} (J : Junk W R) (sv : Solver R σ) (ode : CvsRhs W R) (ops : List Var) (neq : Nat) :
    List R → σ → List R → M W (List (List Var) × List R)
  | [], _, y => pure ([], y)
  | t :: ts, mem, _ => do
    let (e, y, yS, mem) ← answerL J ode (sv.step mem t)
    if e ≠ 0 then fail .stop else do
      let vs ← solVars ops ode.ns y yS (List.range neq)
      let (rest, y) ← solLoopL J sv ode ops neq ts mem y
      pure (vs :: rest, y)

/-- cvodes.F90:159-209 `cvodes_sol_y0_sens` (compare `cvodesSolY0`) -/
def cvodesSolY0L {σ : Type} (J : Junk W R) (sv : Solver R σ) (t : R) (y : List Var) (ts : List R)
    (f : R → List R → List R) (fy : R → List Var → List Var → M W (List Var)) : M W (List (List Var)) := do
  let ode := newCvsRhsYvar true y.length f fy
  let yval ← vals y
  let (yt, _) ← solLoopL J sv ode y y.length ts (sv.init t yval (sensInit ode y.length)) yval
  pure yt

/-- cvodes.F90:211-263 `cvodes_sol_par_sens` (compare `cvodesSolPar`) -/
def cvodesSolParL {σ : Type} (J : Junk W R) (sv : Solver R σ) (t : R) (y : List R) (ts : List R) (param : List Var)
    (f : R → List R → List R) (fp : R → List Var → List Var → List Var → M W (List Var)) :
    M W (List (List Var) × List R) := do
  let pval ← vals param
  let ode := newCvsRhsPvar false param.length pval f fp
  solLoopL J sv ode param y.length ts (sv.init t y (sensInit ode y.length)) y

end Fz
