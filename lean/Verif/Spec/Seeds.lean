import Verif.Spec.Drive

/-!
# Working on the adjoints between sweeps

What a user may do with the adjoints of a set of variables before asking for derivatives: set one, sweep
from one, clear them all; any number of times, in any order.
-/

namespace Spec
open Fz

/-- one action on the adjoints; variables are named by their place in a list -/
inductive Seed where
  /-- set the adjoint of variable `j` -/
  | set (j : Nat) (w : ℝ)
  /-- `call v%grad()` -/
  | sweep (j : Nat)
  /-- `call set_zero_all_adj()` -/
  | clear

variable {W : Type} [Rep W ℝ]

/-- the action on the variables `vs`; actions on variables that are not there do nothing -/
noncomputable def Seed.act (vs : List Var) : Seed → M W Unit
  | .set j w => if h : j < vs.length then setIndexedAdj vs[j].vi w else pure ()
  | .sweep j => if h : j < vs.length then vs[j].grad else pure ()
  | .clear => setZeroAllAdj

/-- one action after the other -/
noncomputable def Seed.acts (vs : List Var) : List Seed → M W Unit
  | [] => pure ()
  | a :: l => do
    a.act vs
    Seed.acts vs l

/-- the weighted sum of the outputs of `p`: weight 1 for output `k`, `ws[j]` for the others -/
noncomputable def Prog.weighted (p : Prog) (ys : List ℝ) (k : Nat) (ws : List ℝ) (z : List ℝ) : ℝ :=
  ((List.range ws.length).map fun j => (if j = k then 1 else ws.getD j 0) * (p.sem (z ++ ys)).getD j 0).sum

end Spec
