import Verif.Spec.Code
import Verif.Spec.Region
import Verif.Spec.View
import Verif.Model.Cvodes

/-!
# Solutions of differential equations in a program that goes on

Right-hand sides written as a `Code`, in any arithmetic; what a call leaves of the variables there were; what the
variables it returns are.
-/

namespace Spec
open Fz

variable {W R : Type} [Arith R] [Rep W R]

/-- The user's right-hand side on variables: at time `t` the function `F t` is run on the state, the array `f` as it is
on entry, and the variables `env` of the caller. -/
def Code.odeY (F : R → Code R) (env : List Var) : R → List Var → List Var → M W (List Var) :=
  fun t y f => (F t).run (y ++ f ++ env)

/-- the same with parameters -/
def Code.odeP (F : R → Code R) (env : List Var) : R → List Var → List Var → List Var → M W (List Var) :=
  fun t y f q => (F t).run (y ++ f ++ q ++ env)

/-- every variable of the state `s` is there in `s'`, with its value, its operands and its data, and, if it is not one
of `e`, with its adjoint -/
def Keeps (R : Type) [Arith R] [Rep W R] (e : List Var) (s s' : St W) : Prop :=
  ∀ v ∈ existing s, v ∈ existing s' ∧ ∃ w w' : View R, seen s v = .ok w ∧ seen s' v = .ok w' ∧
    w'.val = w.val ∧ w'.ops = w.ops ∧ w'.data = w.data ∧ (v ∉ e → w'.adj = w.adj)

/-- the variable has the value `x`, adjoint zero, the operands `ops`, and the numbers `ds` as its data -/
def IsRecord (s : St W) (ops : List Var) (v : Var) (x : R) (ds : List R) : Prop :=
  seen s v = .ok ⟨x, Arith.zero, ops.map fun u => (s.varis u.vi).i, ds⟩

/-- The variables `yt`, one list of `n` for every output time, carry the solutions and sensitivities `sol`: variable `i`
of a time has component `i` of the solution as its value, and for every operand component `i` of the sensitivity with
respect to that operand as its partial derivative. -/
def Carries (s : St W) (ops : List Var) (n : Nat) (yt : List (List Var)) (sol : List (List R × List (List R))) : Prop :=
  yt.length = sol.length ∧ ∀ k (h1 : k < yt.length) (h2 : k < sol.length), yt[k].length = n ∧
    ∀ i (hi : i < yt[k].length), yt[k][i] ∈ existing s ∧ i < sol[k].1.length ∧
      IsRecord s ops yt[k][i] (sol[k].1.getD i Arith.zero)
        ((List.range ops.length).map fun j => (sol[k].2.getD j []).getD i Arith.zero)

end Spec
