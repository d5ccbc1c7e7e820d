import Verif.Spec.Region
import Verif.Spec.View

/-!
# The derivative of one variable with respect to another, as the library computes it
-/

namespace Spec
open Fz

variable {W R : Type} [Arith R] [Rep W R]

/-- reset all adjoints, sweep from `v`, read the adjoint of `u` -/
def partialOf (v u : Var) : M W R := do
  setZeroAllAdj (R := R)
  v.grad
  u.adj

/-- the number this gives in the state `s` -/
def rate (s : St W) (v u : Var) : Except Err R :=
  match (partialOf v u : M W R) s with
  | .ok (a, _) => .ok a
  | .error e => .error e

/-- the point `y + t b` -/
noncomputable def along (y b : List ℝ) (t : ℝ) : List ℝ := List.zipWith (fun y b => y + t * b) y b

/-- in the state `s` the library computes the derivatives `b v` of all variables `v` with respect to `u` -/
def Rates (s : St W) (u : Var) (b : Var → R) : Prop := ∀ v ∈ existing s, rate s v u = .ok (b v)

/-- a call has led from the state `s` to `s'` and returned the variable `r`: it has value `x` and derivative
`a` with respect to `u`; whatever can be read about the variables that existed before, and their derivatives,
are as before -/
structure Gives (s s' : St W) (r : Var) (x : R) (u : Var) (a : R) : Prop where
  here : r ∈ existing s'
  value : (r.val : M W R) s' = .ok (x, s')
  deriv : rate s' r u = .ok a
  old : ∀ v ∈ existing s, v ∈ existing s' ∧ seen (R := R) s' v = seen s v ∧ rate (R := R) s' v u = rate s v u

end Spec
