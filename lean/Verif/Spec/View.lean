import Verif.Model.Grad

/-!
# What the API lets one read about a variable
-/

namespace Spec
open Fz

variable {W R : Type} [Arith R] [Rep W R]

/-- value, adjoint, operands (their tape positions) and data items of a variable -/
structure View (R : Type) where
  val : R
  adj : R
  ops : List Nat
  data : List R

/-- the queries `val`, `adj`, `operand_index`, `data_operand` of `var` and `vari` -/
def query (v : Var) : M W (View R) := do
  let x ← v.val
  let a ← v.adj
  let e ← getVari v.vi
  let ops ← e.operandIndex
  let data ← e.dataOperand
  pure ⟨x, a, ops, data⟩

/-- what is read about `v` in the state `s` -/
def seen (s : St W) (v : Var) : Except Err (View R) :=
  match (query v : M W (View R)) s with
  | .ok (w, _) => .ok w
  | .error e => .error e

end Spec
