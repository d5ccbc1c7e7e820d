import Verif.Spec.Algo
import Verif.Spec.Unused

/-!
# Code with variables that change

A subroutine has an array of numbers `v`: at first its arguments, later also its local variables.  Its statements change
elements of `v`.  This file says what such code means with numbers of type `real`, and what it does with numbers of type
`var`.
-/

namespace Spec
open Fz

/-- statements; `Instr` are the operations of the library, which here have elements of `v` as operands -/
inductive Stmt where
  | nop
  /-- `v(j) = v(i)` -/
  | copy (j i : Nat)
  /-- `v(j) = d` -/
  | real (j : Nat) (d : ℝ)
  /-- `v(js) = m`: the results of an operation -/
  | call (js : List Nat) (m : Instr)
  /-- new local variables, with the results of an operation as first values -/
  | declare (m : Instr)
  | seq (a b : Stmt)
  /-- go on as the value of `v(i)` tells -/
  | look (i : Nat) (k : ℝ → Stmt)

/-- `do k = 0, n - 1` -/
def Stmt.loop : Nat → (Nat → Stmt) → Stmt
  | 0, _ => .nop
  | n + 1, b => .seq (loop n b) (b n)

/-- change some elements -/
def writeAt {α : Type} : List α → List Nat → List α → List α
  | v, j :: js, x :: xs => writeAt (v.set j x) js xs
  | v, _, _ => v

/-- change one element to another one -/
def move {α : Type} (v : List α) (j i : Nat) : List α :=
  match v[i]? with
  | some x => v.set j x
  | none => v

/-- the elements after the statement, for reals -/
noncomputable def Stmt.sem : Stmt → List ℝ → List ℝ
  | .nop, v => v
  | .copy j i, v => move v j i
  | .real j d, v => v.set j d
  | .call js m, v => writeAt v js (m.sem v)
  | .declare m, v => v ++ m.sem v
  | .seq a b, v => b.sem (a.sem v)
  | .look i k, v => (k (Spec.look v i)).sem v

/-- the elements that are used exist, and each operation is one in the domain of differentiability of its function
(`Instr.Ok`) -/
def Stmt.Ok : Stmt → List ℝ → Prop
  | .nop, _ => True
  | .copy j i, v => i < v.length ∧ j < v.length
  | .real j _, v => j < v.length
  | .call js m, v => m.Ok v ∧ (∀ j ∈ js, j < v.length) ∧ js.length = m.arity
  | .declare m, v => m.Ok v
  | .seq a b, v => a.Ok v ∧ b.Ok (a.sem v)
  | .look i k, v => i < v.length ∧ (k (Spec.look v i)).Ok v

/-- at each inspection, values close to the one found would have led to the same continuation -/
def Stmt.Stable : Stmt → List ℝ → Prop
  | .seq a b, v => a.Stable v ∧ b.Stable (a.sem v)
  | .look i k, v => (∀ᶠ x in nhds (Spec.look v i), k x = k (Spec.look v i)) ∧ (k (Spec.look v i)).Stable v
  | _, _ => True

/-- words of tape used -/
noncomputable def Stmt.cost : Stmt → List ℝ → Nat
  | .nop, _ | .copy _ _, _ | .real _ _, _ => 0
  | .call _ m, v => m.cost v
  | .declare m, v => m.cost v
  | .seq a b, v => a.cost v + b.cost (a.sem v)
  | .look i k, v => (k (Spec.look v i)).cost v

/-- no real is assigned to a variable (but variables may be made from reals, `v(j) = var(d)`) -/
def Stmt.NoReal : Stmt → Prop
  | .real _ _ => False
  | .seq a b => a.NoReal ∧ b.NoReal
  | .look _ k => ∀ x, (k x).NoReal
  | _ => True

/-- a function: its statements, and the elements of `v` that are its results -/
structure Proc where
  body : Stmt
  outs : List Nat

/-- the results for reals -/
noncomputable def Proc.sem (p : Proc) (v : List ℝ) : List ℝ := p.outs.map (look (p.body.sem v))

/-- see `Stmt.Ok` -/
def Proc.Ok (p : Proc) (v : List ℝ) : Prop := p.body.Ok v ∧ ∀ i ∈ p.outs, i < (p.body.sem v).length

variable {W : Type} [Rep W ℝ]

/-- the elements after the statement, for variables -/
noncomputable def Stmt.run : Stmt → List Var → M W (List Var)
  | .nop, v => pure v
  | .copy j i, v => pure (move v j i)
  | .real j d, v => do
    (lookV v j).assign d
    pure v
  | .call js m, v => do
    let xs ← m.run v
    pure (writeAt v js xs)
  | .declare m, v => do
    let xs ← m.run v
    pure (v ++ xs)
  | .seq a b, v => do
    let v ← a.run v
    b.run v
  | .look i k, v => do
    let x ← (lookV v i).val
    (k x).run v

/-- the results for variables -/
noncomputable def Proc.run (p : Proc) (v : List Var) : M W (List Var) := do
  let v ← p.body.run v
  pure (p.outs.map (lookV v))

/-- the function as `gradient` wants it; `env` are variables of the caller -/
noncomputable def Proc.scalarFn (p : Proc) (env : List Var) : List Var → M W Var := fun xv => do
  let outs ← p.run (xv ++ env)
  pure (lookV outs 0)

/-- the function as `jacobian` wants it -/
noncomputable def Proc.vectorFn (p : Proc) (env : List Var) : List Var → Nat → M W (List Var) :=
  fun xv _ => p.run (xv ++ env)

end Spec
