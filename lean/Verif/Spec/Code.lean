import Verif.Spec.History

/-!
# User functions in any arithmetic

A user's function creates variables with any of the library's functions, looks at values of variables, decides by them
what to do next (or uses them as data), and at last returns some of its variables.  Variables are named by their place
in the list of the variables it has: its arguments, other variables it was given, and those it has created.
-/

namespace Spec
open Fz

/-- a user's function, for an interpretation `R` of `real64` -/
inductive Code (R : Type) where
  /-- return these variables -/
  | ret (is : List Nat)
  /-- create variables and go on -/
  | make (m : Make R) (k : Code R)
  /-- read a value and go on as it tells -/
  | look (i : Nat) (k : R → Code R)

variable {W R : Type} [Arith R] [Rep W R]

/-- restrictions on the calls: `Make.Sane` -/
def Code.Sane : Code R → Prop
  | .ret _ => True
  | .make m k => m.Sane ∧ k.Sane
  | .look _ k => ∀ x, (k x).Sane

/-- execution; naming a variable that does not exist is an error -/
def Code.run : Code R → List Var → M W (List Var)
  | .ret is, env => if ∀ i ∈ is, i < env.length then pure (is.map (nth env)) else fail .oob
  | .make m k, env => if ∀ i ∈ m.args, i < env.length then do
      let vs ← m.call env
      k.run (env ++ vs)
    else fail .oob
  | .look i k, env => if i < env.length then do
      let x ← (nth env i).val
      (k x).run env
    else fail .oob

/-- the function as `gradient` wants it; `env` are variables of the caller it uses -/
def Code.scalar (f : Code R) (env : List Var) : List Var → M W Var := fun xv => do
  let outs ← f.run (xv ++ env)
  match outs with
  | v :: _ => pure v
  | [] => fail .oob

/-- the function as `jacobian` wants it -/
def Code.vector (f : Code R) (env : List Var) : List Var → Nat → M W (List Var) := fun xv _ => f.run (xv ++ env)

/-- component `i` of the function, as `gradient` wants it -/
def Code.entry (f : Code R) (i : Nat) (env : List Var) : List Var → M W Var := fun xv => do
  let outs ← f.run (xv ++ env)
  match outs[i]? with
  | some v => pure v
  | none => fail .oob

/-- derivatives without a nested region: make variables, compute, sweep, read the adjoints -/
def Code.derive (f : Code R) (env : List Var) (x : List R) : M W (R × List R) := do
  let xv ← newVars x
  let fv ← f.scalar env xv
  let y ← fv.val
  fv.grad
  let df ← adjs xv
  pure (y, df)

end Spec
