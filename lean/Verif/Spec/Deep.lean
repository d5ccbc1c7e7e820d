import Verif.Spec.Textbook
import Verif.Model.Grad

/-!
# Functions that call `gradient` and `jacobian` themselves

A user's function that, while it is being differentiated, differentiates other functions, to any depth, and goes on as
the answers tell.  The inner functions may use variables of the outer one.  The answers are reals.  By the book
(`Deep.write`) they are constants of the outer computation, and computing them leaves no trace in it.
-/

namespace Spec
open Fz Arith
variable {W R : Type} [Arith R] [Rep W R]

/-- a user's function -/
inductive Deep (R : Type) where
  /-- return these variables -/
  | ret (is : List Nat)
  /-- create variables and go on -/
  | make (m : Make R) (k : Deep R)
  /-- read a value and go on as it tells -/
  | look (i : Nat) (k : R → Deep R)
  /-- call `gradient` for the function `f`, which uses the variables `is`, at `x`, and go on as the answer tells -/
  | gradient (f : Deep R) (x : List R) (is : List Nat) (k : R → List R → Deep R)
  /-- call `jacobian` (with `n` components) for the function `f`, and go on as the answer tells -/
  | jacobian (f : Deep R) (n : Nat) (x : List R) (is : List Nat) (k : List R → List (List R) → Deep R)

/-- the first of these variables -/
def firstOf : List Var → M W Var
  | v :: _ => pure v
  | [] => fail .oob

/-- execution; naming a variable that does not exist is an error -/
def Deep.run : Deep R → List Var → M W (List Var)
  | .ret is, env => if ∀ i ∈ is, i < env.length then pure (is.map (nth env)) else fail .oob
  | .make m k, env => if ∀ i ∈ m.args, i < env.length then do
      let vs ← m.call env
      k.run (env ++ vs)
    else fail .oob
  | .look i k, env => if i < env.length then do
      let x ← (nth env i).val
      (k x).run env
    else fail .oob
  | .gradient f x is k, env => if ∀ i ∈ is, i < env.length then do
      let r ← Fz.gradient (fun xv => do let outs ← f.run (xv ++ is.map (nth env)); firstOf outs) x
      (k r.1 r.2).run env
    else fail .oob
  | .jacobian f n x is k, env => if ∀ i ∈ is, i < env.length then do
      let r ← Fz.jacobian (fun xv _ => f.run (xv ++ is.map (nth env))) n x
      (k r.1 r.2).run env
    else fail .oob

/-- the function as `gradient` wants it; `env` are variables of the caller it uses -/
def Deep.scalar (f : Deep R) (env : List Var) : List Var → M W Var := fun xv => do
  let outs ← f.run (xv ++ env)
  firstOf outs

/-- the function as `jacobian` wants it -/
def Deep.vector (f : Deep R) (env : List Var) : List Var → Nat → M W (List Var) := fun xv _ => f.run (xv ++ env)

/-- all calls that create variables satisfy `P`, also those of the inner functions -/
def Deep.All (P : Make R → Prop) : Deep R → Prop
  | .ret _ => True
  | .make m k => P m ∧ k.All P
  | .look _ k => ∀ x, (k x).All P
  | .gradient f _ _ k => f.All P ∧ ∀ y df, (k y df).All P
  | .jacobian f _ _ _ k => f.All P ∧ ∀ fx J, (k fx J).All P

/-- restrictions on the calls as for functions without inner calls of `gradient` and `jacobian` (property C49) -/
def Deep.Tidy (f : Deep R) : Prop := f.All fun m => m.Sane ∧ m.Plain ∧ m.Regular

/-- the functions that `f` hands to `gradient` and `jacobian` use no variables of `f`; unless `inner`, there are none -/
def Deep.Apart (inner : Prop) : Deep R → Prop
  | .ret _ => True
  | .make _ k => k.Apart inner
  | .look _ k => ∀ x, (k x).Apart inner
  | .gradient _ _ is k => inner ∧ is = [] ∧ ∀ y df, (k y df).Apart inner
  | .jacobian _ _ _ is k => inner ∧ is = [] ∧ ∀ fx J, (k fx J).Apart inner

/-- all functions that are handed to `gradient` inside `f`, at any depth, are `Apart` -/
def Deep.Careful (inner : Prop) : Deep R → Prop
  | .ret _ => True
  | .make _ k => k.Careful inner
  | .look _ k => ∀ x, (k x).Careful inner
  | .gradient f _ _ k => f.Apart inner ∧ f.Careful inner ∧ ∀ y df, (k y df).Careful inner
  | .jacobian f _ _ _ k => f.Careful inner ∧ ∀ fx J, (k fx J).Careful inner

/-! ## by the book -/

/-- inputs, then the computation `w`; `ys` are the values of variables of the caller -/
def stepsOf (w : List (Num R) → Log R (List (Num R))) (ys x : List R) : List (Num R) × List (Step R) :=
  ((Log.each input x).next fun xs => w (xs ++ ys.map fun y => ⟨none, y⟩)) []

/-- value and gradient of the computation `w` -/
def gradientOf (w : List (Num R) → Log R (List (Num R))) (ys x : List R) : Option (R × List R) :=
  match stepsOf w ys x with
  | (o :: _, T) => some (o.val, rowOf T x.length o)
  | ([], _) => none

/-- values and jacobian of the computation `w` -/
def jacobianOf (w : List (Num R) → Log R (List (Num R))) (ys x : List R) : List R × List (List R) :=
  match stepsOf w ys x with
  | (os, T) => (os.map Num.val, os.map (rowOf T x.length))

/-- the steps of the function; inner gradients and jacobians are computed on paper of their own -/
def Deep.write : Deep R → List (Num R) → Log R (List (Num R))
  | .ret is, env => .ret (is.map (opd env))
  | .make m k, env => (m.write env).next fun vs => k.write (env ++ vs)
  | .look i k, env => (k (opd env i).val).write env
  | .gradient f x is k, env =>
    match gradientOf f.write (is.map fun i => (opd env i).val) x with
    | some (y, df) => (k y df).write env
    | none => .ret []
  | .jacobian f _ x is k, env =>
    match jacobianOf f.write (is.map fun i => (opd env i).val) x with
    | (fx, J) => (k fx J).write env

/-- value and gradient by the book -/
def Deep.bookGradient (f : Deep R) (ys x : List R) : Option (R × List R) := gradientOf f.write ys x

/-- values and jacobian by the book -/
def Deep.bookJacobian (f : Deep R) (ys x : List R) : List R × List (List R) := jacobianOf f.write ys x

/-- a function without inner calls -/
def Code.deep : Code R → Deep R
  | .ret is => .ret is
  | .make m k => .make m k.deep
  | .look i k => .look i fun x => (k x).deep

end Spec
