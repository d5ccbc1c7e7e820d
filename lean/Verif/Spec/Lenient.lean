import Verif.Spec.Proper
import Verif.Model.Lenient

/-!
# Correct use of the library, built without checks of array shapes

As in `Spec/Proper.lean`, but plain variables may be created after nested regions have been closed.  In exchange the
program has to keep matrix products out of nested regions.
-/

namespace Spec
open Fz Arith
variable {W R : Type} [Arith R] [Rep W R]

/-- the call is a matrix product -/
def Make.product : Make R → Bool
  | .matmulVV _ _ | .matmulVD _ _ | .matmulDV _ _ => true
  | _ => false

/-- the call is a matrix product -/
def Call.product : Call R → Bool
  | .make m => m.product
  | _ => false

/-- a program without matrix products -/
def Code.NoProduct : Code R → Prop
  | .ret _ => True
  | .make m k => m.product = false ∧ k.NoProduct
  | .look _ k => ∀ x, (k x).NoProduct

/-- a function to be differentiated without matrix products -/
def Ask.NoProduct : Ask R → Prop
  | .gradient f _ => f.NoProduct
  | .jacobian f _ _ => f.NoProduct

/-- execution of a call; `J` is what the chain procedures find in memory behind the end of an array -/
def Call.execL (J : Junk W R) (k : Call R) (c : Client W) : Except Err (Client W) :=
  if ∀ i ∈ k.args, i < c.env.length then
    match k with
    | .grad i => c.keep ((nth c.env i).gradL J)
    | .gradNested i => c.keep ((nth c.env i).gradNestedL J)
    | k => k.step c
  else .error .oob

/-- a call of `gradient` or `jacobian`; `e` are variables of the caller the function uses -/
def Ask.callL (J : Junk W R) (e : List Var) : Ask R → M W (Answer R)
  | .gradient f x => do
    let r ← gradientL J (f.scalar e) x
    pure (.gradient r.1 r.2)
  | .jacobian f n x => do
    let r ← jacobianL J (f.vector e) n x
    pure (.jacobian r.1 r.2)

/-- a correct call: plain variables may be created at any time, matrix products outside of nested regions only -/
def Call.ProperL (c : Client W) (k : Call R) : Prop :=
  k.Proper false c ∧ (k.product = true → c.marks = [])

/-- a correct call of `gradient` or `jacobian`, where the variables `is` of the caller have the values `ys` -/
def Ask.ProperL (c : Client W) (is : List Nat) (ys : List R) (q : Ask R) : Prop :=
  c.marks.length < 10 ∧ (∀ i ∈ is, i < c.env.length) ∧
  (vals (is.map (nth c.env)) : M W (List R)) c.st = .ok (ys, c.st) ∧
  q.Suits false c.st.tape.head ys ∧ q.NoProduct

end Spec
