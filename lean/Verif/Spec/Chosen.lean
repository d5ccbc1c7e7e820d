import Verif.Spec.Unused

/-!
# Which arguments are differentiated

A program is given variables: first the inputs, by which it is differentiated, then variables of the caller, by which it
is not.  The same program may be asked for other derivatives: variables stand in another order, inputs become variables
of the caller, or the other way round.  `σ` says where each variable stands then, and `Code.rename` is the program for
the new places.
-/

namespace Spec
open Fz Arith
variable {R : Type} [Arith R]

/-- the same numbers, each at its new place -/
structure Stands (σ : Nat → Nat) (ys ys' : List R) : Prop where
  /-- there is such a place -/
  lt : ∀ i < ys.length, σ i < ys'.length
  /-- with the same number -/
  num : ∀ i < ys.length, num ys' (σ i) = num ys i
  /-- and no two variables have the same one -/
  inj : ∀ i j, i < ys.length → j < ys.length → σ i = σ j → i = j

/-- the number of results of a call; it does not depend on the numbers the call is given -/
def Make.results (m : Make R) : Nat := (m.plain []).length

/-- the same program for other places: `n` and `n'` are the numbers of variables here and there -/
def Code.rename : Code R → (Nat → Nat) → Nat → Nat → Code R
  | .ret is, σ, _, _ => .ret (is.map σ)
  | .make m k, σ, n, n' => .make (m.rename σ) (k.rename (after σ n n') (n + m.results) (n' + m.results))
  | .look i k, σ, n, n' => .look (σ i) fun x => (k x).rename σ n n'

end Spec
