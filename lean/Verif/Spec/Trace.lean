import Verif.Model.Service

/-!
# Proper use of objects
-/

namespace Spec
open Fz

/-- an object is used or released only after it was created and before it was released; no pointer is followed that
does not point to an object -/
def ProperUse (tr : List Ev) : Prop :=
  ∀ before e after, tr = before ++ e :: after → ∀ p, (e = .use p ∨ e = .free p) →
    ∃ n, p = .addr n ∧ Ev.create n ∈ before ∧ Ev.free (.addr n) ∉ before

/-- every object that is created is released, once -/
def NoLeak (tr : List Ev) : Prop := ∀ n, Ev.create n ∈ tr → tr.count (.free (.addr n)) = 1

/-- the context is released when no other object exists any more -/
def ContextLast (tr : List Ev) (ctx : Nat) : Prop :=
  ∀ before after, tr = before ++ Ev.free (.addr ctx) :: after → ∀ n, n ≠ ctx → Ev.create n ∈ before →
    Ev.free (.addr n) ∈ before

end Spec
