import Verif.Spec.Proper

/-!
# How a program may go on
-/

namespace Spec
open Fz
variable {W R : Type} [Arith R] [Rep W R]

/-- The clients that correct calls lead to from `c`, for the library with checks of array shapes, once a nested region has
been closed (so none of the calls makes plain variables, `Make.Meets true`). -/
inductive Onward (R : Type) [Arith R] [Rep W R] (c : Client W) : Client W → Prop where
  | here : Onward R c c
  | call {d d' : Client W} (k : Call R) (h : Onward R c d) (hk : k.Proper true d) (e : k.exec d = .ok d') : Onward R c d'

/-- from `c` correct calls complete, one after the other, without end -/
def GoesOn (R : Type) [Arith R] [Rep W R] (c : Client W) : Prop :=
  ∀ d, Onward R c d → ∀ k : Call R, k.Proper true d → ∃ d', k.exec d = .ok d'

end Spec
