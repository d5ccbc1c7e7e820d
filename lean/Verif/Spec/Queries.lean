import Verif.Spec.View

/-!
# Queries
-/

namespace Spec
open Fz

variable {W R : Type} [Arith R] [Rep W R]

/-- whenever `m` returns, the whole state is what it was before -/
def ReadsOnly {α : Type} (m : M W α) : Prop := ∀ s r s', m s = .ok (r, s') → s' = s

/-- the words of a record (tape.F90:14-24): two for the value, two for the adjoint, the number of operands,
the operands, the number of data items, two for each data item -/
def View.words (w : View R) : Nat := 2 + 2 + 1 + w.ops.length + 1 + 2 * w.data.length

/-- the length that `record_len` reports for the record of `v` -/
def reported (s : St W) (v : Var) : Except Err Nat := s.tape.recordLen (s.varis v.vi).i

end Spec
