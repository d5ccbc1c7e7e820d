import Verif.Spec.Plan

/-!
# Functions that open one nested region, for the library with checks of array shapes
-/

namespace Spec
open Fz
variable {R : Type} [Arith R]

/-- The function, given variables with the values `ys`, solves on its way at most one equation, for one output time, or
makes one inner call of `gradient` or `jacobian`, for a function of the same kind; it makes no plain variables once it
has (`closed`: it has), and the right-hand side makes none where the solver asks for it (`Meets true`). -/
def Plan.Once : Plan R → Bool → List R → Prop
  | .ret _, _, _ => True
  | .make m k, closed, ys => m.Meets closed ys ∧ k.Once closed (ys ++ m.plain ys)
  | .look i k, closed, ys => (k (num ys i)).Once closed ys
  | .init p is es k, closed, ys => closed = false ∧ (∃ t, p.ts = [t] ∧
      AsksBook p.f (fun t => (p.F t).sensY (es.map (num ys)))
        (fun t y _ => (p.F t).Meets true (rhsInputs y [] ++ es.map (num ys)))
        (p.sv.step (p.startY (is.map (num ys))) t)) ∧
      k.Once true (ys ++ (p.compsY (es.map (num ys)) (is.map (num ys))).map Prod.fst)
  | .par p y is es k, closed, ys => closed = false ∧ (∃ t, p.ts = [t] ∧
      AsksBook p.f (fun t => (p.F t).sensP (es.map (num ys)) (is.map (num ys)))
        (fun t y _ => (p.F t).Meets true (rhsInputs y (is.map (num ys)) ++ es.map (num ys)))
        (p.sv.step (p.startP y) t)) ∧
      k.Once true (ys ++ (p.compsP (es.map (num ys)) (is.map (num ys)) y).map Prod.fst)
  | .gradient f x is k, closed, ys => closed = false ∧ f.Once false (x ++ is.map (num ys)) ∧
      ∀ y df, f.bookGradient (is.map (num ys)) x = some (y, df) → (k y df).Once true ys
  | .jacobian f _ x is k, closed, ys => closed = false ∧ f.Once false (x ++ is.map (num ys)) ∧
      (k (f.bookJacobian (is.map (num ys)) x).1 (f.bookJacobian (is.map (num ys)) x).2).Once true ys

end Spec
