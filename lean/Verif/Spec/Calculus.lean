import Verif.Spec.Algo
import Verif.Spec.History
import Verif.Spec.Deriv

/-!
# Calls of `gradient` and `jacobian` and what they returned

Calls of functions as in `Spec/Algo.lean`, in any program, after any history, in any representation of numbers by words.
-/

namespace Spec
open Fz

/-- somewhere in some program `gradient` of `a` at `x` was called - `ys` are the values of the caller's variables - and
returned the value `y` and the list `df` -/
def GradientOf (a : Algo) (ys x : List ℝ) (y : ℝ) (df : List ℝ) : Prop :=
  ∃ (W : Type) (_ : Rep W ℝ) (_ : LawfulRep W ℝ) (h : List (Call ℝ)) (c : Client W) (s' : St W),
    Reach h c ∧ vals c.env c.st = .ok (ys, c.st) ∧ a.Ok (x ++ ys) ∧ a.Steady x ys ∧ a.sem (x ++ ys) ≠ [] ∧
    Room c.st (a.path (x ++ ys)) x ys ∧ gradient (a.scalarFn c.env) x c.st = .ok ((y, df), s')

/-- somewhere in some program `jacobian` of `a` at `x` was called and returned the values `o` and the matrix `rows` -/
def JacobianOf (a : Algo) (ys x o : List ℝ) (rows : List (List ℝ)) : Prop :=
  ∃ (W : Type) (_ : Rep W ℝ) (_ : LawfulRep W ℝ) (h : List (Call ℝ)) (c : Client W) (s' : St W),
    Reach h c ∧ vals c.env c.st = .ok (ys, c.st) ∧ a.Ok (x ++ ys) ∧ a.Steady x ys ∧
    Room c.st (a.path (x ++ ys)) x ys ∧ ∃ n, jacobian (a.vectorFn c.env) n x c.st = .ok ((o, rows), s')

/-- for all lists of numbers close to `x` -/
def CloseTo (x : List ℝ) (P : List ℝ → Prop) : Prop :=
  ∀ᶠ y in nhds (fun i : Fin x.length => x[i]), P (List.ofFn y)

/-- `u · M`: the combination of the rows of `M` with the weights `u` -/
def combine (u : List ℝ) (M : List (List ℝ)) (n : Nat) : List ℝ :=
  (List.range n).map fun j => ((List.range M.length).map fun k => u.getD k 0 * (M.getD k []).getD j 0).sum

end Spec
