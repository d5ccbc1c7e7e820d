import Verif.Spec.Drive

/-!
# Functions of all existing variables
-/

namespace Spec
open Fz

variable {W : Type}

/-- the variables that exist in the state `s` -/
def existing (s : St W) : List Var := (List.range (s.vhead - 1)).map fun k => ⟨k + 1⟩

/-- Output `k` of a program that is run on `n` independent variables of its own and on the existing
variables `vs`, as a function of the values `w` of its own variables and of **all** existing variables
(in the order of `existing`). -/
noncomputable def Prog.outAll (p : Prog) (n : Nat) (vs : List Var) (k : Nat) (w : List ℝ) : ℝ :=
  (p.sem (w.take n ++ vs.map fun v => w.getD (n + (v.vi - 1)) 0)).getD k 0

end Spec
