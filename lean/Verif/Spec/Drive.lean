import Verif.Spec.Run
import Verif.Spec.Deriv
import Verif.Spec.History

/-!
# Differentiating user programs

What a user of the library does: create independent variables, compute, sweep, read the adjoints;
or hand the computation to `gradient` or `jacobian`.  `env` are variables the computation may use
besides its arguments.
-/

namespace Spec
open Fz

variable {W : Type} [Rep W ℝ]

/-- create independent variables with the values `x`, run the program, read the values of its
outputs, sweep from output `k` and read the adjoints of the independent variables -/
noncomputable def derive (p : Prog) (env : List Var) (x : List ℝ) (k : Nat) :
    M W (List ℝ × List ℝ) := do
  let xv ← newVars x
  let outs ← p.run (xv ++ env)
  let ys ← vals outs
  (lookV outs k).grad
  let df ← adjs xv
  pure (ys, df)

/-- the user's function as `gradient` wants it: one result -/
noncomputable def Prog.scalarFn (p : Prog) (env : List Var) : List Var → M W Var := fun xv => do
  let outs ← p.run (xv ++ env)
  pure (lookV outs 0)

/-- the user's function as `jacobian` wants it: a list of results -/
noncomputable def Prog.vectorFn (p : Prog) (env : List Var) : List Var → Nat → M W (List Var) :=
  fun xv _ => p.run (xv ++ env)

/-- largest number of words the tape can be made to hold, plus one: beyond, the next doubling of the
storage is not a 32-bit integer -/
def tapeLimit : Nat := 1610612737

/-- the tape in the state `s` has room for a run of `p` on `n` new variables and `env` -/
def Room (s : St W) (p : Prog) (x ys : List ℝ) : Prop :=
  s.tape.head + (6 * x.length + p.cost (x ++ ys)) ≤ tapeLimit

/-- output `k` of the program as a function of its inputs, the other variables having values `ys` -/
noncomputable def Prog.out (p : Prog) (ys : List ℝ) (k : Nat) (z : List ℝ) : ℝ := (p.sem (z ++ ys)).getD k 0

end Spec
