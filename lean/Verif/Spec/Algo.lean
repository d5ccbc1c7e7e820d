import Verif.Spec.Drive

/-!
# User functions whose control flow depends on values

A user's function may look at the value of a variable and go on as it tells: loops whose number of steps depends on
the data, iterations until convergence, look-ups in tables.  This file says what such a function means over the reals,
which instructions it carries out at a point, and at which points small changes of the inputs do not change them.
-/

namespace Spec
open Fz

/-- a user's function: instructions, inspections of values, and a list of outputs -/
inductive Algo where
  | ret (outs : List Nat)
  | op (i : Instr) (k : Algo)
  /-- read the value of result `i` and go on as it tells -/
  | look (i : Nat) (k : ℝ → Algo)

/-- meaning: the outputs as functions of the inputs -/
noncomputable def Algo.sem : Algo → List ℝ → List ℝ
  | .ret outs, env => outs.map (Spec.look env)
  | .op i k, env => k.sem (env ++ i.sem env)
  | .look i k, env => (k (Spec.look env i)).sem env

/-- the instructions carried out at a point, one after the other -/
noncomputable def Algo.path : Algo → List ℝ → Prog
  | .ret outs, _ => .ret outs
  | .op i k, env => .op i (k.path (env ++ i.sem env))
  | .look i k, env => (k (Spec.look env i)).path env

/-- each step carried out at the point is one in the domain of differentiability of its function (`Instr.Ok`) and uses
results that exist -/
def Algo.Ok : Algo → List ℝ → Prop
  | .ret outs, env => ∀ i ∈ outs, i < env.length
  | .op i k, env => i.Ok env ∧ k.Ok (env ++ i.sem env)
  | .look i k, env => i < env.length ∧ (k (Spec.look env i)).Ok env

/-- small changes of the inputs `x`, the other variables having the values `ys`, do not change the instructions that are
carried out -/
def Algo.Steady (a : Algo) (x ys : List ℝ) : Prop :=
  ∀ᶠ y in nhds (fun i : Fin x.length => x[i]), a.path (List.ofFn y ++ ys) = a.path (x ++ ys)

/-- at each inspection, values close to the one found would have led to the same continuation -/
def Algo.Stable : Algo → List ℝ → Prop
  | .ret _, _ => True
  | .op i k, env => k.Stable (env ++ i.sem env)
  | .look i k, env => (∀ᶠ v in nhds (Spec.look env i), k v = k (Spec.look env i)) ∧
      (k (Spec.look env i)).Stable env

open Classical in
/-- a program with comparisons (`Spec/Prog.lean`) as a function of this kind -/
noncomputable def Prog.algo : Prog → Algo
  | .ret outs => .ret outs
  | .op i k => .op i k.algo
  | .ifVV o i j p q => .look i fun x => .look j fun y => if o.holds x y then p.algo else q.algo
  | .ifVD o i d p q => .look i fun x => if o.holds x d then p.algo else q.algo

variable {W : Type} [Rep W ℝ]

/-- run on variables -/
noncomputable def Algo.run : Algo → List Var → M W (List Var)
  | .ret outs, env => pure (outs.map (lookV env))
  | .op i k, env => do
    let vs ← i.run env
    k.run (env ++ vs)
  | .look i k, env => do
    let v ← (lookV env i).val
    (k v).run env

/-- the user's function as `gradient` wants it -/
noncomputable def Algo.scalarFn (a : Algo) (env : List Var) : List Var → M W Var := fun xv => do
  let outs ← a.run (xv ++ env)
  pure (lookV outs 0)

/-- the user's function as `jacobian` wants it -/
noncomputable def Algo.vectorFn (a : Algo) (env : List Var) : List Var → Nat → M W (List Var) :=
  fun xv _ => a.run (xv ++ env)

/-- create independent variables, run, read the values of the outputs, sweep from output `k`, read the adjoints -/
noncomputable def Algo.derive (a : Algo) (env : List Var) (x : List ℝ) (k : Nat) : M W (List ℝ × List ℝ) := do
  let xv ← newVars x
  let outs ← a.run (xv ++ env)
  let ys ← vals outs
  (lookV outs k).grad
  let df ← adjs xv
  pure (ys, df)

end Spec
