import Mathlib.Analysis.Calculus.ContDiff.Defs
import Verif.Spec.Variation

/-!
# Right-hand sides that are continuously differentiable

For C66: conditions on the program that computes the right-hand side of a differential equation.
-/

namespace Spec
open Fz

/-- beyond `Instr.Ok`: the function is continuously differentiable at the point.  The library's functions are, where
`Instr.Ok` holds, except possibly for powers with base 0 and variable exponent; for functions that the user brings it is
a condition. -/
def Instr.Smooth : Instr → List ℝ → Prop
  | .bin .pow i _, env => 0 < look env i
  | .partials φ _ is, env =>
      ContDiffAt ℝ 1 (fun y : Fin is.length → ℝ => φ (List.ofFn y)) (fun k => look env is[k])
  | .user φ _ is _, env =>
      ContDiffAt ℝ 1 (fun y : Fin is.length → ℝ => φ (List.ofFn y)) (fun k => look env is[k])
  | _, _ => True

/-- the same for all steps of a program -/
def Prog.Smooth : Prog → List ℝ → Prop
  | .ret _, _ => True
  | .op i k, env => i.Smooth env ∧ k.Smooth (env ++ i.sem env)
  | .ifVV o i j p q, env => (o.holds (look env i) (look env j) → p.Smooth env) ∧
      (¬ o.holds (look env i) (look env j) → q.Smooth env)
  | .ifVD o i d p q, env => (o.holds (look env i) d → p.Smooth env) ∧ (¬ o.holds (look env i) d → q.Smooth env)

/-- an instruction that does not change with time, or whose real constants are continuously differentiable functions
of time -/
inductive Instr.Drifts : (ℝ → Instr) → Prop
  | fixed (i : Instr) : Instr.Drifts fun _ => i
  | const {d : ℝ → ℝ} : ContDiff ℝ 1 d → Instr.Drifts fun t => .const (d t)
  | binVD {f : Bin} {i : Nat} {d : ℝ → ℝ} : f ≠ .pow → ContDiff ℝ 1 d → Instr.Drifts fun t => .binVD f i (d t)
  | binDV {f : Bin} {i : Nat} {d : ℝ → ℝ} : f ≠ .pow → ContDiff ℝ 1 d → Instr.Drifts fun t => .binDV f (d t) i

/-- the program is the same at all times, except for real constants that are continuously differentiable functions of
time -/
inductive Prog.Drifts : (ℝ → Prog) → Prop
  | ret (outs : List Nat) : Prog.Drifts fun _ => .ret outs
  | op {i : ℝ → Instr} {k : ℝ → Prog} : Instr.Drifts i → Prog.Drifts k → Prog.Drifts fun t => .op (i t) (k t)
  | ifVV {o : Rel} {i j : Nat} {p q : ℝ → Prog} : Prog.Drifts p → Prog.Drifts q →
      Prog.Drifts fun t => .ifVV o i j (p t) (q t)
  | ifVD {o : Rel} {i : Nat} {d : ℝ → ℝ} {p q : ℝ → Prog} : ContDiff ℝ 1 d → Prog.Drifts p → Prog.Drifts q →
      Prog.Drifts fun t => .ifVD o i (d t) (p t) (q t)

end Spec
