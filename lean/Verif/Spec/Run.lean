import Verif.Spec.Prog
import Verif.Model.Grad
import Verif.Model.Prob
import Verif.Model.RealArith

/-!
# Running user programs on the library

The same programs, executed by calling the modelled library on variables.
-/

namespace Spec
open Fz

variable {W : Type} [Rep W ℝ]

/-- the library function called for a unary instruction -/
noncomputable def Un.api : Un → Var → M W Var
  | .pos => posV | .neg => negV | .abs => absV | .sin => sinV | .cos => cosV | .tan => tanV
  | .asin => asinV | .acos => acosV | .atan => atanV | .sinh => sinhV | .cosh => coshV
  | .tanh => tanhV | .asinh => asinhV | .acosh => acoshV | .atanh => atanhV | .sqrt => sqrtV
  | .inv => invV | .square => squareV | .invSqrt => invSqrtV | .exp => expV | .log => logV
  | .logit => logitV | .invLogit => invLogitV | .erf => erfV | .erfc => erfcV

/-- variable and variable -/
noncomputable def Bin.apiVV : Bin → Var → Var → M W Var
  | .add => addVV | .sub => subVV | .mul => mulVV | .div => divVV | .pow => powVV | .hypot => hypotVV
/-- variable and real -/
noncomputable def Bin.apiVD : Bin → Var → ℝ → M W Var
  | .add => addVD | .sub => subVD | .mul => mulVD | .div => divVD | .pow => powVD | .hypot => hypotVD
/-- real and variable -/
noncomputable def Bin.apiDV : Bin → ℝ → Var → M W Var
  | .add => addDV | .sub => subDV | .mul => mulDV | .div => divDV | .pow => powDV | .hypot => hypotDV

/-- handle number `i` -/
def lookV (env : List Var) (i : Nat) : Var := env.getD i ⟨0⟩

/-- a matrix of handles -/
def Matrix'.vars (a : Matrix' Nat) (env : List Var) : Mat Var :=
  ⟨a.nrow, a.ncol, fun i j => lookV env (a.get i j)⟩
/-- a matrix of reals -/
def Matrix'.data (a : Matrix' ℝ) : Mat ℝ := ⟨a.nrow, a.ncol, a.get⟩

/-- the log density functions -/
noncomputable def Dist.apiVV : Dist → List ℝ → Var → Var → M W Var
  | .normal => normalLpdfVV | .lognormal => lognormalLpdfVV
/-- the same with one real argument -/
noncomputable def Dist.apiVD : Dist → List ℝ → Var → ℝ → M W Var
  | .normal => normalLpdfVD | .lognormal => lognormalLpdfVD
/-- the same with one real argument -/
noncomputable def Dist.apiDV : Dist → List ℝ → ℝ → Var → M W Var
  | .normal => normalLpdfDV | .lognormal => lognormalLpdfDV

/-- a function with one result -/
def one (m : M W Var) : M W (List Var) := do
  let v ← m
  pure [v]

/-- call the library for an instruction -/
noncomputable def Instr.run : Instr → List Var → M W (List Var)
  | .const d, _ => one (newVar d)
  | .un f i, env => one (f.api (lookV env i))
  | .bin f i j, env => one (f.apiVV (lookV env i) (lookV env j))
  | .binVD f i d, env => one (f.apiVD (lookV env i) d)
  | .binDV f d i, env => one (f.apiDV d (lookV env i))
  | .sum is, env => one (sumV (is.map (lookV env)))
  | .norm2 is, env => one (norm2V (is.map (lookV env)))
  | .logSumExp is, env => one (logSumExpV (is.map (lookV env)))
  | .dotVV is js, env => one (Fz.dotVV (is.map (lookV env)) (js.map (lookV env)))
  | .dotVD is ds, env => one (Fz.dotVD (is.map (lookV env)) ds)
  | .dotDV ds is, env => one (Fz.dotDV ds (is.map (lookV env)))
  | .matmulVV a b, env => Fz.matmulVV (a.vars env) (b.vars env)
  | .matmulVD a b, env => Fz.matmulVD (a.vars env) b.data
  | .matmulDV a b, env => Fz.matmulDV a.data (b.vars env)
  | .lpdfVV d ys m s, env => one (d.apiVV ys (lookV env m) (lookV env s))
  | .lpdfVD d ys m s, env => one (d.apiVD ys (lookV env m) s)
  | .lpdfDV d ys m s, env => one (d.apiDV ys m (lookV env s))
  | .partials φ dφ is, env => one do
      let xs ← vals (is.map (lookV env))
      varWithPartials (φ xs) (is.map (lookV env)) (dφ xs)
  | .user φ r is ds, env => one do
      let xs ← vals (is.map (lookV env))
      userOp (φ xs) r (is.map (lookV env)) ds

/-- the library's comparison operators -/
def Rel.op : Rel → RelOp
  | .eq => .eq | .ne => .ne | .gt => .gt | .lt => .lt | .ge => .ge | .le => .le

/-- run a program on handles -/
noncomputable def Prog.run : Prog → List Var → M W (List Var)
  | .ret outs, env => pure (outs.map (lookV env))
  | .op i k, env => do
    let vs ← i.run env
    k.run (env ++ vs)
  | .ifVV o i j p q, env => do
    if ← relVV (R := ℝ) o.op (lookV env i) (lookV env j) then p.run env else q.run env
  | .ifVD o i d p q, env => do
    if ← relVD o.op (lookV env i) d then p.run env else q.run env

open Classical in
/-- number of tape words a unary function uses: a record of 7 words, unless it returns its operand -/
noncomputable def Un.cost : Un → ℝ → Nat
  | .pos, _ => 0
  | .abs, x => if 0 < x then 0 else 7
  | _, _ => 7

open Classical in
/-- variable and real -/
noncomputable def Bin.costVD : Bin → ℝ → Nat
  | .add, _ => 7
  | .sub, _ => 7
  | .mul, _ => 9
  | .div, _ => 9
  | .hypot, _ => 7
  | .pow, d => if d = 1 then 0 else if d = 1 / 2 ∨ d = 2 ∨ d = -1 ∨ d = -(1 / 2) then 7 else 9

/-- real and variable -/
def Bin.costDV : Bin → Nat
  | .add => 7
  | .sub => 7
  | .mul => 9
  | .div => 9
  | .hypot => 7
  | .pow => 9

/-- number of tape words an instruction uses -/
noncomputable def Instr.cost : Instr → List ℝ → Nat
  | .const _, _ => 6
  | .un f i, env => f.cost (look env i)
  | .bin _ _ _, _ => 8
  | .binVD f _ d, _ => f.costVD d
  | .binDV f _ _, _ => f.costDV
  | .sum is, _ => 6 + is.length
  | .norm2 is, _ => 6 + is.length
  | .logSumExp is, _ => 6 + is.length
  | .dotVV is js, _ => 6 + (is.length + js.length)
  | .dotVD is ds, _ => 6 + is.length + 2 * ds.length
  | .dotDV ds is, _ => 6 + is.length + 2 * ds.length
  | .matmulVV a b, _ => (2 + a.nrow * a.ncol) + (2 + b.nrow * b.ncol) + 10 * (a.nrow * b.ncol)
  | .matmulVD a b, _ => (2 + a.nrow * a.ncol) + (2 + 2 * (b.nrow * b.ncol)) + 10 * (a.nrow * b.ncol)
  | .matmulDV a b, _ => (2 + 2 * (a.nrow * a.ncol)) + (2 + b.nrow * b.ncol) + 10 * (a.nrow * b.ncol)
  | .lpdfVV _ _ _ _, _ => 12
  | .lpdfVD _ _ _ _, _ => 9
  | .lpdfDV _ _ _ _, _ => 9
  | .partials _ _ is, _ => 6 + 3 * is.length
  | .user _ _ is ds, _ => 6 + is.length + 2 * ds.length

open Classical in
/-- number of tape words a program uses when started with the given numbers -/
noncomputable def Prog.cost : Prog → List ℝ → Nat
  | .ret _, _ => 0
  | .op i k, env => i.cost env + k.cost (env ++ i.sem env)
  | .ifVV o i j p q, env => if o.holds (look env i) (look env j) then p.cost env else q.cost env
  | .ifVD o i d p q, env => if o.holds (look env i) d then p.cost env else q.cost env

/-- the program creates constants (`var(d)`) on some path -/
def Prog.hasConst : Prog → Prop
  | .ret _ => False
  | .op (.const _) _ => True
  | .op _ k => k.hasConst
  | .ifVV _ _ _ p q => p.hasConst ∨ q.hasConst
  | .ifVD _ _ _ p q => p.hasConst ∨ q.hasConst

end Spec
