import Mathlib.Analysis.SpecialFunctions.Arcosh
import Mathlib.Analysis.SpecialFunctions.Arsinh
import Mathlib.Analysis.SpecialFunctions.Artanh
import Mathlib.Analysis.SpecialFunctions.Pow.Real
import Mathlib.Analysis.SpecialFunctions.Trigonometric.Arctan
import Mathlib.MeasureTheory.Integral.IntervalIntegral.Basic
import Mathlib.Analysis.Calculus.FDeriv.Basic
import Verif.Spec.UserRule

/-!
# What user programs mean

A user program computes with numbers: it applies the library's operators and functions to earlier
results, and branches on comparisons.  This file says what such a program *means* over the real
numbers, with Mathlib's functions, and at which points it is differentiable.  It knows nothing of
tapes, records or variables.

Results are referred to by index: the inputs are `0, ..., n-1`, and every instruction appends its
results.
-/

namespace Spec

/-- the unary functions of the library (value and derivative defects are treated elsewhere:
`inv_square`, and `log_gamma`, whose derivative is an approximation, are not in this list) -/
inductive Un where
  | pos | neg | abs | sin | cos | tan | asin | acos | atan | sinh | cosh | tanh
  | asinh | acosh | atanh | sqrt | inv | square | invSqrt | exp | log | logit | invLogit | erf | erfc
  deriving DecidableEq, Repr

/-- the mathematical function -/
noncomputable def Un.fn : Un → ℝ → ℝ
  | .pos, x => x
  | .neg, x => -x
  | .abs, x => |x|
  | .sin, x => Real.sin x
  | .cos, x => Real.cos x
  | .tan, x => Real.tan x
  | .asin, x => Real.arcsin x
  | .acos, x => Real.arccos x
  | .atan, x => Real.arctan x
  | .sinh, x => Real.sinh x
  | .cosh, x => Real.cosh x
  | .tanh, x => Real.tanh x
  | .asinh, x => Real.arsinh x
  | .acosh, x => Real.arcosh x
  | .atanh, x => Real.artanh x
  | .sqrt, x => √x
  | .inv, x => 1 / x
  | .square, x => x ^ 2
  | .invSqrt, x => 1 / √x
  | .exp, x => Real.exp x
  | .log, x => Real.log x
  | .logit, x => Real.log (x / (1 - x))
  | .invLogit, x => 1 / (1 + Real.exp (-x))
  | .erf, x => erfFn x
  | .erfc, x => 1 - erfFn x

/-- where it is used: inside its domain, at points where it is differentiable.  `inv_logit` is the
logistic function only down to the logarithm of the smallest normal double, `2^(-1022)`. -/
def Un.dom : Un → ℝ → Prop
  | .abs, x => x ≠ 0
  | .tan, x => Real.cos x ≠ 0
  | .asin, x => -1 < x ∧ x < 1
  | .acos, x => -1 < x ∧ x < 1
  | .acosh, x => 1 < x
  | .atanh, x => -1 < x ∧ x < 1
  | .sqrt, x => 0 < x
  | .inv, x => x ≠ 0
  | .invSqrt, x => 0 < x
  | .log, x => 0 < x
  | .logit, x => 0 < x ∧ x < 1
  | .invLogit, x => Real.log ((2:ℝ) ^ (-1022 : ℤ)) ≤ x
  | _, _ => True

/-- the binary functions -/
inductive Bin where
  | add | sub | mul | div | pow | hypot
  deriving DecidableEq, Repr

/-- the mathematical function -/
noncomputable def Bin.fn : Bin → ℝ → ℝ → ℝ
  | .add, x, y => x + y
  | .sub, x, y => x - y
  | .mul, x, y => x * y
  | .div, x, y => x / y
  | .pow, x, y => x ^ y
  | .hypot, x, y => √(x ^ 2 + y ^ 2)

/-- variable and variable; a power is differentiable in both arguments at every positive base, and at base 0 for
exponents beyond 1 -/
def Bin.domVV : Bin → ℝ → ℝ → Prop
  | .div, _, y => y ≠ 0
  | .pow, x, y => 0 < x ∨ (x = 0 ∧ 1 < y)
  | .hypot, x, y => x ≠ 0 ∨ y ≠ 0
  | _, _, _ => True

/-- variable and real constant: the domain of the function of `x`.  A power with a real exponent is
differentiable at every positive base; with an integral exponent at negative bases too; at base 0
for the exponents 0, 1, and beyond 1. -/
def Bin.domVD : Bin → ℝ → ℝ → Prop
  | .div, _, d => d ≠ 0
  | .pow, x, d => 0 < x ∨ d = 1 ∨ d = 2 ∨ (x ≠ 0 ∧ ∃ n : ℤ, d = n) ∨ (x = 0 ∧ (d = 0 ∨ 1 < d))
  | .hypot, x, d => x ≠ 0 ∨ d ≠ 0
  | _, _, _ => True

/-- real constant and variable: the domain of the function of `y` -/
def Bin.domDV : Bin → ℝ → ℝ → Prop
  | .div, _, y => y ≠ 0
  | .pow, d, y => 0 < d ∨ (d = 0 ∧ 0 < y)
  | .hypot, d, y => d ≠ 0 ∨ y ≠ 0
  | _, _, _ => True

/-- **Known defects** of the library with a real right operand: the neutral elements of `+ - * /`
(property C15), `x**(-2.0)` (C16) and `hypot(x, 0.0)` (C17). -/
def Bin.defectVD : Bin → ℝ → Prop
  | .add, d => d = 0
  | .sub, d => d = 0
  | .mul, d => d = 1
  | .div, d => d = 1
  | .pow, d => d = -2
  | .hypot, d => d = 0

/-- **Known defects** with a real left operand: `0.0 + x`, `1.0 * x` (C15), `hypot(0.0, x)` (C17). -/
def Bin.defectDV : Bin → ℝ → Prop
  | .add, d => d = 0
  | .mul, d => d = 1
  | .hypot, d => d = 0
  | _, _ => False

/-- a rank-2 array, entry `(i, j)` counted from 0 -/
structure Matrix' (α : Type) where
  nrow : Nat
  ncol : Nat
  get : Nat → Nat → α

/-- index pairs of an `m × n` array in array element order (column by column) -/
def entries (m n : Nat) : List (Nat × Nat) :=
  (List.range n).flatMap fun j => (List.range m).map fun i => (i, j)

/-- the two families of log densities -/
inductive Dist where
  | normal | lognormal
  deriving DecidableEq, Repr

/-- log density at `y` -/
noncomputable def Dist.logpdf : Dist → ℝ → ℝ → ℝ → ℝ
  | .normal, mu, sigma, y =>
    Real.log (1 / (sigma * √(2 * Real.pi)) * Real.exp (-((y - mu) ^ 2) / (2 * sigma ^ 2)))
  | .lognormal, mu, sigma, y =>
    Real.log (1 / (y * sigma * √(2 * Real.pi)) *
      Real.exp (-((Real.log y - mu) ^ 2) / (2 * sigma ^ 2)))

/-- support of the density -/
def Dist.supp : Dist → ℝ → Prop
  | .normal, _ => True
  | .lognormal, y => 0 < y

/-- one instruction -/
inductive Instr where
  /-- `var(d)`: a new constant -/
  | const (d : ℝ)
  | un (f : Un) (i : Nat)
  | bin (f : Bin) (i j : Nat)
  | binVD (f : Bin) (i : Nat) (d : ℝ)
  | binDV (f : Bin) (d : ℝ) (i : Nat)
  | sum (is : List Nat)
  | norm2 (is : List Nat)
  | logSumExp (is : List Nat)
  | dotVV (is js : List Nat)
  | dotVD (is : List Nat) (ds : List ℝ)
  | dotDV (ds : List ℝ) (is : List Nat)
  | matmulVV (a b : Matrix' Nat)
  | matmulVD (a : Matrix' Nat) (b : Matrix' ℝ)
  | matmulDV (a : Matrix' ℝ) (b : Matrix' Nat)
  /-- log density of the data `ys`, `mu` and `sigma` computed -/
  | lpdfVV (d : Dist) (ys : List ℝ) (mu sigma : Nat)
  | lpdfVD (d : Dist) (ys : List ℝ) (mu : Nat) (sigma : ℝ)
  | lpdfDV (d : Dist) (ys : List ℝ) (mu : ℝ) (sigma : Nat)
  /-- `var_with_partials`: a function and the partial derivatives the user supplies -/
  | partials (φ : List ℝ → ℝ) (dφ : List ℝ → List ℝ) (is : List Nat)
  /-- an operation added by the user: the function, its chain procedure, the operands and the data -/
  | user (φ : List ℝ → ℝ) (r : Fz.URule) (is : List Nat) (ds : List ℝ)

/-- result number `i` -/
def look (env : List ℝ) (i : Nat) : ℝ := env.getD i 0

/-- meaning of an instruction: the list of its results -/
noncomputable def Instr.sem : Instr → List ℝ → List ℝ
  | .const d, _ => [d]
  | .un f i, env => [f.fn (look env i)]
  | .bin f i j, env => [f.fn (look env i) (look env j)]
  | .binVD f i d, env => [f.fn (look env i) d]
  | .binDV f d i, env => [f.fn d (look env i)]
  | .sum is, env => [(is.map (look env)).sum]
  | .norm2 is, env => [√(is.map fun i => look env i ^ 2).sum]
  | .logSumExp is, env => [Real.log (is.map fun i => Real.exp (look env i)).sum]
  | .dotVV is js, env => [((is.zip js).map fun p => look env p.1 * look env p.2).sum]
  | .dotVD is ds, env => [((is.zip ds).map fun p => look env p.1 * p.2).sum]
  | .dotDV ds is, env => [((ds.zip is).map fun p => p.1 * look env p.2).sum]
  | .matmulVV a b, env => (entries a.nrow b.ncol).map fun p =>
      ((List.range a.ncol).map fun k => look env (a.get p.1 k) * look env (b.get k p.2)).sum
  | .matmulVD a b, env => (entries a.nrow b.ncol).map fun p =>
      ((List.range a.ncol).map fun k => look env (a.get p.1 k) * b.get k p.2).sum
  | .matmulDV a b, env => (entries a.nrow b.ncol).map fun p =>
      ((List.range a.ncol).map fun k => a.get p.1 k * look env (b.get k p.2)).sum
  | .lpdfVV d ys m s, env => [(ys.map (d.logpdf (look env m) (look env s))).sum]
  | .lpdfVD d ys m s, env => [(ys.map (d.logpdf (look env m) s)).sum]
  | .lpdfDV d ys m s, env => [(ys.map (d.logpdf m (look env s))).sum]
  | .partials φ _ is, env => [φ (is.map (look env))]
  | .user φ _ is _, env => [φ (is.map (look env))]

/-- number of results -/
def Instr.arity : Instr → Nat
  | .matmulVV a b => a.nrow * b.ncol
  | .matmulVD a b => a.nrow * b.ncol
  | .matmulDV a b => a.nrow * b.ncol
  | _ => 1

/-- largest finite double -/
noncomputable def hugeDouble : ℝ := (2 - (2:ℝ) ^ (-52 : ℤ)) * 2 ^ (1023 : ℤ)

/-- the user-supplied partial derivatives `dφ` of `φ` are right at `v` -/
def PartialsAt (φ : List ℝ → ℝ) (dφ : List ℝ → List ℝ) (v : List ℝ) : Prop :=
  (dφ v).length = v.length ∧
  ∃ L : (Fin v.length → ℝ) →L[ℝ] ℝ,
    HasFDerivAt (fun y : Fin v.length → ℝ => φ (List.ofFn y)) L (fun i => v[i]) ∧
    ∀ y, L y = (List.zipWith (· * ·) (dφ v) (List.ofFn y)).sum

/-- conditions on an instruction at the point: operands exist, shapes conform, the point is in the
domain of differentiability, and no known defect is met -/
def Instr.Ok : Instr → List ℝ → Prop
  | .const _, _ => True
  | .un f i, env => i < env.length ∧ f.dom (look env i)
  | .bin f i j, env => i < env.length ∧ j < env.length ∧ f.domVV (look env i) (look env j)
  | .binVD f i d, env => i < env.length ∧ f.domVD (look env i) d ∧ ¬ f.defectVD d
  | .binDV f d i, env => i < env.length ∧ f.domDV d (look env i) ∧ ¬ f.defectDV d
  | .sum is, env => ∀ i ∈ is, i < env.length
  | .norm2 is, env => (∀ i ∈ is, i < env.length) ∧ ∃ i ∈ is, look env i ≠ 0
  | .logSumExp is, env => (∀ i ∈ is, i < env.length ∧ look env i ≤ hugeDouble) ∧ is ≠ []
  | .dotVV is js, env =>
      (∀ i ∈ is, i < env.length) ∧ (∀ i ∈ js, i < env.length) ∧ is.length = js.length
  | .dotVD is ds, env => (∀ i ∈ is, i < env.length) ∧ is.length = ds.length
  | .dotDV ds is, env => (∀ i ∈ is, i < env.length) ∧ ds.length = is.length
  | .matmulVV a b, env => a.ncol = b.nrow ∧ (∀ i < a.nrow, ∀ j < a.ncol, a.get i j < env.length) ∧
      (∀ i < b.nrow, ∀ j < b.ncol, b.get i j < env.length) ∧
      a.nrow < 2 ^ 31 ∧ a.ncol < 2 ^ 31 ∧ b.ncol < 2 ^ 31
  | .matmulVD a b, env => a.ncol = b.nrow ∧ (∀ i < a.nrow, ∀ j < a.ncol, a.get i j < env.length) ∧
      a.nrow < 2 ^ 31 ∧ a.ncol < 2 ^ 31 ∧ b.ncol < 2 ^ 31
  | .matmulDV a b, env => a.ncol = b.nrow ∧ (∀ i < b.nrow, ∀ j < b.ncol, b.get i j < env.length) ∧
      a.nrow < 2 ^ 31 ∧ a.ncol < 2 ^ 31 ∧ b.ncol < 2 ^ 31
  | .lpdfVV d ys m s, env =>
      m < env.length ∧ s < env.length ∧ 0 < look env s ∧ ∀ y ∈ ys, d.supp y
  | .lpdfVD d ys m s, env => m < env.length ∧ 0 < s ∧ ∀ y ∈ ys, d.supp y
  | .lpdfDV d ys _ s, env => s < env.length ∧ 0 < look env s ∧ ∀ y ∈ ys, d.supp y
  | .partials φ dφ is, env => (∀ i ∈ is, i < env.length) ∧ PartialsAt φ dφ (is.map (look env))
  | .user φ r is ds, env => (∀ i ∈ is, i < env.length) ∧
      RuleFits (φ (is.map (look env))) (is.map (look env)) ds r ∧
      PartialsAt φ (fun v => factors (φ v) v ds r) (is.map (look env))

/-- comparison operators -/
inductive Rel where
  | eq | ne | gt | lt | ge | le
  deriving DecidableEq, Repr

/-- their meaning -/
def Rel.holds : Rel → ℝ → ℝ → Prop
  | .eq, x, y => x = y
  | .ne, x, y => x ≠ y
  | .gt, x, y => x > y
  | .lt, x, y => x < y
  | .ge, x, y => x ≥ y
  | .le, x, y => x ≤ y

/-- a user program: instructions, branches on comparisons of results with each other or with real
constants, and a list of outputs -/
inductive Prog where
  | ret (outs : List Nat)
  | op (i : Instr) (k : Prog)
  | ifVV (o : Rel) (i j : Nat) (p q : Prog)
  | ifVD (o : Rel) (i : Nat) (d : ℝ) (p q : Prog)

open Classical in
/-- meaning of a program: its outputs as functions of its inputs -/
noncomputable def Prog.sem : Prog → List ℝ → List ℝ
  | .ret outs, env => outs.map (look env)
  | .op i k, env => k.sem (env ++ i.sem env)
  | .ifVV o i j p q, env => if o.holds (look env i) (look env j) then p.sem env else q.sem env
  | .ifVD o i d p q, env => if o.holds (look env i) d then p.sem env else q.sem env

/-- the program is differentiable at the point, step by step; at a branch the compared numbers
differ -/
def Prog.Ok : Prog → List ℝ → Prop
  | .ret outs, env => ∀ i ∈ outs, i < env.length
  | .op i k, env => i.Ok env ∧ k.Ok (env ++ i.sem env)
  | .ifVV o i j p q, env => i < env.length ∧ j < env.length ∧ look env i ≠ look env j ∧
      (o.holds (look env i) (look env j) → p.Ok env) ∧ (¬ o.holds (look env i) (look env j) → q.Ok env)
  | .ifVD o i d p q, env => i < env.length ∧ look env i ≠ d ∧
      (o.holds (look env i) d → p.Ok env) ∧ (¬ o.holds (look env i) d → q.Ok env)

end Spec
