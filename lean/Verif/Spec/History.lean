import Verif.Spec.Prog
import Verif.Model.Grad
import Verif.Model.Prob

/-!
# Histories of library calls

A client holds variables and calls the library, in any order: it creates variables, assigns to them,
runs reverse sweeps, resets adjoints, and begins and ends nested regions.  A history is a list of
calls; it is executed from the start of the program.  Calls that fail (error stop, or an action the
language standard forbids) end the execution.

For every interpretation `R` of `real64`.  Variables are named by their place in the client's list.
-/

namespace Spec
open Fz

/-- all functions of one variable -/
inductive Fn where
  | pos | neg | abs | sin | cos | tan | asin | acos | atan | sinh | cosh | tanh
  | asinh | acosh | atanh | sqrt | inv | square | invSquare | invSqrt | exp | log | logit | invLogit
  | erf | erfc | logGamma
  deriving DecidableEq, Repr

variable {W R : Type} [Arith R] [Rep W R]

/-- the library function called -/
def Fn.api : Fn → Var → M W Var
  | .pos => posV | .neg => negV | .abs => absV | .sin => sinV | .cos => cosV | .tan => tanV
  | .asin => asinV | .acos => acosV | .atan => atanV | .sinh => sinhV | .cosh => coshV
  | .tanh => tanhV | .asinh => asinhV | .acosh => acoshV | .atanh => atanhV | .sqrt => sqrtV
  | .inv => invV | .square => squareV | .invSquare => invSquareV | .invSqrt => invSqrtV
  | .exp => expV | .log => logV | .logit => logitV | .invLogit => invLogitV | .erf => erfV
  | .erfc => erfcV | .logGamma => logGammaV

/-- operators and functions of two variables -/
def Bin.callVV : Bin → Var → Var → M W Var
  | .add => addVV | .sub => subVV | .mul => mulVV | .div => divVV | .pow => powVV | .hypot => hypotVV
/-- variable and real -/
def Bin.callVD : Bin → Var → R → M W Var
  | .add => addVD | .sub => subVD | .mul => mulVD | .div => divVD | .pow => powVD | .hypot => hypotVD
/-- real and variable -/
def Bin.callDV : Bin → R → Var → M W Var
  | .add => addDV | .sub => subDV | .mul => mulDV | .div => divDV | .pow => powDV | .hypot => hypotDV

/-- log densities -/
def Dist.callVV : Dist → List R → Var → Var → M W Var
  | .normal => normalLpdfVV | .lognormal => lognormalLpdfVV
/-- the same with one real argument -/
def Dist.callVD : Dist → List R → Var → R → M W Var
  | .normal => normalLpdfVD | .lognormal => lognormalLpdfVD
/-- the same with one real argument -/
def Dist.callDV : Dist → List R → R → Var → M W Var
  | .normal => normalLpdfDV | .lognormal => lognormalLpdfDV

/-- calls that create variables -/
inductive Make (R : Type) where
  /-- `var()` -/
  | new0
  /-- `var(d)` -/
  | new (d : R)
  /-- `var(ds)` of an array -/
  | newVals (ds : List R)
  /-- an array of `n` new variables -/
  | newArr (n : Nat)
  | fn (f : Fn) (i : Nat)
  /-- elementwise -/
  | fnArr (f : Fn) (is : List Nat)
  | bin (f : Bin) (i j : Nat)
  /-- elementwise -/
  | binArr (f : Bin) (is js : List Nat)
  | binVD (f : Bin) (i : Nat) (d : R)
  | binDV (f : Bin) (d : R) (i : Nat)
  | sum (is : List Nat)
  | norm2 (is : List Nat)
  | logSumExp (is : List Nat)
  | dotVV (is js : List Nat)
  | dotVD (is : List Nat) (ds : List R)
  | dotDV (ds : List R) (is : List Nat)
  | matmulVV (a b : Matrix' Nat)
  | matmulVD (a : Matrix' Nat) (b : Matrix' R)
  | matmulDV (a : Matrix' R) (b : Matrix' Nat)
  | lpdfVV (d : Dist) (ys : List R) (mu sigma : Nat)
  | lpdfVD (d : Dist) (ys : List R) (mu : Nat) (sigma : R)
  | lpdfDV (d : Dist) (ys : List R) (mu : R) (sigma : Nat)
  /-- `var_with_partials` -/
  | partials (x : R) (is : List Nat) (ds : List R)
  /-- an operation added by the user, with its chain procedure -/
  | user (x : R) (r : URule) (is : List Nat) (ds : List R)

/-- all entries of a matrix of names -/
def Matrix'.list {α : Type} (a : Matrix' α) : List α := (entries a.nrow a.ncol).map fun p => a.get p.1 p.2

/-- the variables used -/
def Make.args : Make R → List Nat
  | .new0 | .new _ | .newVals _ | .newArr _ => []
  | .fn _ i => [i]
  | .fnArr _ is => is
  | .bin _ i j => [i, j]
  | .binArr _ is js => is ++ js
  | .binVD _ i _ => [i]
  | .binDV _ _ i => [i]
  | .sum is | .norm2 is | .logSumExp is => is
  | .dotVV is js => is ++ js
  | .dotVD is _ => is
  | .dotDV _ is => is
  | .matmulVV a b => a.list ++ b.list
  | .matmulVD a _ => a.list
  | .matmulDV _ b => b.list
  | .lpdfVV _ _ m s => [m, s]
  | .lpdfVD _ _ m _ => [m]
  | .lpdfDV _ _ _ s => [s]
  | .partials _ is _ => is
  | .user _ _ is _ => is

/-- the variable with name `i` -/
def nth (env : List Var) (i : Nat) : Var := env.getD i ⟨0⟩

/-- one result -/
def single (m : M W Var) : M W (List Var) := do
  let v ← m
  pure [v]

/-- the call, with the variables of the client -/
def Make.call : Make R → List Var → M W (List Var)
  | .new0, _ => single newVar0
  | .new d, _ => single (newVar d)
  | .newVals ds, _ => newVars ds
  | .newArr n, _ => newVar1d n
  | .fn f i, env => single (f.api (nth env i))
  | .fnArr f is, env => elemental1 f.api (is.map (nth env))
  | .bin f i j, env => single (f.callVV (nth env i) (nth env j))
  | .binArr f is js, env => elemental2 f.callVV (is.map (nth env)) (js.map (nth env))
  | .binVD f i d, env => single (f.callVD (nth env i) d)
  | .binDV f d i, env => single (f.callDV d (nth env i))
  | .sum is, env => single (sumV (is.map (nth env)))
  | .norm2 is, env => single (norm2V (is.map (nth env)))
  | .logSumExp is, env => single (logSumExpV (is.map (nth env)))
  | .dotVV is js, env => single (Fz.dotVV (is.map (nth env)) (js.map (nth env)))
  | .dotVD is ds, env => single (Fz.dotVD (is.map (nth env)) ds)
  | .dotDV ds is, env => single (Fz.dotDV ds (is.map (nth env)))
  | .matmulVV a b, env => Fz.matmulVV ⟨a.nrow, a.ncol, fun i j => nth env (a.get i j)⟩
      ⟨b.nrow, b.ncol, fun i j => nth env (b.get i j)⟩
  | .matmulVD a b, env => Fz.matmulVD ⟨a.nrow, a.ncol, fun i j => nth env (a.get i j)⟩
      ⟨b.nrow, b.ncol, b.get⟩
  | .matmulDV a b, env => Fz.matmulDV ⟨a.nrow, a.ncol, a.get⟩
      ⟨b.nrow, b.ncol, fun i j => nth env (b.get i j)⟩
  | .lpdfVV d ys m s, env => single (d.callVV ys (nth env m) (nth env s))
  | .lpdfVD d ys m s, env => single (d.callVD ys (nth env m) s)
  | .lpdfDV d ys m s, env => single (d.callDV ys m (nth env s))
  | .partials x is ds, env => single (varWithPartials x (is.map (nth env)) ds)
  | .user x r is ds, env => single (userOp x r (is.map (nth env)) ds)

/-- Restrictions: `hypot` with a real zero is left out, it rewrites the chain pointer of an existing
variable (property C17); extents of arrays are default integers. -/
def Make.Sane : Make R → Prop
  | .binVD .hypot _ d => Fz.fne d (Arith.zero : R) = true
  | .binDV .hypot d _ => Fz.fne d (Arith.zero : R) = true
  | .matmulVV a b => a.nrow < 2 ^ 31 ∧ a.ncol < 2 ^ 31 ∧ b.nrow < 2 ^ 31 ∧ b.ncol < 2 ^ 31
  | .matmulVD a b => a.nrow < 2 ^ 31 ∧ a.ncol < 2 ^ 31 ∧ b.nrow < 2 ^ 31 ∧ b.ncol < 2 ^ 31
  | .matmulDV a b => a.nrow < 2 ^ 31 ∧ a.ncol < 2 ^ 31 ∧ b.nrow < 2 ^ 31 ∧ b.ncol < 2 ^ 31
  | _ => True

/-- all calls -/
inductive Call (R : Type) where
  | make (m : Make R)
  /-- `x = d` -/
  | assign (i : Nat) (d : R)
  /-- `x(:) = d(:)` -/
  | assignArr (is : List Nat) (ds : List R)
  /-- `x(:) = d` -/
  | assignAll (is : List Nat) (d : R)
  /-- `call x%grad()` -/
  | grad (i : Nat)
  /-- `call x%grad_nested()` -/
  | gradNested (i : Nat)
  | zeroAll
  | zeroNested
  | begin
  | done

/-- restrictions on calls -/
def Call.Sane : Call R → Prop
  | .make m => m.Sane
  | _ => True

/-- the variables used -/
def Call.args : Call R → List Nat
  | .make m => m.args
  | .assign i _ => [i]
  | .assignArr is _ => is
  | .assignAll is _ => is
  | .grad i => [i]
  | .gradNested i => [i]
  | _ => []

/-- a client: the program state, the variables it may use, and for every open nested region how many
variables it had when the region was begun -/
structure Client (W : Type) where
  st : St W
  env : List Var
  marks : List Nat

/-- the start of the program -/
def Client.init : Client W := ⟨St.init, [], []⟩

/-- calls without results -/
def Client.keep (c : Client W) (m : M W Unit) : Except Err (Client W) :=
  match m c.st with
  | .ok (_, s) => .ok ⟨s, c.env, c.marks⟩
  | .error e => .error e

/-- execution of a call whose variables exist -/
def Call.step : Call R → Client W → Except Err (Client W)
  | .make m, c =>
    match m.call c.env c.st with
    | .ok (vs, s) => .ok ⟨s, c.env ++ vs, c.marks⟩
    | .error e => .error e
  | .assign i d, c => c.keep ((nth c.env i).assign d)
  | .assignArr is ds, c => c.keep (Var.assign1d (is.map (nth c.env)) ds)
  | .assignAll is d, c => c.keep (Var.assign1dFrom0d (is.map (nth c.env)) d)
  | .grad i, c => c.keep (nth c.env i).grad
  | .gradNested i, c => c.keep (nth c.env i).gradNested
  | .zeroAll, c => c.keep setZeroAllAdj
  | .zeroNested, c => c.keep setZeroNestedAdj
  | .begin, c =>
    match beginNested c.st with
    | .ok (_, s) => .ok ⟨s, c.env, c.env.length :: c.marks⟩
    | .error e => .error e
  | .done, c =>
    match endNested c.st with
    | .ok (_, s) => .ok ⟨s, match c.marks with
        | [] => c.env
        | m :: _ => c.env.take m, c.marks.tail⟩
    | .error e => .error e

/-- execution of a call -/
def Call.exec (k : Call R) (c : Client W) : Except Err (Client W) :=
  if ∀ i ∈ k.args, i < c.env.length then k.step c else .error .oob

/-- execution of a history -/
def run : List (Call R) → Client W → Except Err (Client W)
  | [], c => .ok c
  | k :: ks, c => do
    let c ← k.exec c
    run ks c

/-- the state of the client after the history `h`, from the start of the program -/
def Reach (h : List (Call R)) (c : Client W) : Prop :=
  (∀ k ∈ h, k.Sane) ∧ run h (Client.init : Client W) = .ok c

end Spec
