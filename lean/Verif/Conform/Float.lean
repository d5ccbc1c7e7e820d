import Verif.Model.Cvodes
import Verif.Model.Prob
import Verif.Model.Check
import Verif.Model.Rest

/-!
# Running the model on IEEE doubles

A reading of the model in Lean's compiled `Float`, used only to run the unit tests of /repo/test/unit on the model
(`Conform/*.lean`).  No theorem depends on it: it is a check of the model against the expectations of the authors of the
library, not a proof.  `erf`, `erfc` and `log_gamma`, which `Float` lacks, are series good enough for the tests.
-/

namespace Fz.Conform
open Fz

/-- `erf` by its Taylor series, for small arguments; `1` and `-1` for large ones -/
def erfF (x : Float) : Float :=
  if x > 6 then 1 else if x < -6 then -1 else
  let rec go : Nat → Float → Float → Float → Float
    | 0, _, _, s => s
    | n + 1, k, t, s =>
      let t := -t * x * x / k
      go n (k + 1) t (s + t / (2 * k + 1))
  2 / Float.sqrt (4 * Float.atan 1) * go 80 1 x x

/-- `log_gamma` for positive arguments: shifted Stirling series -/
def logGammaF (x : Float) : Float :=
  let rec shift : Nat → Float → Float → Float
    | 0, x, s =>
      s + (x - 0.5) * x.log - x + 0.5 * (8 * Float.atan 1).log + 1 / (12 * x) - 1 / (360 * x * x * x)
        + 1 / (1260 * x * x * x * x * x)
    | n + 1, x, s => shift n (x + 1) (s - x.log)
  shift 20 x 0

instance : Arith Float where
  zero := 0
  one := 1
  two := 2
  half := 0.5
  lit m e := if m < 0 then -Float.ofScientific m.natAbs (e < 0) e.natAbs else Float.ofScientific m.natAbs (e < 0) e.natAbs
  add := Float.add
  sub := Float.sub
  mul := Float.mul
  div := Float.div
  neg := Float.neg
  pow := Float.pow
  feq a b := a == b
  flt a b := a < b
  fle a b := a ≤ b
  nan := 0 / 0
  huge := 1.7976931348623157e308
  fabs := Float.abs
  sqrt := Float.sqrt
  sin := Float.sin
  cos := Float.cos
  tan := Float.tan
  asin := Float.asin
  acos := Float.acos
  atan := Float.atan
  sinh := Float.sinh
  cosh := Float.cosh
  tanh := Float.tanh
  asinh := Float.asinh
  acosh := Float.acosh
  atanh := Float.atanh
  exp := Float.exp
  log := Float.log
  erf := erfF
  erfc x := 1 - erfF x
  hypot a b := Float.sqrt (a * a + b * b)
  logGamma := logGammaF
  trunc x := x.toInt64.toInt
  ofInt := Float.ofInt
  tiny := 2.2250738585072014e-308
  sumOf l := l.foldl (· + ·) 0
  dotOf a b := (List.zipWith (· * ·) a b).foldl (· + ·) 0
  norm2Of a := Float.sqrt ((List.zipWith (· * ·) a a).foldl (· + ·) 0)
  mulOf a b := (List.zipWith (· * ·) a b).foldl (· + ·) 0

instance : Rep UInt32 Float where
  lo x := x.toBits.toUInt32
  hi x := (x.toBits >>> 32).toUInt32
  join a b := Float.ofBits (b.toUInt64 <<< 32 ||| a.toUInt64)
  ofNat n := n.toUInt32
  toNat w := w.toNat

/-- a unit test: calls of the model and checks; the state has the number of checks passed so far, the error tells it -/
abbrev T := StateT (Nat × St UInt32) (Except String)

/-- a procedure of the library called by a test -/
def call {α : Type} (m : M UInt32 α) : T α := fun (k, s) =>
  match m s with
  | .ok (a, s) => .ok (a, (k, s))
  | .error e => .error s!"after check {k}: {repr e}"

/-- a check of test.F90 -/
def check (c : Check) : T Unit := fun (k, s) =>
  match c with
  | .pass => .ok ((), (k + 1, s))
  | c => .error s!"check {k + 1}: {repr c}"

/-- EXPECT_DBL_EQ -/
def dblEq (a b : Float) : T Unit := check (expectDblEq0 a b)
/-- EXPECT_DBL_EQ on arrays -/
def dblEq1 (a b : List Float) : T Unit := check (expectDblEq1 a b)
/-- EXPECT_FLOAT_EQ -/
def floatEq (a b : Float) : T Unit := check (expectFloatEq0 a b)
/-- EXPECT_FLOAT_EQ on arrays -/
def floatEq1 (a b : List Float) : T Unit := check (expectFloatEq1 a b)
/-- EXPECT_EQ -/
def eq (a b : Int) : T Unit := check (expectEq a b)
/-- EXPECT_TRUE -/
def isTrue (a : Bool) : T Unit := check (expectTrue a)
/-- EXPECT_NEAR -/
def near (a b tol : Float) : T Unit := check (expectNear a b tol)

/-- `callstack%head` -/
def vhead : T Nat := do return (← get).2.vhead
/-- `callstack%stack%head` -/
def thead : T Nat := do return (← get).2.tape.head
/-- `x%val()` -/
def val (x : Var) : T Float := call x.val
/-- `x%adj()` -/
def adj (x : Var) : T Float := call x.adj
/-- `val` of an array -/
def valA (x : List Var) : T (List Float) := call (vals x)
/-- `adj` of an array -/
def adjA (x : List Var) : T (List Float) := call (adjs x)
/-- `x%grad()` -/
def grad (x : Var) : T Unit := call x.grad
/-- `set_zero_all_adj()` -/
def zeroAll : T Unit := call setZeroAllAdj
/-- `var(d)` -/
def var (d : Float) : T Var := call (newVar d)
/-- `var(a)` of an array -/
def varA (d : List Float) : T (List Var) := call (newVars d)
/-- `vp => vari_at(y%vi); call vp%set_adj(d); call vp%chain()` -/
def chainAt (y : Var) (d : Float) : T Unit := call do
  setIndexedAdj y.vi d
  let v ← variAt y.vi
  runChain v

/-- the outcome of a test program started in the initial state: the number of checks that passed -/
def run (t : T Unit) : Except String Nat := (t (0, St.init)).map fun r => r.2.1
/-- the test program ends normally after `n` checks -/
def passes (n : Nat) (t : T Unit) : Bool := match run t with
  | .ok k => k == n
  | .error _ => false

end Fz.Conform
