import Verif.Conform.Float

/-!
# The unit tests of /repo/test/unit, run on the model

Statement by statement.  `#guard` runs the program in Lean's interpreter while this file is compiled, and the build fails
when a check of a test fails; the number is the number of checks the test makes.  Not ported: adstack_test.F90 (the module
it tests is not in the library) and debug_test.F90 (no use of the library).
The tests that solve an ODE are in `Conform/Ode.lean`; matmul_test.F90 and alloc_test.F90 run in `Conform/Large.lean`.
-/

namespace Fz.Conform
open Fz

/-- test_test.F90 -/
def testTest : T Unit := do
  near 1 1.001 0.01
  floatEq 1 1
  isTrue true
  eq 1 1
#guard passes 4 testTest

/-- abs_test.F90 -/
def absTest : T Unit := do
  let x ← var 0.3
  let y1 ← call (absV x)
  dblEq (← val y1) 0.3
  grad y1
  dblEq (← adj x) 1
  zeroAll
  let x ← var (-0.3)
  let y2 ← call (absV x)
  dblEq (← val y2) 0.3
  grad y2
  dblEq (← adj x) (-1)
  zeroAll
  let x ← var 0
  let y3 ← call (absV x)
  dblEq (← val y3) 0
  grad y2
  dblEq (← adj x) 0
  zeroAll
  let x ← var Arith.nan
  let y4 ← call (absV x)
  isTrue (isNanD (← val y4))
  grad y4
  isTrue (isNanD (← adj x))
#guard passes 8 absTest

/-- the common part of acos_test.F90, asin_test.F90, atan_test.F90, cos_test.F90, sin_test.F90, sqrt_test.F90 and
tan_test.F90: the function at `x0`, its derivative `f'`; the first sweep is `grad`, or the chain procedure alone -/
def unaryTest (fV : Var → M UInt32 Var) (f f' : Float → Float) (x0 : Float) (sweep : Bool) : T (Var × Var × Var) := do
  let x ← var x0
  let y1 ← call (fV x)
  if sweep then grad y1 else chainAt y1 1
  floatEq (← val y1) (f x0)
  floatEq (← adj y1) 1
  floatEq (← adj x) (f' x0)
  eq (← vhead) 3
  let z1 ← val x
  floatEq (← val y1) (f z1)
  let y3 ← var 1.5
  let y2 ← call (fV y1)
  zeroAll
  floatEq (← adj y1) 0
  floatEq (← adj x) 0
  floatEq (← val y2) (f (f x0))
  let id ← call (do let v ← variAt y2.vi; v.operandIndex)
  eq (id.getD 0 0) (← call y1.viIndex)
  eq (← call (do let v ← variAt y1.vi; v.nOperand)) 1
  eq (← call (do let v ← variAt y3.vi; v.nOperand)) 0
  zeroAll
  chainAt y2 1
  floatEq (← adj y3) 0
  floatEq (← adj x) 0
  floatEq (← adj y2) 1
  floatEq (← adj y1) (f' (f x0))
  pure (x, y1, y2)

#guard passes 15 do let _ ← unaryTest acosV Float.acos (fun x => -1 / Float.sqrt (1 - x * x)) 0.7 true
#guard passes 15 do let _ ← unaryTest asinV Float.asin (fun x => 1 / Float.sqrt (1 - x * x)) 0.7 false
#guard passes 15 do let _ ← unaryTest atanV Float.atan (fun x => 1 / (1 + x * x)) 1.5 true
#guard passes 15 do let _ ← unaryTest cosV Float.cos (fun x => - Float.sin x) 1.4 true
#guard passes 15 do let _ ← unaryTest sqrtV Float.sqrt (fun x => 0.5 / Float.sqrt x) 0.2 true
#guard passes 15 do let _ ← unaryTest tanV Float.tan (fun x => 1 / Float.cos x / Float.cos x) 1.4 true

/-- sin_test.F90 -/
def sinTest : T Unit := do
  let (_, y1, y2) ← unaryTest sinV Float.sin Float.cos 1.4 false
  let z ← call (elemental1 sinV [y1, y2])
  zeroAll
  chainAt (z.getD 0 ⟨0⟩) 1.3
  dblEq (← adj y1) (1.3 * Float.cos (← val y1))
  dblEq (← adj y2) 0
  zeroAll
  dblEq (← adj y1) 0
  chainAt (z.getD 1 ⟨0⟩) 1.3
  dblEq (← adj y1) 0
  dblEq (← adj y2) (1.3 * Float.cos (← val y2))
#guard passes 20 sinTest

/-- exp_test.F90, log_test.F90 -/
def expLogTest (fV : Var → M UInt32 Var) (f f' : Float → Float) (seed : Float) : T Unit := do
  let x ← var 1.5
  let y1 ← call (fV x)
  grad y1
  floatEq (← val y1) (f 1.5)
  floatEq (← adj y1) 1
  floatEq (← adj x) (f' 1.5)
  eq (← vhead) 3
  let z1 ← val x
  floatEq (← val y1) (f z1)
  let y3 ← var 1.5
  let y2 ← call (fV y1)
  zeroAll
  floatEq (← adj y1) 0
  floatEq (← adj x) 0
  floatEq (← val y2) (f (f 1.5))
  chainAt y2 seed
  floatEq (← adj y3) 0
  floatEq (← adj x) 0
  floatEq (← adj y2) seed
  floatEq (← adj y1) (seed * f' (f 1.5))
#guard passes 12 (expLogTest expV Float.exp Float.exp 1)
#guard passes 12 (expLogTest logV Float.log (fun x => 1 / x) 2.5)

/-- add_test.F90 -/
def addTest : T Unit := do
  let z1 := 2.4
  let z2 := 3.9
  let x ← var 1.5
  let x ← call (addVD x z1)
  let y1 := x
  eq (← vhead) 3
  floatEq (← val x) (1.5 + z1)
  chainAt x 0.4
  floatEq (← call (readTape fun t => t.adjAt 1)) (← adj x)
  let y2 ← var 2.6
  let y3 ← call (addVV y2 y1)
  eq (← vhead) 5
  floatEq (← val y3) ((← val y2) + (← val y1))
  chainAt y3 1
  floatEq (← adj y2) 1
  floatEq (← adj y1) 1.4
  zeroAll
  floatEq (← adj y2) 0
  floatEq (← adj y1) 0
  let y4 ← call (do let a ← addVD y1 z1; let b ← addVV a y2; addVD b z2)
  grad y4
  floatEq (← adj y2) 1
  floatEq (← adj y1) 1
  zeroAll
  let y4 ← call (do
    let s ← sinV y1
    let a ← addVD s z1.sin
    let c ← cosV y2
    let b ← addVV a c
    addVD b z2.cos)
  eq (← vhead) 13
  grad y4
  floatEq (← val y4) ((← val y1).sin + z1.sin + (← val y2).cos + z2.cos)
  floatEq (← adj y1) (← val y1).cos
  floatEq (← adj y2) (-(← val y2).sin)
  let y4 ← call (posV y3)
  grad y4
  floatEq (← adj y3) 1
  let q1 ← varA [1.2, 3]
  let q2 ← varA [2.2, 4]
  let q ← call (elemental2 addVV q1 q2)
  zeroAll
  chainAt (q.getD 0 ⟨0⟩) 1.3
  dblEq1 (← adjA q1) [1.3, 0]
  dblEq1 (← adjA q2) [1.3, 0]
  zeroAll
  chainAt (q.getD 1 ⟨0⟩) 1.3
  dblEq1 (← adjA q1) [0, 1.3]
  dblEq1 (← adjA q1) [0, 1.3]
  let x ← var 3
  let y1 ← call (do let a ← addVV x x; let b ← addVV a x; addVV b x)
  zeroAll
  grad y1
  dblEq (← adj x) 4
#guard passes 21 addTest

/-- alloc_test.F90 -/
def allocTest : T Unit := do
  let n := 4100
  let a := (List.range n).map fun i => (i + 1).toFloat
  eq (← call variStackSize) 0
  let x ← varA a
  eq (← call variStackSize) (8 * initVariStackSize)
  eq (← vhead) (n + 1)
  let y ← varA a
  eq (← call variStackSize) (16 * initVariStackSize)
  let _ ← call (dotVV x y)
  eq (← call variStackSize) (16 * initVariStackSize)
  eq (← vhead) (2 * n + 2)

/-- digamma_test.F90 -/
def digammaTest : T Unit := do
  dblEq (digamma (-0.3)) 2.113309779635398718584726
  near (digamma 0.3) (-3.502524222200132988964494) 1e-15
  near (digamma 2.3) 0.6000398803639695751380696 1e-15
  near (digamma 3) 0.9227843350984671393934879 1e-15
  near (digamma 5) 1.5061176684318004727268212 1e-15
  near (digamma 2000) 7.6006524387087495489711445 1e-15
  near (digamma 888000) 13.69672645891113837300161 1e-15
#guard passes 7 digammaTest

/-- div_test.F90 -/
def divTest : T Unit := do
  let z1 := 2.0
  let z2 := 4.5
  let x ← var 1.5
  let x ← call (divVD x z1)
  let x ← call (divDV z2 x)
  eq (← vhead) 4
  floatEq (← call (getIndexedVal 1)) 1.5
  floatEq (← call (getIndexedVal 2)) (1.5 / z1)
  floatEq (← call (getIndexedVal 3)) (z1 * z2 / 1.5)
  floatEq (← val x) (z1 * z2 / 1.5)
  grad x
  floatEq (← call (getIndexedAdj 1)) (-z1 * z2 / (1.5 * 1.5))
  floatEq (← call (getIndexedAdj 2)) (-z2 * z1 * z1 / (1.5 * 1.5))
  floatEq (← call (getIndexedAdj 3)) 1
  let y2 ← var 2.5
  let y1 := x
  let y3 ← call (do let a ← mulVV y1 y2; divVV a y1)
  eq (← vhead) 7
  zeroAll
  grad y3
  floatEq (← adj y2) 1
  floatEq (← adj y1) 0
  let y4 ← call (do
    let a ← mulVD y3 z1
    let b ← divVV y2 y1
    let b ← divVD b z2
    divVV a b)
  zeroAll
  grad y4
  floatEq (← adj y1) (z1 * z2)
  floatEq (← adj y2) 0
  floatEq (← adj y3) (z1 * z2 * (← val y1) / (← val y2))
  let y1 ← call (divVV x x)
  zeroAll
  grad y1
  floatEq (← adj x) 0
#guard passes 15 divTest

/-- dot_product_test.F90 -/
def dotTest : T Unit := do
  let a : List Float := [1, 47, 3, 53]
  let x ← varA [1, 2, 3, 4]
  let y ← varA [4, 3, 2, 1]
  let z ← call (dotVV x y)
  dblEq (← val z) 20
  chainAt z 2.5
  dblEq (← adj z) 2.5
  for (v, d) in List.zip x [4.0, 3, 2, 1] do dblEq (← adj v) (2.5 * d)
  for (v, d) in List.zip y [1.0, 2, 3, 4] do dblEq (← adj v) (2.5 * d)
  zeroAll
  let z ← call (dotDV a x)
  dblEq (← val z) (fdot (← valA x) a)
  chainAt z 2.5
  dblEq (← adj z) 2.5
  eq (← call (do let v ← variAt z.vi; v.nOperand)) 4
  for (v, d) in List.zip x a do dblEq (← adj v) (2.5 * d)
  zeroAll
  let z ← call (dotVD y a)
  dblEq (← val z) (fdot (← valA y) a)
  chainAt z 2.5
  dblEq (← adj z) 2.5
  eq (← call (do let v ← variAt z.vi; v.nOperand)) 4
  for (v, d) in List.zip y a do dblEq (← adj v) (2.5 * d)
  let z ← call (dotVV x x)
  zeroAll
  grad z
  dblEq1 (← adjA x) ((← valA x).map (2 * ·))
  let p ← var 0.5
  let x := [p, p, p, p]
  let z ← call (dotVV x x)
  zeroAll
  grad z
  dblEq (← adj p) (8 * (← val p))
  let z ← call (dotVD x a)
  zeroAll
  grad z
  dblEq (← adj p) (fsum a)
  dblEq (fdot a a) 5028
#guard passes 28 dotTest

/-- erf_test.F90 -/
def erfTest : T Unit := do
  let pi := piC (R := Float)
  let x ← var (-0.3)
  let y1 ← call (erfV x)
  dblEq (← val y1) (-0.3286267594591274)
  grad y1
  dblEq (← adj x) (2 / pi.sqrt * (-0.09 : Float).exp)
  zeroAll
  let y1 ← call (erfcV x)
  dblEq (← val y1) 1.3286267594591274
  grad y1
  dblEq (← adj x) (-(2 / pi.sqrt * (-0.09 : Float).exp))
  let x ← var 0
  let y2 ← call (erfV x)
  dblEq (← val y2) 0
  call (x.assign (-100.0))
  let y3 ← call (erfV x)
  dblEq (← val y3) (-1)
#guard passes 6 erfTest

/-- grad_test.F90, the function `f` -/
def gradF (x : List Var) : M UInt32 Var := do
  let pi := piC (R := Float)
  let y := 1.3
  let mu := x.getD 0 ⟨0⟩
  let sigma := x.getD 1 ⟨0⟩
  let l ← logV sigma
  let a ← subDV (-0.5 * (2 * pi).log) l
  let d ← subDV y mu
  let q ← divVV d sigma
  let p ← powVD q 2.0
  let h ← mulDV 0.5 p
  subVV a h

/-- grad_test.F90 -/
def gradTest : T Unit := do
  let pi := piC (R := Float)
  let (fx, df) ← call (gradient gradF [0.5, 1.2])
  dblEq fx (-0.5 * (2 * pi).log - (1.2 : Float).log - 0.5 * ((1.3 - 0.5) / 1.2).pow 2)
  dblEq (df.getD 0 0) ((1.3 - 0.5) / (1.2 * 1.2))
  dblEq (df.getD 1 0) (-1 / 1.2 + (1.3 - 0.5) * (1.3 - 0.5) / (1.2 * 1.2 * 1.2))
#guard passes 3 gradTest

/-- hyperbolic_test.F90 -/
def hyperbolicTest : T Unit := do
  let two : Float := 2
  let x ← var 2
  let y ← call (sinhV x)
  dblEq (← val y) two.sinh
  grad y
  dblEq (← adj x) two.cosh
  zeroAll
  let y ← call (coshV x)
  dblEq (← val y) two.cosh
  grad y
  dblEq (← adj x) two.sinh
  zeroAll
  let y ← call (tanhV x)
  dblEq (← val y) two.tanh
  grad y
  dblEq (← adj x) (1 / two.cosh / two.cosh)
  zeroAll
  let y ← call (asinhV x)
  dblEq (← val y) two.asinh
  grad y
  dblEq (← adj x) (1 / Float.sqrt 5)
  zeroAll
  let y ← call (acoshV x)
  dblEq (← val y) two.acosh
  grad y
  dblEq (← adj x) (1 / Float.sqrt 3)
  zeroAll
  call (x.assign (1 / two.sqrt))
  let y ← call (atanhV x)
  dblEq (← val y) (1 / two.sqrt).atanh
  grad y
  dblEq (← adj x) 2
#guard passes 12 hyperbolicTest

/-- hypot_test.F90 -/
def hypotTest : T Unit := do
  let y ← varA [3, 4]
  let y1 := y.getD 0 ⟨0⟩
  let y2 := y.getD 1 ⟨0⟩
  let x ← call (hypotVV y1 y2)
  dblEq (← val x) 5
  grad x
  dblEq1 (← adjA y) [3 / 5, 4 / 5]
  zeroAll
  let x ← call (hypotVD y1 4.0)
  dblEq (← val x) 5
  grad x
  dblEq1 (← adjA y) [3 / 5, 0]
  zeroAll
  let x ← call (hypotDV 3.0 y2)
  dblEq (← val x) 5
  grad x
  dblEq1 (← adjA y) [0, 4 / 5]
#guard passes 6 hypotTest

/-- inv_logit_test.F90 -/
def invLogitTest : T Unit := do
  for a in [0.6, -1.2] do
    let x ← var a
    let y1 ← call (invLogitV x)
    let y2 ← call (do
      let e ← expV x
      let e' ← expV x
      let d ← addDV 1.0 e'
      divVV e d)
    dblEq (← val y1) (a.exp / (1 + a.exp))
    dblEq (← val y2) (a.exp / (1 + a.exp))
    grad y1
    dblEq (← adj x) (a.exp / ((1 + a.exp) * (1 + a.exp)))
    zeroAll
    grad y2
    dblEq (← adj x) (a.exp / ((1 + a.exp) * (1 + a.exp)))
#guard passes 8 invLogitTest

/-- log_gamma_test.F90 -/
def logGammaTest : T Unit := do
  let x ← var 0.6
  let y1 ← call (logGammaV x)
  dblEq (← val y1) (logGammaF 0.6)
  grad y1
  dblEq (← adj x) (digamma 0.6)
#guard passes 2 logGammaTest

/-- log_sum_exp_test.F90 -/
def logSumExpTest : T Unit := do
  let z : List Float := [1, 7, 3, 5]
  let s0 := fsum (z.map Float.exp)
  let lseZ := s0.log
  let x ← varA z
  let s ← call (logSumExpV x)
  dblEq (← val s) lseZ
  grad s
  for (v, d) in List.zip x z do dblEq (← adj v) (d.exp / s0)
  let s ← call (do let e ← elemental1 expV x; let t ← sumV e; logV t)
  dblEq (← val s) lseZ
  zeroAll
  grad s
  for (v, d) in List.zip x z do dblEq (← adj v) (d.exp / s0)
  let z : List Float := [1, 7, 1e8, 5]
  let x ← varA z
  let s ← call (logSumExpV x)
  dblEq (← val s) 1e8
  zeroAll
  grad s
  for (v, d) in List.zip x z do dblEq (← adj v) (d - logSumExpD z).exp
#guard passes 15 logSumExpTest

/-- logit_test.F90 -/
def logitTest : T Unit := do
  let x ← var 0.6
  let y1 ← call (logitV x)
  let y2 ← call (do let d ← subDV 1.0 x; let q ← divVV x d; logV q)
  dblEq (← val y1) (0.6 / 0.4 : Float).log
  dblEq (← val y2) (0.6 / 0.4 : Float).log
  grad y1
  dblEq (← adj x) (1 / (0.6 - 0.36))
  zeroAll
  grad y2
  dblEq (← adj x) (1 / (0.6 - 0.36))
#guard passes 4 logitTest

/-- a matrix given in array element order -/
def reshape (m n : Nat) (l : List Float) : Mat Float := ⟨m, n, fun i j => l.getD (j * m + i) 0⟩
/-- `var(a)` of a matrix -/
def varM (a : Mat Float) : T (Mat Var) := do
  let l ← varA a.flat
  pure ⟨a.nrow, a.ncol, fun i j => l.getD (j * a.nrow + i) ⟨0⟩⟩

/-- matmul_test.F90 -/
def matmulTest : T Unit := do
  let a := reshape 4 2 [1, 47, 3, 53, 21, 7, 3, 3]
  let b := reshape 2 5 [1, 47, 3, 53, 21, 7, 3, 3, 3.2, 8]
  let c := reshape 3 4 [1, 47, 3, 53, 21, 7, 3, 3, 3.2, 8, 2, 42]
  let x ← varM a
  let y ← varM b
  let z ← call (matmulVV x y)
  eq (← vhead) 39
  dblEq1 (← valA z) ((matPairs 4 5).map fun p => matmulD a b p.1 p.2)
  for (v, (i, j)) in List.zip z (matPairs 4 5) do
    zeroAll
    grad v
    dblEq1 (← adjA (x.row i)) (b.col j)
    dblEq1 (← adjA (y.col j)) (a.row i)
  for (v, (i, j)) in List.zip z (matPairs 4 5) do
    zeroAll
    chainAt v 2.5
    dblEq1 (← adjA (x.row i)) ((b.col j).map (2.5 * ·))
    dblEq1 (← adjA (y.col j)) ((a.row i).map (2.5 * ·))
  let z ← call (matmulVD x b)
  dblEq1 (← valA z) ((matPairs 4 5).map fun p => matmulD a b p.1 p.2)
  for (v, (i, j)) in List.zip z (matPairs 4 5) do
    zeroAll
    chainAt v 2.5
    dblEq1 (← adjA (x.row i)) ((b.col j).map (2.5 * ·))
  let q ← call (matmulDV c x)
  dblEq1 (← valA q) ((matPairs 3 2).map fun p => matmulD c a p.1 p.2)
  for (v, (i, j)) in List.zip q (matPairs 3 2) do
    zeroAll
    grad v
    dblEq1 (← adjA (x.col j)) (c.row i)

/-- mul_test.F90 -/
def mulTest : T Unit := do
  let z1 := 2.0
  let z2 := 3.9
  let x ← var 1.5
  let x ← call (mulVD x z1)
  let x ← call (mulDV z2 x)
  eq (← vhead) 4
  floatEq (← val x) (1.5 * z1 * z2)
  grad x
  dblEq (← call (getIndexedAdj 3)) 1
  dblEq (← call (getIndexedAdj 2)) z2
  dblEq (← call (getIndexedAdj 1)) (z1 * z2)
  let y2 ← var 2.6
  let y1 := x
  let y3 ← call (mulVV y2 y1)
  eq (← vhead) 6
  dblEq (← val y3) (2.6 * (← val x))
  zeroAll
  chainAt y3 2.5
  dblEq (← adj y2) (2.5 * (← val y1))
  dblEq (← adj y1) (2.5 * (← val y2))
  dblEq (← adj x) (2.5 * (← val y2))
  let y4 ← call (do let a ← mulVV y3 y2; let b ← mulVV y1 y2; addVV a b)
  zeroAll
  grad y4
  dblEq (← adj y3) (← val y2)
  dblEq (← adj y2) (2 * (← val y2) * (← val y1) + (← val y1))
  dblEq (← adj y1) ((← val y2) + (← val y2) * (← val y2))
  let q1 ← varA [1.2, 3]
  let q2 ← varA [2.2, 4]
  let q ← call (elemental2 mulVV q1 q2)
  zeroAll
  grad (q.getD 0 ⟨0⟩)
  dblEq1 (← adjA q1) [(← val (q2.getD 0 ⟨0⟩)), 0]
  dblEq1 (← adjA q2) [(← val (q1.getD 0 ⟨0⟩)), 0]
  zeroAll
  grad (q.getD 1 ⟨0⟩)
  dblEq1 (← adjA q1) [0, (← val (q2.getD 1 ⟨0⟩))]
  dblEq1 (← adjA q2) [0, (← val (q1.getD 1 ⟨0⟩))]
  let q ← call (elemental2 mulDV [2.0, 2.0] q1)
  dblEq1 (← valA q) [2 * 1.2, 2 * 3]
  let q ← call (elemental2 mulVD q1 [3.4, 3.4])
  dblEq1 (← valA q) [3.4 * 1.2, 3.4 * 3]
  zeroAll
  chainAt (q.getD 1 ⟨0⟩) 1
  dblEq1 (← adjA q1) [0, 3.4]
  dblEq1 (← adjA q2) [0, 0]
  let x ← var 3
  let y1 ← call (do let a ← mulVV x x; let b ← mulVV a x; mulVV b x)
  zeroAll
  grad y1
  dblEq (← adj x) 108
#guard passes 22 mulTest

/-- nest_test.F90 -/
def nestTest : T Unit := do
  call beginNested
  let y ← varA [2, 3]
  let _ ← varA [0, 0]
  let y1 := y.getD 0 ⟨0⟩
  let y2 := y.getD 1 ⟨0⟩
  let f1 ← call (mulVV y1 y2)
  let f2 ← call (do let a ← mulVV y2 y2; mulVV a y1)
  call setZeroNestedAdj
  grad f1
  dblEq1 (← adjA y) [3, 2]
  call setZeroNestedAdj
  grad f2
  dblEq1 (← adjA y) [9, 12]
  call endNested
  eq (← thead) 1
  let v ← varA [1, 2, 3]
  eq (← thead) 19
  call beginNested
  eq (← thead) 19
  let u ← varA [1, 2, 3, 4]
  eq (← thead) 43
  call beginNested
  eq (← thead) 43
  let b ← var 443
  let a ← var 232
  eq (← thead) 55
  call endNested
  eq (← thead) 43
  dblEq (← val a) 0
  dblEq (← val b) 0
  call endNested
  eq (← thead) 19
  dblEq1 (← valA u) [0, 0, 0, 0]
  dblEq1 (← valA v) [1, 2, 3]
  call endNested
  eq (← thead) 19
  dblEq1 (← valA v) [1, 2, 3]
#guard passes 16 nestTest

/-- norm2_test.F90 -/
def norm2Test : T Unit := do
  let z1 : List Float := [1, 47, 3, 53]
  let x ← varA z1
  let s ← call (norm2V x)
  dblEq (← val s) (fnorm2 z1)
  grad s
  dblEq (← adj s) 1
  dblEq1 (← adjA x) (z1.map (· / fnorm2 z1))
#guard passes 3 norm2Test

/-- pow_test.F90 -/
def powTest : T Unit := do
  let x ← var 2
  let y ← call (powVD x 3.0)
  dblEq (← val y) 8
  grad y
  dblEq (← adj x) 12
  for (a, d) in [(2.0, 4.0), (1, 1), (-1, -0.25), (-2, -2 / 8)] do
    let y ← call (powVD x a)
    zeroAll
    grad y
    dblEq (← adj x) d
  let y ← call (powDV 3.0 x)
  zeroAll
  grad y
  dblEq (← adj x) ((3 : Float).log * 9)
  let z ← var 3
  let y ← call (powVV z x)
  zeroAll
  grad y
  dblEq (← adj z) (2 * 3)
  dblEq (← adj x) ((3 : Float).log * 9)
#guard passes 9 powTest

/-- rel_test.F90 -/
def relTest : T Unit := do
  let y1 ← var 3
  let y2 := y1
  let y3 ← var 4
  let y4 ← var 4.1
  isTrue (← call (relVV .eq y1 y2))
  isTrue (← call (relVV .gt y3 y2))
  isTrue (← call (relVV .ge y3 y2))
  isTrue (← call (relVV .ge y1 y2))
  isTrue (← call (relVV .le y1 y2))
  isTrue (← call (relVV .gt y4 y3))
  isTrue (← call (relVV .lt y1 y4))
  isTrue (!(← call (relVV .lt y4 y3)))
#guard passes 8 relTest

/-- sub_test.F90 -/
def subTest : T Unit := do
  let z1 := 2.4
  let z2 := 3.9
  let x ← var 1.5
  let x ← call (subVD x z1)
  let y1 := x
  eq (← vhead) 3
  floatEq (← val y1) (1.5 - z1)
  chainAt y1 0.4
  floatEq 0.4 (← adj x)
  floatEq 0.4 (← adj y1)
  let y2 ← var 2.6
  let y3 ← call (subVV y2 y1)
  eq (← vhead) 5
  floatEq (← val y3) ((← val y2) - (← val y1))
  zeroAll
  chainAt y3 1
  floatEq (← adj y2) 1
  floatEq (← adj y1) (-1)
  let y4 ← call (do let a ← subVD y1 z1; let b ← subVV a y2; subVD b z2)
  eq (← vhead) 8
  zeroAll
  grad y4
  floatEq (← adj y1) 1
  floatEq (← adj y2) (-1)
  zeroAll
  let y4 ← call (do
    let s ← sinV y1
    let a ← subVD s z1.sin
    let c ← cosV y2
    let b ← subVV a c
    addVD b z2.cos)
  eq (← vhead) 13
  zeroAll
  grad y4
  floatEq (← val y4) ((← val y1).sin - z1.sin - (← val y2).cos + z2.cos)
  floatEq (← adj y1) (← val y1).cos
  floatEq (← adj y2) (← val y2).sin
  let y4 ← call (negV y3)
  zeroAll
  grad y4
  floatEq (← adj y3) (-1)
  let y4 ← call (subVV y2 y2)
  zeroAll
  grad y4
  floatEq (← adj y2) 0
  let y4 ← call (do let a ← subVV y2 y2; subVV a y2)
  zeroAll
  grad y4
  floatEq (← adj y2) (-1)
#guard passes 18 subTest

/-- sum_test.F90 -/
def sumTest : T Unit := do
  let z1 : List Float := [1, 47, 3, 53]
  let x ← varA z1
  let s ← call (sumV x)
  dblEq (← val s) (fsum z1)
  grad s
  dblEq (← adj s) 1
  for v in x do dblEq (← adj v) 1
  let w ← varA ((← valA x) ++ [1])
  let s ← call (sumV w)
  eq (← vhead) 12
  zeroAll
  grad s
  for i in [6, 7, 8, 9, 10, 11] do dblEq (← call (getIndexedAdj i)) 1
  for i in [1, 2, 3, 4, 5] do dblEq (← call (getIndexedAdj i)) 0
  let a ← var 3
  let b ← var 3
  let s ← call (sumV [a, a, a, b])
  zeroAll
  grad s
  dblEq (← adj a) 3
#guard passes 19 sumTest

/-- a procedure of tape.F90 called on a tape of the test's own -/
def onTape {α : Type} (f : Tape UInt32 → Except Err (α × Tape UInt32)) : T α := call fun s =>
  match f s.tape with
  | .ok (a, t) => .ok (a, { s with tape := t })
  | .error e => .error e
/-- a function of tape.F90 called on a tape of the test's own -/
def ofTape {α : Type} (f : Tape UInt32 → Except Err α) : T α := call (readTape f)

/-- tape_test.F90 -/
def tapeTest : T Unit := do
  let _ ← onTape fun t => t.push1
  eq (← thead) (minRecSize + 1)
  let _ ← onTape fun t => t.pushVal 1.2
  eq (← thead) (2 * minRecSize + 1)
  let _ ← onTape fun t => t.pushVal 4.2
  dblEq (← ofTape fun t => t.valAt 1) 0
  dblEq (← ofTape fun t => t.valAt 7) 1.2
  dblEq (← ofTape fun t => t.valAt 13) 4.2
  let i ← onTape fun t => t.pushValOp 3.4 [1, 7, 13]
  eq (← thead) (4 * minRecSize + 3 + 1)
  let op4 ← ofTape fun t => t.operandVal i
  dblEq1 op4 [0, 1.2, 4.2]
  let i ← onTape fun t => t.pushVal 342.8
  eq (← thead) (i + minRecSize)
  call (modTape fun t => t.setAdjAt 13 (-1.0))
  dblEq (← ofTape fun t => t.adjAt 13) (-1)
  let i ← onTape fun t => t.pushValDop 32.0 [2.0, 3.2]
  eq (← thead) (i + minRecSize + 2 * 2)
  dblEq1 (← ofTape fun t => t.dataOperand i) [2, 3.2]
  let i ← onTape fun t => t.pushValOpDop 33.0 [1, 7, 13, 19] [2.0, 1.4, 3.2]
  call (modTape fun t => t.setAdjAt 13 2.2)
  call (modTape fun t => t.setAdjAt 19 2.4)
  dblEq1 (← ofTape fun t => t.operandVal i) [0, 1.2, 4.2, 3.4]
  dblEq1 (← ofTape fun t => t.operandAdj i) [0, 0, 2.2, 2.4]
  dblEq1 (← ofTape fun t => t.dataOperand i) [2, 1.4, 3.2]
#guard passes 14 tapeTest

/-- var_grad_test.F90 -/
def varGradTest : T Unit := do
  let pi := piC (R := Float)
  let y := 1.3
  let mu ← var 0.5
  let sigma ← var 1.2
  let f ← var (-0.5 * (2 * pi).log)
  let f ← call (do let l ← logV sigma; subVV f l)
  let f ← call (do
    let d ← subDV y mu
    let q ← divVV d sigma
    let p ← powVD q 2.0
    let h ← mulDV 0.5 p
    subVV f h)
  grad f
  dblEq (← val f) (-0.5 * (2 * pi).log - (1.2 : Float).log - 0.5 * ((1.3 - 0.5) / 1.2).pow 2)
  dblEq (← adj mu) ((1.3 - 0.5) / (1.2 * 1.2))
  dblEq (← adj sigma) (-1 / 1.2 + (1.3 - 0.5) * (1.3 - 0.5) / (1.2 * 1.2 * 1.2))
#guard passes 3 varGradTest

/-- var_test.F90 -/
def varTest : T Unit := do
  let z : List Float := [1.2, 2.2, 5.2]
  let a : List Float := [1.2, 2.2, 5.2, 1.3, 2.3, 5.3]
  let y1 ← call newVar0
  eq (← vhead) 2
  let y2 ← var 2.5
  dblEq (← val y2) 2.5
  eq (← vhead) 3
  let y3 ← var 5.5
  floatEq (← val y1) 0
  floatEq (← val y2) 2.5
  floatEq (← val y3) 5.5
  eq (← vhead) 4
  call (y3.assign 9.4)
  floatEq (← val y1) 0
  floatEq (← val y2) 2.5
  floatEq (← val y3) 9.4
  eq (← call y3.viIndex) 13
  eq (← vhead) 4
  call (y2.assign 9.2)
  floatEq (← val y1) 0
  floatEq (← val y2) 9.2
  floatEq (← val y3) 9.4
  eq (← call y2.viIndex) 7
  eq (← call y3.viIndex) 13
  eq (← vhead) 4
  let y2 := y3
  floatEq (← val y2) (← val y3)
  let y4 := y3
  floatEq (← val y4) (← val y3)
  eq (← vhead) 4
  let y5 ← varA z
  for (v, d) in List.zip y5 z do dblEq (← val v) d
  eq (← vhead) 7
  let y6 ← varA a
  for (v, d) in List.zip y6 a do dblEq (← val v) d
  eq (← vhead) 13
  let y2 ← call (newVarOp 2.5 y5)
  dblEq1 (← call (do let v ← variAt y2.vi; v.operandVal)) (← valA y5)
#guard passes 33 varTest

/-- vari_test.F90 -/
def variTest : T Unit := do
  let y1 ← call (do variAt (← newVari0))
  dblEq (← call y1.val) 0
  let y2 ← call (do variAt (← newVariVal 2.5))
  dblEq (← call y2.val) 2.5
  let y3 ← call (do variAt (← newVariValOp 2.9 [y1.i, y2.i]))
  dblEq1 (← call y3.operandVal) [0, 2.5]
  let y4 ← call (do variAt (← newVariValOpDop 3.9 [y3.i, y2.i, y1.i] [0.3, 2.3]))
  let ops ← call y4.operandIndex
  eq (ops.getD 0 0) 13
  eq (ops.getD 1 0) 7
  eq (ops.getD 2 0) 1
  dblEq1 (← call y4.dataOperand) [0.3, 2.3]
  eq (← vhead) 5
  let y4 := y3
  eq (← vhead) 5
  dblEq (← call y4.val) 2.9
  dblEq (← call y3.adj) 0
  call y4.initDependent
  dblEq (← call y3.adj) 1
#guard passes 12 variTest

/-- prob/normal_lpdf_test.F90 -/
def normalLpdfTest : T Unit := do
  let y := [0.8, -0.7]
  let mu ← var 1.1
  let sigma ← var 2.3
  let lp1 ← call (normalLpdfVV [0.8] mu sigma)
  dblEq (← val lp1) (-1.7603542723968655)
  let lp2 ← call (normalLpdfVV [-0.7] mu sigma)
  dblEq (← val lp2) (-2.0580858413949752)
  let lp3 ← call (normalLpdfVV y mu sigma)
  dblEq (← val lp3) ((← val lp1) + (← val lp2))
  grad lp1
  dblEq (← adj mu) (-0.056710775047259)
  dblEq (← adj sigma) (-0.427385551080792)
  zeroAll
  grad lp3
  dblEq (← adj mu) (-0.396975425330813)
  dblEq (← adj sigma) (-0.595874085641489)
  let lp4 ← call (do normalLpdfVD y mu (← sigma.val))
  dblEq (← val lp4) ((← val lp1) + (← val lp2))
  zeroAll
  grad lp4
  dblEq (← adj mu) (-0.396975425330813)
  let lp4 ← call (do normalLpdfDV y (← mu.val) sigma)
  dblEq (← val lp4) ((← val lp1) + (← val lp2))
  zeroAll
  grad lp4
  dblEq (← adj sigma) (-0.595874085641489)
#guard passes 11 normalLpdfTest

/-- prob/lognormal_lpdf_test.F90 -/
def lognormalLpdfTest : T Unit := do
  let y := [0.8, 1.7]
  let mu ← var 1.1
  let sigma ← var 2.3
  let lp1 ← call (lognormalLpdfVV [0.8] mu sigma)
  dblEq (← val lp1) (-1.6941775317995158)
  let lp2 ← call (lognormalLpdfVV [1.7] mu sigma)
  dblEq (← val lp2) (-2.3131171348473649)
  let lp3 ← call (lognormalLpdfVV y mu sigma)
  dblEq (← val lp3) ((← val lp1) + (← val lp2))
  zeroAll
  grad lp3
  dblEq (← adj mu) (-0.357753364886964)
  dblEq (← adj sigma) (-0.699030735113594)
  let lp4 ← call (do lognormalLpdfVD y mu (← sigma.val))
  dblEq (← val lp4) ((← val lp1) + (← val lp2))
  zeroAll
  grad lp4
  dblEq (← adj mu) (-0.357753364886964)
  let lp4 ← call (do lognormalLpdfDV y (← mu.val) sigma)
  dblEq (← val lp4) ((← val lp1) + (← val lp2))
  zeroAll
  grad lp4
  dblEq (← adj sigma) (-0.699030735113594)
#guard passes 9 lognormalLpdfTest

end Fz.Conform
