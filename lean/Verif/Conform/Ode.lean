import Verif.Conform.UnitTests
import Verif.Model.LenientOde

/-!
# The unit tests of the ODE part, run on the model

cvodes_rhs_test.F90, cvodes_ysens_rhs_test.F90 and cvodes_psens_rhs_test.F90 call right-hand sides; cvodes_data_test.F90,
cvodes_y0_test.F90 and cvodes_param_test.F90 solve an ODE.  In place of CVODES the solver here is collocation at the five
Gauss points, solved by fixed-point iteration: it asks for right-hand sides and sensitivity right-hand sides as the model
of a solver may.
-/

namespace Fz.Conform
open Fz

/-- the state of a solution with sensitivities: the state vector, then the sensitivity vectors -/
abbrev Vecs := List (List Float)
/-- linear combination -/
def axpy (a : Float) (x y : List Float) : List Float := List.zipWith (fun p q => a * p + q) x y

/-- the Gauss points of [0, 1] -/
def gaussC : List Float :=
  let r := Float.sqrt (10 / 7)
  let a := Float.sqrt (5 - 2 * r) / 3
  let b := Float.sqrt (5 + 2 * r) / 3
  [0.5 - b / 2, 0.5 - a / 2, 0.5, 0.5 + a / 2, 0.5 + b / 2]
/-- the weights of the Gauss points -/
def gaussB : List Float :=
  let s := 13 * Float.sqrt 70
  [(322 - s) / 1800, (322 + s) / 1800, 64 / 225, (322 + s) / 1800, (322 - s) / 1800]
/-- the Lagrange polynomial of point `j` -/
def lagrange (j : Nat) (x : Float) : Float :=
  (List.range 5).foldl (fun p k => if k = j then p else
    p * (x - gaussC.getD k 0) / (gaussC.getD j 0 - gaussC.getD k 0)) 1
/-- the coefficients of the collocation method -/
def gaussA : List (List Float) := gaussC.map fun c =>
  (List.range 5).map fun j => c * fsum (List.zipWith (fun b x => b * lagrange j (c * x)) gaussB gaussC)

/-- asking for the derivative of a state with sensitivities -/
def ask (ns : Nat) (t : Float) (v : Vecs) (k : Vecs → Solving Float (Float × Vecs)) : Solving Float (Float × Vecs) :=
  let y := v.headD []
  .rhs t y fun dy => if ns = 0 then k [dy] else .sens t y v.tail fun ds => k (dy :: ds)

/-- the derivatives at the points, from those of the iteration before -/
def stages (ns : Nat) (t h : Float) (v : Vecs) (old : List Vecs) :
    List (Float × List Float) → List Vecs → (List Vecs → Solving Float (Float × Vecs)) → Solving Float (Float × Vecs)
  | [], acc, k => k acc.reverse
  | (c, a) :: rest, acc, k =>
    let x := (List.zip a old).foldl (fun w (p : Float × Vecs) => List.zipWith (axpy (h * p.1)) p.2 w) v
    ask ns (t + c * h) x fun d => stages ns t h v old rest (d :: acc) k

/-- the iterations -/
def iterate (ns : Nat) (t h : Float) (v : Vecs) :
    Nat → List Vecs → (List Vecs → Solving Float (Float × Vecs)) → Solving Float (Float × Vecs)
  | 0, ks, k => k ks
  | n + 1, ks, k => stages ns t h v ks (List.zip gaussC gaussA) [] fun ks => iterate ns t h v n ks k

/-- `m` steps of size `h` -/
def steps (ns iters : Nat) (h : Float) : Nat → Float → Vecs → Solving Float (Float × Vecs)
  | 0, t, v => .done 0 (v.headD []) v.tail (t, v)
  | m + 1, t, v =>
    let zeros := v.map fun x => x.map fun _ => 0.0
    iterate ns t h v iters (List.replicate 5 zeros) fun ks =>
      let w := (List.zip gaussB ks).foldl (fun w (p : Float × Vecs) => List.zipWith (axpy (h * p.1)) p.2 w) v
      steps ns iters h m (t + h) w

/-- the solver: `m` steps between output times -/
def gaussSolver (ns m iters : Nat) : Solver Float (Float × Vecs) where
  init t y yS := (t, y :: yS)
  step mem t' := steps ns iters ((t' - mem.1) / m.toFloat) m mem.1 mem.2

/-- cvodes_data_test.F90; the right-hand side reads the values of two variables, 0.2 and 0.1 -/
def cvodesDataTest : T Unit := do
  let f (t : Float) (y : List Float) : List Float := [y.getD 1 0, t * y.getD 0 0 * (0.2 + 0.1)]
  let (yt, _) ← call (cvodesSolData (gaussSolver 0 4 8) 0.0 [1.2, 1.8] [1, 2, 3] f)
  eq yt.flatten.length 6
  near (yt.flatten.getD 0 0) 3.105910 2e-5
  near (yt.flatten.getD 1 0) 2.165877 1e-5
  near (yt.flatten.getD 2 0) 6.081948 2e-5
  near (yt.flatten.getD 3 0) 4.230688 2e-5
  near (yt.flatten.getD 4 0) 13.124382 1e-5
  near (yt.flatten.getD 5 0) 11.181090 1e-5
#guard passes 7 cvodesDataTest

/-- cvodes_rhs_test.F90 -/
def cvodesRhsTest : T Unit := do
  let f (t : Float) (y : List Float) : List Float := [y.getD 1 0, t * y.getD 0 0 * (12 + 89)]
  let ode : CvsRhs UInt32 Float := newCvsRhs f
  let (_, fvec, _) ← call (answer ode (.rhs 2.0 [2, 3] fun d => .done 0 d [] ()))
  dblEq (fvec.getD 0 0) 3
#guard passes 1 cvodesRhsTest

/-- cvodes_ysens_rhs_test.F90 -/
def ysensRhsTest : T Unit := do
  let f (t : Float) (y : List Float) : List Float := [y.getD 1 0, (0.3 * t).sin]
  let fy (_ : Float) (y _f : List Var) : M UInt32 (List Var) := do
    let y1 := y.getD 0 ⟨0⟩
    let y2 := y.getD 1 ⟨0⟩
    let a ← mulVV y1 y2
    let b ← mulVV y2 y2
    let b ← mulVV b y1
    pure [a, b]
  let ode : CvsRhs UInt32 Float := newCvsRhsYvar true 2 f fy
  eq ode.ns 2
  let out ← call (setSensRhs ode 2.0 [2, 3] [[1, 0], [0, 1]] fun _ _ => 0)
  dblEq (out 0 0) 3
  dblEq (out 0 1) 9
  dblEq (out 1 0) 2
  dblEq (out 1 1) 12
#guard passes 5 ysensRhsTest

/-- the right-hand side on variables of cvodes_psens_rhs_test.F90 and cvodes_param_test.F90 -/
def sinRhsP (t : Float) (y _f p : List Var) : M UInt32 (List Var) := do
  let a ← mulVV (p.getD 0 ⟨0⟩) (p.getD 1 ⟨0⟩)
  let a ← mulVV a (p.getD 2 ⟨0⟩)
  let a ← mulVD a t
  let a ← sinV a
  pure [y.getD 1 ⟨0⟩, a]

/-- cvodes_psens_rhs_test.F90 -/
def psensRhsTest : T Unit := do
  let omega := 0.3
  let d1 := 4.2
  let d2 := 1.3
  let time := 2.0
  let f (t : Float) (y : List Float) : List Float := [y.getD 1 0, (omega * d1 * d2 * t).sin]
  let p ← varA [omega, d1, d2]
  let pval ← valA p
  let ode : CvsRhs UInt32 Float := newCvsRhsPvar false 3 pval f sinRhsP
  eq ode.ns 3
  let out ← call (setSensRhs ode time [2, 3] [[0, 0], [0, 0], [0, 0]] fun _ _ => 0)
  let c := (omega * d1 * d2 * time).cos
  dblEq (out 0 0) 0
  dblEq (out 0 1) (c * d1 * d2 * time)
  dblEq (out 1 0) 0
  dblEq (out 1 1) (c * omega * d2 * time)
  dblEq (out 2 0) 0
  dblEq (out 2 1) (c * omega * d1 * time)
#guard passes 7 psensRhsTest

/-- cvodes_y0_test.F90.  The derivatives are compared by EXPECT_DBL_EQ there, by EXPECT_FLOAT_EQ here: they are the
solver's, and rounded differently -/
def cvodesY0Test : T Unit := do
  let omega := 0.5
  let ts := [1.2, 2.4, 4.8]
  let f (t : Float) (y : List Float) : List Float := [y.getD 1 0, (omega * t).sin]
  let fy (t : Float) (y f : List Var) : M UInt32 (List Var) := do
    let f2 := f.getD 1 ⟨0⟩
    f2.assign (omega * t).sin
    pure [y.getD 1 ⟨0⟩, f2]
  let y0 ← varA [0.2, 0.8]
  let yt ← call (cvodesSolY0 (gaussSolver 2 1 3) 0.0 y0 ts f fy)
  let sol (t : Float) : List Float :=
    [-(omega * t).sin / omega / omega + (0.8 + 1 / omega) * t + 0.2, -(omega * t).cos / omega + (0.8 + 1 / omega)]
  for (c, t) in List.zip yt ts do floatEq1 (← valA c) (sol t)
  for (c, t) in List.zip yt ts do
    zeroAll
    grad (c.getD 0 ⟨0⟩)
    floatEq1 (← adjA y0) [1, t]
    zeroAll
    grad (c.getD 1 ⟨0⟩)
    floatEq1 (← adjA y0) [0, 1]
#guard passes 9 cvodesY0Test

/-- cvodes_param_test.F90; `solve` is `cvodes_sol` -/
def cvodesParamTest (solve : Float → List Float → List Float → List Var → (Float → List Float → List Float) →
    (Float → List Var → List Var → List Var → M UInt32 (List Var)) → M UInt32 (List (List Var) × List Float)) :
    T Unit := do
  let omega := 0.5
  let a := omega
  let ts := [1.2, 2.4, 4.8]
  let f (t : Float) (y : List Float) : List Float := [y.getD 1 0, (a * t).sin]
  let param ← varA [omega, 1, 1]
  let (yt, _) ← call (solve 0.0 [0.2, 0.8] ts param f sinRhsP)
  let sol (t : Float) : List Float :=
    [-(a * t).sin / a / a + (0.8 + 1 / a) * t + 0.2, -(a * t).cos / a + (0.8 + 1 / a)]
  let gradA (t : Float) : List Float :=
    [2 / (a * a * a) * (a * t).sin - t * (a * t).cos / (a * a) - t / (a * a),
     (a * t).cos / (a * a) + (a * t).sin * t / a - 1 / (a * a)]
  for (c, t) in List.zip yt ts do floatEq1 (← valA c) (sol t)
  for (c, t) in List.zip yt ts do
    for (v, g) in List.zip c (gradA t) do
      zeroAll
      grad v
      floatEq (← call (Var.adj (param.getD 0 ⟨0⟩))) g
      floatEq (← call (Var.adj (param.getD 1 ⟨0⟩))) (omega * g)
      floatEq (← call (Var.adj (param.getD 2 ⟨0⟩))) (omega * g)

/-- whatever lies behind the end of an array -/
def junk : Junk UInt32 Float := fun _ k _ i => 12345.678 * (k.toFloat + 1) + i.toFloat

-- The test passes without checks of array shapes, and ends with an error where they are checked: the second call of the
-- sensitivity right-hand side runs chain procedures left behind by the first (section 5 of DESIGN.md, defects 7 and 11;
-- theorem `C27_times_refuted`).
#guard passes 21 (cvodesParamTest (cvodesSolParL junk (gaussSolver 3 1 3)))
#guard match run (cvodesParamTest (cvodesSolPar (gaussSolver 3 1 3))) with
  | .error e => e == "after check 0: Fz.Err.nonconf"
  | .ok _ => false

end Fz.Conform
