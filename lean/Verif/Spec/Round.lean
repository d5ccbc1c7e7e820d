import Verif.Model.RealArith
import Verif.Spec.Textbook
import Verif.Spec.Sums

/-!
# Rounded arithmetic

The standard model of floating-point arithmetic: every operation returns the exact result up to a relative error of at
most `u`, in any way.  (No overflow, no underflow: those break the model.)  `Code.bothSteps` runs a program in such an
arithmetic and writes down, beside the steps the library takes, the same steps done in exact arithmetic on the same
(rounded) operands; their rules are the exact local derivatives.
-/

namespace Spec
open Fz

/-- the exact number `e` up to a relative error of `u` -/
def Within (u c e : ℝ) : Prop := |c - e| ≤ u * |e|

/-- an arithmetic with relative error `u` in every operation -/
structure Floats where
  arith : Arith ℝ
  u : ℝ
  u_nonneg : 0 ≤ u
  u_lt : u < 1
  zero : arith.zero = 0
  one : arith.one = 1
  two : arith.two = 2
  half : arith.half = 1 / 2
  neg : ∀ x, arith.neg x = -x
  feq : ∀ x y, arith.feq x y = true ↔ x = y
  flt : ∀ x y, arith.flt x y = true ↔ x < y
  add : ∀ x y, Within u (arith.add x y) (x + y)
  sub : ∀ x y, Within u (arith.sub x y) (x - y)
  mul : ∀ x y, Within u (arith.mul x y) (x * y)
  div : ∀ x y, y ≠ 0 → Within u (arith.div x y) (x / y)
  sqrt : ∀ x, 0 ≤ x → Within u (arith.sqrt x) (√x)
  sin : ∀ x, Within u (arith.sin x) (Real.sin x)
  cos : ∀ x, Within u (arith.cos x) (Real.cos x)
  tan : ∀ x, Within u (arith.tan x) (Real.tan x)
  sinh : ∀ x, Within u (arith.sinh x) (Real.sinh x)
  cosh : ∀ x, Within u (arith.cosh x) (Real.cosh x)
  exp : ∀ x, Within u (arith.exp x) (Real.exp x)
  log : ∀ x, 0 < x → Within u (arith.log x) (Real.log x)
  pow : ∀ x y, 0 < x → Within u (arith.pow x y) (x ^ y)
  hypot : ∀ x y, Within u (arith.hypot x y) (√(x ^ 2 + y ^ 2))
  /-- the numbers are added in some order, perhaps starting from zero -/
  sum : ∀ l, ∃ k ≤ l.length, Sums 0 arith.add l k (arith.sumOf l)
  /-- the products are added in some order, perhaps starting from zero -/
  dot : ∀ a b, ∃ k ≤ a.length, Sums 0 arith.add (List.zipWith arith.mul a b) k (arith.dotOf a b)
  /-- at most as many roundings as `n` products, `n` additions and a square root give on the longest way -/
  norm2 : ∀ l, ∃ t, (1 - u) ^ (l.length + 2) ≤ t ∧ t * (1 - u) ^ (l.length + 2) ≤ 1 ∧
    arith.norm2Of l = √(l.map fun x => x ^ 2).sum * t
  mul_comm : ∀ x y, arith.mul x y = arith.mul y x
  hypot_comm : ∀ x y, arith.hypot x y = arith.hypot y x

/-- the numbers of such an arithmetic -/
def Flo (_ : Floats) : Type := ℝ

instance (F : Floats) : Arith (Flo F) := F.arith

variable {F : Floats}

/-- the number -/
def Flo.real (x : Flo F) : ℝ := x

/-- the operand, in exact arithmetic -/
def Num.real (n : Num (Flo F)) : Num ℝ := ⟨n.ref, n.val.real⟩

/-- the same call, in exact arithmetic -/
def Make.real (m : Make (Flo F)) : Make ℝ := show Make ℝ from m

/-- the program in rounded arithmetic, and beside it every call in exact arithmetic on the same operands -/
noncomputable def Code.bothWrite : Code (Flo F) → List (Num (Flo F)) → List (Step (Flo F)) → List (Step ℝ) →
    List (Num (Flo F)) × List (Step ℝ)
  | .ret is, env, _, E => (is.map (opd env), E)
  | .make m k, env, T, E =>
    let r := m.write env T
    k.bothWrite (env ++ r.1) r.2 (m.real.write (env.map Num.real) E).2
  | .look i k, env, T, E => (k (opd env i).val).bothWrite env T E

/-- the result and the exact steps of a function; `ys` are the values of variables of the caller, `x` the inputs -/
noncomputable def Code.bothSteps (f : Code (Flo F)) (ys x : List (Flo F)) : List (Num (Flo F)) × List (Step ℝ) :=
  let r := Log.each input x []
  f.bothWrite (r.1 ++ ys.map fun y => ⟨none, y⟩) r.2 (Log.each input (x.map Flo.real) []).2

/-- the derivatives of the exact steps: exact local derivatives, exact products and sums; one row for every result -/
noncomputable def Code.exactRows (f : Code (Flo F)) (ys x : List (Flo F)) : List (List ℝ) :=
  (f.bothSteps ys x).1.map fun o => rowOf (f.bothSteps ys x).2 x.length o.real

/-- a step with the absolute values of its local derivatives -/
noncomputable def Step.absolute (e : Step ℝ) : Step ℝ := ⟨e.val, e.src, fun a => (e.pass 1).map fun p => |p| * a⟩

/-- the same sums of products, with absolute values of all local derivatives -/
noncomputable def Code.absRows (f : Code (Flo F)) (ys x : List (Flo F)) : List (List ℝ) :=
  (f.bothSteps ys x).1.map fun o => rowOf ((f.bothSteps ys x).2.map Step.absolute) x.length o.real

/-- entry of a list of rows -/
def at2 (J : List (List ℝ)) (i k : Nat) : ℝ := (J.getD i []).getD k 0

/-- a bound on the number of roundings of the sweep: 8 and three for every operand, for every step -/
noncomputable def Code.roundings (f : Code (Flo F)) (ys x : List (Flo F)) : Nat :=
  ((f.bothSteps ys x).2.map fun e => 8 + 3 * e.src.length).sum

/-- functions whose rule does not lose digits by cancellation, where they are differentiable -/
def Fn.Tame : Fn → ℝ → Prop
  | .pos, _ | .neg, _ | .abs, _ | .sin, _ | .cos, _ | .tan, _ | .atan, _ | .sinh, _ | .cosh, _ | .tanh, _ | .asinh, _
  | .square, _ | .exp, _ => True
  | .sqrt, x | .invSqrt, x => 0 < x
  | .inv, x | .invSquare, x | .log, x => x ≠ 0
  | _, _ => False

/-- operations likewise; powers of positive numbers -/
def Bin.Tame : Bin → ℝ → ℝ → Prop
  | .add, _, _ | .sub, _, _ | .mul, _, _ => True
  | .div, _, y => y ≠ 0
  | .hypot, x, y => x ≠ 0 ∨ y ≠ 0
  | .pow, x, _ => 0 < x

/-- calls likewise -/
def Make.Tame : Make (Flo F) → List (Flo F) → Prop
  | .new0, _ | .new _, _ | .newVals _, _ | .newArr _, _ => True
  | .fn f i, ys => f.Tame (num ys i).real
  | .fnArr f is, ys => ∀ i ∈ is, f.Tame (num ys i).real
  | .bin f i j, ys => f.Tame (num ys i).real (num ys j).real
  | .binArr f is js, ys => ∀ p ∈ is.zip js, f.Tame (num ys p.1).real (num ys p.2).real
  | .binVD f i d, ys => f.Tame (num ys i).real d.real
  | .binDV f d i, ys => f.Tame d.real (num ys i).real
  | .norm2 is, ys => ∃ i ∈ is, (num ys i).real ≠ 0
  | .sum _, _ | .dotVV _ _, _ | .dotVD _ _, _ | .dotDV _ _, _ | .matmulVV _ _, _ | .matmulVD _ _, _ | .matmulDV _ _, _
  | .partials _ _ _, _ => True
  | _, _ => False

/-- programs likewise; `ys` are the numbers the program has when it comes to the call -/
def Code.Tame : Code (Flo F) → List (Flo F) → Prop
  | .ret _, _ => True
  | .make m k, ys => m.Tame ys ∧ k.Tame (ys ++ m.plain ys)
  | .look i k, ys => (k (num ys i)).Tame ys

end Spec
