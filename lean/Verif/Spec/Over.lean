import Verif.Model.RealArith
import Verif.Spec.Plain
import Verif.Spec.Sums
import Mathlib.Algebra.Order.Floor.Semiring
import Mathlib.Data.Real.Archimedean

/-!
# Reals with overflow

The real numbers up to the largest double, `+Infinity`, `-Infinity` and NaN.  Operations are exact (no rounding), but a
result above the largest double is `+Infinity`, and one below its negative is `-Infinity`, as in IEEE 754.

Simplifications: no rounding and no underflow; one zero, which divides as `+0` does; a power with an infinite base or
exponent is NaN.
-/

namespace Spec
open Fz Classical

/-- the largest double -/
noncomputable def big : ℝ := (2 - (2:ℝ) ^ (-52 : ℤ)) * 2 ^ (1023 : ℤ)

/-- a real number, an infinity or NaN -/
inductive Over where
  | fin (x : ℝ)
  | pinf
  | ninf
  | nan

namespace Over

/-- overflow -/
noncomputable def fit (x : ℝ) : Over := if big < x then pinf else if x < -big then ninf else fin x

/-- addition -/
noncomputable def add : Over → Over → Over
  | fin a, fin b => fit (a + b)
  | nan, _ | _, nan => nan
  | pinf, ninf | ninf, pinf => nan
  | pinf, _ | _, pinf => pinf
  | ninf, _ | _, ninf => ninf

/-- change of sign -/
def neg : Over → Over
  | fin a => fin (-a)
  | pinf => ninf
  | ninf => pinf
  | nan => nan

/-- multiplication -/
noncomputable def mul : Over → Over → Over
  | fin a, fin b => fit (a * b)
  | nan, _ | _, nan => nan
  | pinf, pinf | ninf, ninf => pinf
  | pinf, ninf | ninf, pinf => ninf
  | pinf, fin b | fin b, pinf => if 0 < b then pinf else if b < 0 then ninf else nan
  | ninf, fin b | fin b, ninf => if 0 < b then ninf else if b < 0 then pinf else nan

/-- division -/
noncomputable def div : Over → Over → Over
  | fin a, fin b => if b = 0 then (if 0 < a then pinf else if a < 0 then ninf else nan) else fit (a / b)
  | nan, _ | _, nan => nan
  | fin _, _ => fin 0
  | pinf, fin b => if b < 0 then ninf else pinf
  | ninf, fin b => if b < 0 then pinf else ninf
  | _, _ => nan

/-- power -/
noncomputable def pow : Over → Over → Over
  | fin a, fin b =>
    if b = 0 then fin 1
    else if 0 < a then fit (a ^ b)
    else if a = 0 then (if 0 < b then fin 0 else pinf)
    else if ∃ n : ℤ, b = n then fit (a ^ ⌊b⌋) else nan
  | _, _ => nan

/-- equality; false on NaN -/
noncomputable def eq : Over → Over → Bool
  | fin a, fin b => decide (a = b)
  | pinf, pinf | ninf, ninf => true
  | _, _ => false

/-- order; false on NaN -/
noncomputable def lt : Over → Over → Bool
  | fin a, fin b => decide (a < b)
  | ninf, fin _ | ninf, pinf | fin _, pinf => true
  | _, _ => false

/-- a function of finite numbers, and its limits -/
def lift (f : ℝ → Over) (atPos atNeg : Over) : Over → Over
  | fin a => f a
  | pinf => atPos
  | ninf => atNeg
  | nan => nan

/-- `hypot` -/
noncomputable def hyp : Over → Over → Over
  | fin a, fin b => fit (√(a ^ 2 + b ^ 2))
  | pinf, _ | ninf, _ | _, pinf | _, ninf => pinf
  | _, _ => nan

/-- the finite numbers of a list -/
def finite : List Over → List ℝ
  | [] => []
  | fin a :: l => a :: finite l
  | _ :: l => finite l

/-- `norm2` -/
noncomputable def norm (l : List Over) : Over :=
  if pinf ∈ l ∨ ninf ∈ l then pinf else if nan ∈ l then nan else fit (√((finite l).map fun a => a ^ 2).sum)

end Over

/-- how the compiler adds the numbers of an array: in any order -/
class SumOrder where
  sum : List Over → Over
  some_order : ∀ l, ∃ k ≤ l.length, Sums (.fin 0) Over.add l k (sum l)

variable [SumOrder]

open Over in
/-- the Fortran operations and intrinsics, with overflow -/
noncomputable instance instArithOver : Arith Over where
  zero := fin 0
  one := fin 1
  two := fin 2
  half := fin (1 / 2)
  lit m e := fit ((m : ℝ) * (10 : ℝ) ^ e)
  add := Over.add
  sub a b := Over.add a (Over.neg b)
  mul := Over.mul
  div := Over.div
  neg := Over.neg
  pow := Over.pow
  feq := Over.eq
  flt := Over.lt
  fle a b := Over.lt a b || Over.eq a b
  nan := Over.nan
  huge := fin big
  fabs := lift (fun a => fin |a|) pinf pinf
  sqrt := lift (fun a => if a < 0 then .nan else fin (√a)) pinf .nan
  sin := lift (fun a => fin (Real.sin a)) .nan .nan
  cos := lift (fun a => fin (Real.cos a)) .nan .nan
  tan := lift (fun a => fit (Real.tan a)) .nan .nan
  asin := lift (fun a => if |a| ≤ 1 then fin (Real.arcsin a) else .nan) .nan .nan
  acos := lift (fun a => if |a| ≤ 1 then fin (Real.arccos a) else .nan) .nan .nan
  atan := lift (fun a => fin (Real.arctan a)) (fin (Real.pi / 2)) (fin (-(Real.pi / 2)))
  sinh := lift (fun a => fit (Real.sinh a)) pinf ninf
  cosh := lift (fun a => fit (Real.cosh a)) pinf pinf
  tanh := lift (fun a => fin (Real.tanh a)) (fin 1) (fin (-1))
  asinh := lift (fun a => fin (Real.arsinh a)) pinf ninf
  acosh := lift (fun a => if a < 1 then .nan else fin (Real.arcosh a)) pinf .nan
  atanh := lift (fun a => if |a| < 1 then fit (Real.artanh a) else if a = 1 then pinf else if a = -1 then ninf else .nan)
    .nan .nan
  exp := lift (fun a => fit (Real.exp a)) pinf (fin 0)
  log := lift (fun a => if 0 < a then fit (Real.log a) else if a = 0 then ninf else .nan) pinf .nan
  erf := lift (fun a => fin (erfR a)) (fin 1) (fin (-1))
  erfc := lift (fun a => fin (1 - erfR a)) (fin 0) (fin 2)
  hypot := Over.hyp
  logGamma := lift (fun a => if ∃ n : ℕ, a = -n then pinf else fit (Real.log |Real.Gamma a|)) pinf pinf
  trunc a := match a with
    | fin x => if 0 ≤ x then ⌊x⌋ else ⌈x⌉
    | _ => 0
  ofInt z := fit (z : ℝ)
  tiny := fin ((2:ℝ) ^ (-1022 : ℤ))
  sumOf := SumOrder.sum
  dotOf a b := SumOrder.sum (List.zipWith Over.mul a b)
  norm2Of := Over.norm
  mulOf a b := SumOrder.sum (List.zipWith Over.mul a b)

/-- `x * y` and `hypot(x, y)` do not depend on the order -/
theorem commutes_over : Commutes Over where
  mul x y := by
    show Over.mul x y = Over.mul y x
    cases x <;> cases y <;> simp [Over.mul, mul_comm]
  hypot x y := by
    show Over.hyp x y = Over.hyp y x
    cases x <;> cases y <;> simp [Over.hyp, add_comm]

/-- from left to right is such an order (only used to show that there is one) -/
noncomputable def leftToRight : SumOrder where
  sum l := l.foldl Over.add (.fin 0)
  some_order := sums_fold

/-- words that hold such a number each (only used to show that the assumptions can be met) -/
noncomputable instance instRepOver : Rep Over Over where
  lo r := r
  hi _ := .fin 0
  join a _ := a
  ofNat n := .fin n
  toNat w := match w with
    | .fin x => ⌊x⌋₊
    | _ => 0

instance instLawfulOver : LawfulRep Over Over where
  join_lo_hi _ := rfl
  toNat_ofNat n _ := Nat.floor_natCast n
  lo_zero := by show Over.fin 0 = Over.fin ((0:ℕ):ℝ); simp
  hi_zero := by show Over.fin 0 = Over.fin ((0:ℕ):ℝ); simp

/-! ## what `log_sum_exp` and its derivatives should be -/

/-- `exp x`, which is 0 for `-Infinity` -/
noncomputable def weight : Over → ℝ
  | .fin a => Real.exp a
  | _ => 0

/-- finite, at most a quarter of the largest double; or `-Infinity` -/
def Moderate : Over → Prop
  | .fin a => |a| ≤ big / 4
  | .ninf => True
  | _ => False

end Spec
