import Verif.Spec.Plain

/-!
# NaN in, NaN out

`NanRules` are the rules of IEEE 754 for NaN, of the operations and intrinsics that the library uses.  `Make.reads`
lists, for each variable a call creates, the numbers it is computed from: variables of the caller by name, and reals.
Some operands are left out, because IEEE 754 and Fortran define a result that does not depend on them: `x` in `x**0`,
`y` in `1**y`, and a NaN next to an infinity in `hypot`, `norm2` and `log_sum_exp`; further the parameters of a density
of no data.
-/

namespace Spec
open Fz Arith

section
variable {R : Type} [Arith R]

/-- `+Infinity` or `-Infinity` -/
def infinite (x : R) : Bool := isInf x || isNegInf x

/-- the intrinsics of one argument, of which a NaN gives a NaN -/
def intrinsics : List (R → R) :=
  [Arith.neg, Arith.sin, Arith.cos, Arith.tan, Arith.asin, Arith.acos, Arith.atan, Arith.sinh, Arith.cosh, Arith.tanh,
   Arith.asinh, Arith.acosh, Arith.atanh, Arith.sqrt, Arith.exp, Arith.log, Arith.erf, Arith.erfc, Arith.logGamma]

variable (R) in
/-- the rules for NaN; a NaN is a number different from itself -/
structure NanRules : Prop where
  nan : isNanD (Arith.nan : R) = true
  lt : ∀ x y : R, isNanD x = true ∨ isNanD y = true → flt x y = false
  eq : ∀ x y : R, isNanD x = true ∨ isNanD y = true → feq x y = false
  add : ∀ x y : R, isNanD x = true ∨ isNanD y = true → isNanD (x +. y) = true
  sub : ∀ x y : R, isNanD x = true ∨ isNanD y = true → isNanD (x -. y) = true
  mul : ∀ x y : R, isNanD x = true ∨ isNanD y = true → isNanD (x *. y) = true
  div : ∀ x y : R, isNanD x = true ∨ isNanD y = true → isNanD (x /. y) = true
  base : ∀ x y : R, isNanD x = true → feq y zero = false → isNanD (Arith.pow x y) = true
  expo : ∀ x y : R, isNanD y = true → feq x one = false → isNanD (Arith.pow x y) = true
  hypot : ∀ x y : R, isNanD x = true ∨ isNanD y = true → infinite x = false → infinite y = false →
    isNanD (Arith.hypot x y) = true
  fn : ∀ f ∈ (intrinsics : List (R → R)), ∀ x, isNanD x = true → isNanD (f x) = true
  sum : ∀ l : List R, (∃ x ∈ l, isNanD x = true) → isNanD (sumOf l) = true
  dot : ∀ a b : List R, a.length = b.length → (∃ x ∈ a ++ b, isNanD x = true) → isNanD (dotOf a b) = true
  entry : ∀ a b : List R, a.length = b.length → (∃ x ∈ a ++ b, isNanD x = true) → isNanD (mulOf a b) = true
  norm2 : ∀ l : List R, (∃ x ∈ l, isNanD x = true) → (∀ x ∈ l, infinite x = false) → isNanD (norm2Of l) = true

/-- an operand: a variable of the caller, by name, or a real -/
inductive Operand (R : Type) where
  | name (i : Nat)
  | real (d : R)

/-- operands of `x ** y` -/
def powReads (a b : Operand R) (x y : R) : List (Operand R) :=
  (if feq y zero then [] else [a]) ++ (if feq x one then [] else [b])

/-- operands of an operation of two numbers -/
def Bin.reads (f : Bin) (a b : Operand R) (x y : R) : List (Operand R) :=
  match f with
  | .pow => powReads a b x y
  | .hypot => if infinite x || infinite y then [] else [a, b]
  | _ => [a, b]

/-- operands of each of the variables a call creates, where the variables of the caller hold `ys` -/
def Make.reads : Make R → List R → List (List (Operand R))
  | .new0, _ => [[]]
  | .new d, _ => [[.real d]]
  | .newVals ds, _ => ds.map fun d => [.real d]
  | .newArr n, _ => List.replicate n []
  | .fn _ i, _ => [[.name i]]
  | .fnArr _ is, _ => is.map fun i => [.name i]
  | .bin f i j, ys => [f.reads (.name i) (.name j) (num ys i) (num ys j)]
  | .binArr f is js, ys => List.zipWith (fun i j => f.reads (.name i) (.name j) (num ys i) (num ys j)) is js
  | .binVD f i d, ys => [f.reads (.name i) (.real d) (num ys i) d]
  | .binDV f d i, ys => [f.reads (.real d) (.name i) d (num ys i)]
  | .sum is, _ => [is.map .name]
  | .norm2 is, ys => [if is.any fun i => infinite (num ys i) then [] else is.map .name]
  | .logSumExp is, ys => [if is.any fun i => isInf (num ys i) then [] else is.map .name]
  | .dotVV is js, _ => [if is.length = js.length then is.map .name ++ js.map .name else []]
  | .dotVD is ds, _ => [if is.length = ds.length then is.map .name ++ ds.map .real else []]
  | .dotDV ds is, _ => [if ds.length = is.length then ds.map .real ++ is.map .name else []]
  | .matmulVV a b, _ => (entries a.nrow b.ncol).map fun p =>
      (List.range a.ncol).flatMap fun k => [.name (a.get p.1 k), .name (b.get k p.2)]
  | .matmulVD a b, _ => (entries a.nrow b.ncol).map fun p =>
      (List.range a.ncol).flatMap fun k => [.name (a.get p.1 k), .real (b.get k p.2)]
  | .matmulDV a b, _ => (entries a.nrow b.ncol).map fun p =>
      (List.range a.ncol).flatMap fun k => [.real (a.get p.1 k), .name (b.get k p.2)]
  | .lpdfVV _ xs m s, _ => [if xs = [] then [] else xs.map .real ++ [.name m, .name s]]
  | .lpdfVD _ xs m s, _ => [if xs = [] then [] else xs.map .real ++ [.name m, .real s]]
  | .lpdfDV _ xs m s, _ => [if xs = [] then [] else xs.map .real ++ [.real m, .name s]]
  | .partials x _ _, _ => [[.real x]]
  | .user x _ _ _, _ => [[.real x]]

/-- a NaN, or a variable marked in `bad` -/
def Operand.spoilt (bad : List Bool) : Operand R → Bool
  | .name i => bad.getD i false
  | .real d => isNanD d

/-- which of the variables that a call creates are computed from something spoilt -/
def Make.spoils (m : Make R) (ys : List R) (bad : List Bool) : List Bool :=
  (m.reads ys).map fun l => l.any (Operand.spoilt bad)

/-- which of the results of a program are computed, through any number of steps, from a variable marked in `bad` or
from a NaN constant -/
def Code.spoils : Code R → List R → List Bool → List Bool
  | .ret is, _, bad => is.map fun i => bad.getD i false
  | .make m k, ys, bad => k.spoils (ys ++ m.plain ys) (bad ++ m.spoils ys bad)
  | .look i k, ys, bad => (k (num ys i)).spoils ys bad

/-- which of these numbers are NaN -/
def nans (ys : List R) : List Bool := ys.map isNanD

end
end Spec
