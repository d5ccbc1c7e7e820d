import Verif.Spec.Code

/-!
# The same computation with plain reals

What a program computes when its variables are replaced by `real64` numbers: no tape, no records.  Intrinsics of the
language are those of `Arith`; where the library offers a function for reals as well (`inv`, `square`, `logit`,
`inv_logit`, `log_sum_exp`, the log densities), that one is meant.  For every interpretation `R` of `real64`.
-/

namespace Spec
open Fz Arith
variable {R : Type} [Arith R]

/-- functions of one real; `acosh` and `atanh` hand a NaN on -/
def Fn.plain : Fn → R → R
  | .pos, x => x
  | .neg, x => Arith.neg x
  | .abs, x => if flt zero x then x else if flt x zero then Arith.neg x else if feq x zero then zero else nan
  | .sin, x => Arith.sin x | .cos, x => Arith.cos x | .tan, x => Arith.tan x
  | .asin, x => Arith.asin x | .acos, x => Arith.acos x | .atan, x => Arith.atan x
  | .sinh, x => Arith.sinh x | .cosh, x => Arith.cosh x | .tanh, x => Arith.tanh x
  | .asinh, x => Arith.asinh x
  | .acosh, x => if feq x x then Arith.acosh x else x
  | .atanh, x => if feq x x then Arith.atanh x else x
  | .sqrt, x => Arith.sqrt x
  | .inv, x => one /. x
  | .square, x => x *. x
  | .invSquare, x => one /. (x *. x)
  | .invSqrt, x => one /. Arith.sqrt x
  | .exp, x => Arith.exp x | .log, x => Arith.log x
  | .logit, x => Arith.log (x /. (one -. x))
  | .invLogit, x => invLogitD x
  | .erf, x => Arith.erf x | .erfc, x => Arith.erfc x | .logGamma, x => Arith.logGamma x

/-- operations of two reals -/
def Bin.plain : Bin → R → R → R
  | .add, x, y => x +. y
  | .sub, x, y => x -. y
  | .mul, x, y => x *. y
  | .div, x, y => x /. y
  | .pow, x, y => Arith.pow x y
  | .hypot, x, y => Arith.hypot x y

/-- the same with a real on the right: `x + 0`, `x - 0`, `x * 1` and `x / 1` are `x`, and some powers are done without
`**` -/
def Bin.plainVD : Bin → R → R → R
  | .add, x, d => if feq d zero then x else x +. d
  | .sub, x, d => if feq d zero then x else x -. d
  | .mul, x, d => if feq d one then x else x *. d
  | .div, x, d => if feq d one then x else x /. d
  | .pow, x, d =>
    if feq d half then Arith.sqrt x
    else if feq d one then x
    else if feq d two then x *. x
    else if feq d (Arith.neg two) then one /. (x *. x)
    else if feq d (Arith.neg one) then one /. x
    else if feq d (Arith.neg half) then one /. Arith.sqrt x
    else Arith.pow x d
  | .hypot, x, d => Arith.hypot x d

/-- the same with a real on the left: `0 + x` and `1 * x` are `x` -/
def Bin.plainDV : Bin → R → R → R
  | .add, d, x => if feq d zero then x else d +. x
  | .sub, d, x => d -. x
  | .mul, d, x => if feq d one then x else d *. x
  | .div, d, x => d /. x
  | .pow, d, x => Arith.pow d x
  | .hypot, d, x => Arith.hypot d x

/-- log densities -/
def Dist.plain : Dist → List R → R → R → R
  | .normal => normalLpdfDD | .lognormal => lognormalLpdfDD

/-- the real with name `i` -/
def num (ys : List R) (i : Nat) : R := ys.getD i zero

/-- entry `(i, j)` of a matrix product -/
def mulEntry (n : Nat) (a b : Nat → Nat → R) (i j : Nat) : R :=
  fmul ((List.range n).map fun k => a i k) ((List.range n).map fun k => b k j)

/-- the numbers a call creates; a function that the library does not offer for reals (`var_with_partials`, operations
added by the user) has the number supplied to it -/
def Make.plain : Make R → List R → List R
  | .new0, _ => [zero]
  | .new d, _ => [d]
  | .newVals ds, _ => ds
  | .newArr n, _ => List.replicate n zero
  | .fn f i, ys => [f.plain (num ys i)]
  | .fnArr f is, ys => is.map fun i => f.plain (num ys i)
  | .bin f i j, ys => [f.plain (num ys i) (num ys j)]
  | .binArr f is js, ys => List.zipWith (fun i j => f.plain (num ys i) (num ys j)) is js
  | .binVD f i d, ys => [f.plainVD (num ys i) d]
  | .binDV f d i, ys => [f.plainDV d (num ys i)]
  | .sum is, ys => [fsum (is.map (num ys))]
  | .norm2 is, ys => [fnorm2 (is.map (num ys))]
  | .logSumExp is, ys => [logSumExpD (is.map (num ys))]
  | .dotVV is js, ys => [fdot (is.map (num ys)) (js.map (num ys))]
  | .dotVD is ds, ys => [fdot (is.map (num ys)) ds]
  | .dotDV ds is, ys => [fdot ds (is.map (num ys))]
  | .matmulVV a b, ys => (entries a.nrow b.ncol).map fun p =>
      mulEntry a.ncol (fun i k => num ys (a.get i k)) (fun k j => num ys (b.get k j)) p.1 p.2
  | .matmulVD a b, ys => (entries a.nrow b.ncol).map fun p =>
      mulEntry a.ncol (fun i k => num ys (a.get i k)) b.get p.1 p.2
  | .matmulDV a b, ys => (entries a.nrow b.ncol).map fun p =>
      mulEntry a.ncol a.get (fun k j => num ys (b.get k j)) p.1 p.2
  | .lpdfVV d xs m s, ys => [d.plain xs (num ys m) (num ys s)]
  | .lpdfVD d xs m s, ys => [d.plain xs (num ys m) s]
  | .lpdfDV d xs m s, ys => [d.plain xs m (num ys s)]
  | .partials x _ _, _ => [x]
  | .user x _ _ _, _ => [x]

/-- `inv_square` and `**` with exponent `-2` are left out: the library computes `(1/x)*x` (property C16) -/
def Make.Plain : Make R → Prop
  | .fn f _ => f ≠ .invSquare
  | .fnArr f _ => f ≠ .invSquare
  | .binVD .pow _ d => feq d half = true ∨ feq d one = true ∨ feq d two = true ∨ feq d (neg two) = false
  | _ => True

/-- the numbers a program returns, from the numbers in place of the variables it is given -/
def Code.plain : Code R → List R → List R
  | .ret is, ys => is.map (num ys)
  | .make m k, ys => k.plain (ys ++ m.plain ys)
  | .look i k, ys => (k (num ys i)).plain ys

/-- the restriction `Make.Plain` for all calls -/
def Code.Plain : Code R → Prop
  | .ret _ => True
  | .make m k => m.Plain ∧ k.Plain
  | .look _ k => ∀ x, (k x).Plain

/-- multiplication and `hypot` do not depend on the order of their operands, as in IEEE arithmetic -/
structure Commutes (R : Type) [Arith R] : Prop where
  mul : ∀ x y : R, x *. y = y *. x
  hypot : ∀ x y : R, Arith.hypot x y = Arith.hypot y x

end Spec
