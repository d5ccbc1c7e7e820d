/-!
# Outcomes, arithmetic and representation interfaces

Trusted reading of the Fortran environment the code runs in.
-/

namespace Fz

/-- Ways a modelled Fortran procedure can fail to have a defined result.
`oob`: an array element outside the array bounds (also any element of an unallocated array);
`nonconf`: array assignment or array expression with different shapes;
`shortArg`: actual argument with fewer elements than the explicit-shape dummy argument;
`overflow`: an allocation size above the largest `int32`;
`stop`: the program executes `error stop`.
(`stop`: acosh.F90:33, atanh.F90:31, cvodes.F90:153; the size that can overflow: tape.F90:78) -/
inductive Err where
  | oob | nonconf | shortArg | overflow | stop
  deriving DecidableEq, Repr

/-- The `real64` intrinsics and constants the library uses.  No laws are attached:
storage-level theorems hold for any interpretation, derivative theorems are about the
instance on `ℝ`. (the kind `rk`: env.F90:22) -/
class Arith (R : Type) where
  zero : R
  one : R
  two : R
  half : R
  /-- decimal literal `m * 10^e` -/
  lit : Int → Int → R
  add : R → R → R
  sub : R → R → R
  mul : R → R → R
  div : R → R → R
  neg : R → R
  /-- `x ** y`, real exponent -/
  pow : R → R → R
  /-- Fortran `==` (false on NaN) -/
  feq : R → R → Bool
  /-- Fortran `<` -/
  flt : R → R → Bool
  /-- Fortran `<=` -/
  fle : R → R → Bool
  /-- arith.F90:10 `nan64` -/
  nan : R
  /-- `huge(d)` -/
  huge : R
  fabs : R → R
  sqrt : R → R
  sin : R → R
  cos : R → R
  tan : R → R
  asin : R → R
  acos : R → R
  atan : R → R
  sinh : R → R
  cosh : R → R
  tanh : R → R
  asinh : R → R
  acosh : R → R
  atanh : R → R
  exp : R → R
  log : R → R
  erf : R → R
  erfc : R → R
  hypot : R → R → R
  /-- intrinsic `log_gamma` -/
  logGamma : R → R
  /-- intrinsic `int` (truncation towards zero) -/
  trunc : R → Int
  /-- conversion of an integer to `real64` -/
  ofInt : Int → R
  /-- `tiny(0.0d0)` -/
  tiny : R
  /-- intrinsic `sum` of a rank-1 array; the order of the additions is the compiler's -/
  sumOf : List R → R
  /-- intrinsic `dot_product`, likewise -/
  dotOf : List R → List R → R
  /-- intrinsic `norm2`, likewise -/
  norm2Of : List R → R
  /-- intrinsic `matmul`: the entry that a row of the first and a column of the second matrix give, likewise -/
  mulOf : List R → List R → R

/-- `transfer` between one `real64` and two `int32` words, and `int32` as numbers.
`toNat` reads a word as a non-negative integer.  Simplification: the model has no negative
`int32`; every count and index the library stores is non-negative.
(env.F90:22-25; `transfer`: tape.F90:119, 130, 371-410) -/
class Rep (W : Type) (R : outParam Type) where
  lo : R → W
  hi : R → W
  join : W → W → R
  ofNat : Nat → W
  toNat : W → Nat

/-- largest default `int32` (the kind `ik`: env.F90:25) -/
def int32Max : Nat := 2147483647

/-- The laws of `transfer` and of integer words the storage-level theorems use.
(tape.F90:371-410; words set to 0: tape.F90:72, 78) -/
class LawfulRep (W : Type) (R : outParam Type) [Arith R] [Rep W R] : Prop where
  join_lo_hi : ∀ r : R, Rep.join (W := W) (Rep.lo r) (Rep.hi r) = r
  toNat_ofNat : ∀ n : Nat, n ≤ int32Max → Rep.toNat (Rep.ofNat (W := W) n) = n
  lo_zero : Rep.lo (Arith.zero : R) = Rep.ofNat (W := W) 0
  hi_zero : Rep.hi (Arith.zero : R) = Rep.ofNat (W := W) 0

/-! Fortran real arithmetic, written with dotted operators. -/
scoped infixl:65 " +. " => Arith.add
scoped infixl:65 " -. " => Arith.sub
scoped infixl:70 " *. " => Arith.mul
scoped infixl:70 " /. " => Arith.div

section
variable {R : Type} [Arith R]

/-- Fortran `>` (e.g. arith.F90:68) -/
def fgt (a b : R) : Bool := Arith.flt b a
/-- Fortran `>=` (e.g. test.F90:27) -/
def fge (a b : R) : Bool := Arith.fle b a
/-- Fortran `/=` (e.g. arith.F90:78) -/
def fne (a b : R) : Bool := !Arith.feq a b

/-- arith.F90:66-69 `is_inf` -/
def isInf (d : R) : Bool := fgt d Arith.huge
/-- arith.F90:71-74 `is_neg_inf` -/
def isNegInf (d : R) : Bool := Arith.flt d (Arith.neg Arith.huge)
/-- arith.F90:76-79 `is_nan_d` -/
def isNanD (d : R) : Bool := fne d d

/-- arith.F90:13 `pi = 4*atan(1)` -/
def piC : R := Arith.lit 4 0 *. Arith.atan Arith.one
/-- arith.F90:25 `two_over_sqrt_pi` -/
def twoOverSqrtPi : R := Arith.two /. Arith.sqrt piC
/-- arith.F90:34 `log_epsilon = log(tiny(0.0d0))` -/
def logEpsilon : R := Arith.log Arith.tiny
/-- arith.F90:46 `log_two_pi = log_two + log_pi` -/
def logTwoPi : R := Arith.log Arith.two +. Arith.log piC
/-- arith.F90:52 `neg_log_sqrt_two_pi` -/
def negLogSqrtTwoPi : R := Arith.neg (Arith.half *. logTwoPi)

/-- intrinsic `sum` of a rank-1 array (e.g. sum.F90:21) -/
def fsum (l : List R) : R := Arith.sumOf l
/-- intrinsic `dot_product` (dot_product.F90:30) -/
def fdot (a b : List R) : R := Arith.dotOf a b
/-- intrinsic `norm2` (norm2.F90:22) -/
def fnorm2 (a : List R) : R := Arith.norm2Of a
/-- entry of the intrinsic `matmul` (matmul.F90:46); simplification: it depends on its row and its column only -/
def fmul (a b : List R) : R := Arith.mulOf a b
/-- intrinsic `maxval`; for an empty array it is `-huge` (log_sum_exp.F90:32) -/
def fmaxval (l : List R) : R :=
  match l with
  | [] => Arith.neg Arith.huge
  | x :: xs => xs.foldl (fun m y => if Arith.flt m y then y else m) x
end

end Fz
