import Verif.Model.Basic
import Mathlib.Analysis.SpecialFunctions.Arcosh
import Mathlib.Analysis.SpecialFunctions.Arsinh
import Mathlib.Analysis.SpecialFunctions.Artanh
import Mathlib.Analysis.SpecialFunctions.Pow.Real
import Mathlib.Analysis.SpecialFunctions.Gamma.Basic
import Mathlib.Analysis.SpecialFunctions.Trigonometric.Arctan
import Mathlib.MeasureTheory.Integral.IntervalIntegral.Basic

/-!
# The exact reading of `real64`

`Arith ℝ` interprets the Fortran intrinsics by Mathlib's functions: exact arithmetic, no rounding,
no overflow.  There are no NaN and no infinities, so `nan` is a junk value: the theorems about `ℝ`
never use a path that produces it.
-/

namespace Fz
open Classical

/-- the error function, `2/√π ∫₀ˣ exp(-t²) dt` (erf.F90:23) -/
noncomputable def erfR (x : ℝ) : ℝ := 2 / √Real.pi * ∫ t in (0:ℝ)..x, Real.exp (-(t * t))

/-- the kind `rk` (env.F90:22) read as the real numbers; simplification: no rounding, no infinities, no NaN -/
noncomputable instance instArithReal : Arith ℝ where
  zero := 0
  one := 1
  two := 2
  half := 1 / 2
  lit m e := (m : ℝ) * (10 : ℝ) ^ e
  add := (· + ·)
  sub := (· - ·)
  mul := (· * ·)
  div := (· / ·)
  neg := (- ·)
  pow := fun x y => x ^ y
  feq a b := decide (a = b)
  flt a b := decide (a < b)
  fle a b := decide (a ≤ b)
  nan := 0
  huge := (2 - (2:ℝ) ^ (-52 : ℤ)) * 2 ^ (1023 : ℤ)
  fabs := abs
  sqrt := Real.sqrt
  sin := Real.sin
  cos := Real.cos
  tan := Real.tan
  asin := Real.arcsin
  acos := Real.arccos
  atan := Real.arctan
  sinh := Real.sinh
  cosh := Real.cosh
  tanh := Real.tanh
  asinh := Real.arsinh
  acosh := Real.arcosh
  atanh := Real.artanh
  exp := Real.exp
  log := Real.log
  erf := erfR
  erfc x := 1 - erfR x
  hypot x y := √(x ^ 2 + y ^ 2)
  logGamma x := Real.log |Real.Gamma x|
  trunc x := if 0 ≤ x then ⌊x⌋ else ⌈x⌉
  ofInt z := (z : ℝ)
  tiny := (2:ℝ) ^ (-1022 : ℤ)
  sumOf l := l.sum
  dotOf a b := (List.zipWith (· * ·) a b).sum
  norm2Of a := √(a.map fun x => x ^ 2).sum
  mulOf a b := (List.zipWith (· * ·) a b).sum

end Fz
