import Mathlib.Analysis.SpecialFunctions.Arcosh
import Mathlib.Analysis.SpecialFunctions.Arsinh
import Mathlib.Analysis.SpecialFunctions.Artanh
import Mathlib.Analysis.SpecialFunctions.Gamma.Basic
import Mathlib.Analysis.SpecialFunctions.Pow.Real
import Mathlib.Analysis.SpecialFunctions.Trigonometric.Arctan
import Mathlib.MeasureTheory.Integral.IntervalIntegral.Basic
import Verif.Model.User

/-!
# What a chain procedure of the user passes on

The meaning over the real numbers, with Mathlib's functions, of the expressions of `Verif.Model.User` (only
their syntax is used here), where they are defined, and the factor by which a chain procedure multiplies
the adjoint.
-/

namespace Spec
open Fz

/-- the error function -/
noncomputable def erfFn (x : ℝ) : ℝ := 2 / √Real.pi * ∫ t in (0:ℝ)..x, Real.exp (-t ^ 2)

/-- the mathematical function -/
noncomputable def fnOf : UFn → ℝ → ℝ
  | .abs => fun x => |x|
  | .sqrt => Real.sqrt
  | .sin => Real.sin
  | .cos => Real.cos
  | .tan => Real.tan
  | .asin => Real.arcsin
  | .acos => Real.arccos
  | .atan => Real.arctan
  | .sinh => Real.sinh
  | .cosh => Real.cosh
  | .tanh => Real.tanh
  | .asinh => Real.arsinh
  | .acosh => Real.arcosh
  | .atanh => Real.artanh
  | .exp => Real.exp
  | .log => Real.log
  | .erf => erfFn
  | .erfc => fun x => 1 - erfFn x
  | .logGamma => fun x => Real.log |Real.Gamma x|

/-- where it is defined -/
def fnDom : UFn → ℝ → Prop
  | .sqrt, x => 0 ≤ x
  | .tan, x => Real.cos x ≠ 0
  | .asin, x => -1 ≤ x ∧ x ≤ 1
  | .acos, x => -1 ≤ x ∧ x ≤ 1
  | .acosh, x => 1 ≤ x
  | .atanh, x => -1 < x ∧ x < 1
  | .log, x => 0 < x
  | .logGamma, x => 0 < x
  | _, _ => True

open Classical in
/-- value of an expression: `y` is the value of the record, `xs` are the operand values, `ds` the data -/
noncomputable def expVal (y : ℝ) (xs ds : List ℝ) : UExp → ℝ
  | .res => y
  | .op i => xs.getD i 0
  | .dat i => ds.getD i 0
  | .lit m e => (m : ℝ) * 10 ^ e
  | .add a b => expVal y xs ds a + expVal y xs ds b
  | .sub a b => expVal y xs ds a - expVal y xs ds b
  | .mul a b => expVal y xs ds a * expVal y xs ds b
  | .div a b => expVal y xs ds a / expVal y xs ds b
  | .pow a b => expVal y xs ds a ^ expVal y xs ds b
  | .neg a => -expVal y xs ds a
  | .call f a => fnOf f (expVal y xs ds a)
  | .ifLt a b t e => if expVal y xs ds a < expVal y xs ds b then expVal y xs ds t else expVal y xs ds e

/-- the expression is defined: subscripts exist, no division by zero, arguments in the domain -/
def Defined (y : ℝ) (xs ds : List ℝ) : UExp → Prop
  | .res => True
  | .op i => i < xs.length
  | .dat i => i < ds.length
  | .lit _ _ => True
  | .add a b => Defined y xs ds a ∧ Defined y xs ds b
  | .sub a b => Defined y xs ds a ∧ Defined y xs ds b
  | .mul a b => Defined y xs ds a ∧ Defined y xs ds b
  | .div a b => Defined y xs ds a ∧ Defined y xs ds b ∧ expVal y xs ds b ≠ 0
  | .pow a b => Defined y xs ds a ∧ Defined y xs ds b ∧ 0 < expVal y xs ds a
  | .neg a => Defined y xs ds a
  | .call f a => Defined y xs ds a ∧ fnDom f (expVal y xs ds a)
  | .ifLt a b t e => Defined y xs ds a ∧ Defined y xs ds b ∧ Defined y xs ds t ∧ Defined y xs ds e

open Classical in
/-- the factor of the adjoint in a linear expression -/
noncomputable def factorOf (y : ℝ) (xs ds : List ℝ) : LExp → ℝ
  | .adj => 1
  | .nil => 0
  | .neg l => -factorOf y xs ds l
  | .mulL c l => expVal y xs ds c * factorOf y xs ds l
  | .mulR l c => factorOf y xs ds l * expVal y xs ds c
  | .div l c => factorOf y xs ds l / expVal y xs ds c
  | .add l l' => factorOf y xs ds l + factorOf y xs ds l'
  | .sub l l' => factorOf y xs ds l - factorOf y xs ds l'
  | .ifLt a b l l' => if expVal y xs ds a < expVal y xs ds b then factorOf y xs ds l else factorOf y xs ds l'

/-- the same for linear expressions -/
def DefinedL (y : ℝ) (xs ds : List ℝ) : LExp → Prop
  | .adj => True
  | .nil => True
  | .neg l => DefinedL y xs ds l
  | .mulL c l => Defined y xs ds c ∧ DefinedL y xs ds l
  | .mulR l c => DefinedL y xs ds l ∧ Defined y xs ds c
  | .div l c => DefinedL y xs ds l ∧ Defined y xs ds c ∧ expVal y xs ds c ≠ 0
  | .add l l' => DefinedL y xs ds l ∧ DefinedL y xs ds l'
  | .sub l l' => DefinedL y xs ds l ∧ DefinedL y xs ds l'
  | .ifLt a b l l' => Defined y xs ds a ∧ Defined y xs ds b ∧ DefinedL y xs ds l ∧ DefinedL y xs ds l'

/-- the contents of a local array of declared size `n`, filled from `l`; with `n = 0` there is no such array -/
def localOf (n : Nat) (l : List ℝ) : List ℝ := if n = 0 then [] else l

/-- the factors a chain procedure applies, one for every operand -/
noncomputable def factors (y : ℝ) (xs ds : List ℝ) : URule → List ℝ
  | .fixed n m es => es.map (factorOf y (localOf n xs) (localOf m ds))
  | .each m e => xs.map fun x => factorOf y [x] (localOf m ds) e

/-- the chain procedure is written for records with `xs.length` operands and `ds.length` data: its local
arrays have these sizes (or it has none), there is an entry for every operand, and everything computed is
defined -/
def RuleFits (y : ℝ) (xs ds : List ℝ) : URule → Prop
  | .fixed n m es => (n = 0 ∨ n = xs.length) ∧ (m = 0 ∨ m = ds.length) ∧ es.length = xs.length ∧
      ∀ e ∈ es, DefinedL y (localOf n xs) (localOf m ds) e
  | .each m e => (m = 0 ∨ m = ds.length) ∧ xs ≠ [] ∧ ∀ x ∈ xs, DefinedL y [x] (localOf m ds) e

end Spec
