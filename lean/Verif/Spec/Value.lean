import Verif.Spec.Prog

/-!
# Where the forward values are meant to be right

`Instr.Ok` and `Prog.Ok` ask for differentiability, because they are about derivatives.  Forward
values must be right on the whole domain of the functions: at `abs(0)`, `sqrt(0)`, `asin(1)`,
`norm2` of a zero vector, a power of base 0, a comparison of equal numbers, and for `x + 0.0`.
-/

namespace Spec

/-- where a unary function has a value: the end points of the domain are included, except those at
which the library stops the program (`acosh(1)`, `atanh(±1)`; property C29) -/
def Un.vdom : Un → ℝ → Prop
  | .abs, _ => True
  | .asin, x => -1 ≤ x ∧ x ≤ 1
  | .acos, x => -1 ≤ x ∧ x ≤ 1
  | .sqrt, x => 0 ≤ x
  | f, x => f.dom x

/-- where the power of real numbers is defined: positive base; base 0 with exponent at least 0; any
other base with an integral exponent -/
def powDom (x y : ℝ) : Prop := 0 < x ∨ (x = 0 ∧ 0 ≤ y) ∨ (x ≠ 0 ∧ ∃ n : ℤ, y = n)

/-- variable and variable -/
def Bin.vdomVV : Bin → ℝ → ℝ → Prop
  | .div, _, y => y ≠ 0
  | .pow, x, y => powDom x y
  | _, _, _ => True

/-- variable and real; the value of `x**(-2.0)` is wrong (property C16) -/
def Bin.vdomVD : Bin → ℝ → ℝ → Prop
  | .div, _, d => d ≠ 0
  | .pow, x, d => powDom x d ∧ d ≠ -2
  | _, _, _ => True

/-- real and variable; `hypot(0.0, y)` is wrong for `y < 0` (property C17) -/
def Bin.vdomDV : Bin → ℝ → ℝ → Prop
  | .div, _, y => y ≠ 0
  | .pow, d, y => powDom d y
  | .hypot, d, y => d ≠ 0 ∨ 0 ≤ y
  | _, _, _ => True

/-- the operands exist, the shapes conform and the point is in the domain of the function -/
def Instr.VOk : Instr → List ℝ → Prop
  | .un f i, env => i < env.length ∧ f.vdom (look env i)
  | .bin f i j, env => i < env.length ∧ j < env.length ∧ f.vdomVV (look env i) (look env j)
  | .binVD f i d, env => i < env.length ∧ f.vdomVD (look env i) d
  | .binDV f d i, env => i < env.length ∧ f.vdomDV d (look env i)
  | .norm2 is, env => ∀ i ∈ is, i < env.length
  | .partials _ dφ is, env =>
      (∀ i ∈ is, i < env.length) ∧ (dφ (is.map (look env))).length = is.length
  | .user _ _ is _, env => ∀ i ∈ is, i < env.length
  | i, env => i.Ok env

/-- every step of the program is inside its domain; nothing is asked of compared numbers -/
def Prog.VOk : Prog → List ℝ → Prop
  | .ret outs, env => ∀ i ∈ outs, i < env.length
  | .op i k, env => i.VOk env ∧ k.VOk (env ++ i.sem env)
  | .ifVV o i j p q, env => i < env.length ∧ j < env.length ∧
      (o.holds (look env i) (look env j) → p.VOk env) ∧ (¬ o.holds (look env i) (look env j) → q.VOk env)
  | .ifVD o i d p q, env => i < env.length ∧
      (o.holds (look env i) d → p.VOk env) ∧ (¬ o.holds (look env i) d → q.VOk env)

end Spec
