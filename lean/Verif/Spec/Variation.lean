import Mathlib.Analysis.Calculus.Deriv.Basic
import Verif.Spec.Ode

/-!
# Derivatives of the solutions of differential equations

`F t i` is component `i` of the right-hand side at time `t`, a function of the state (`n` numbers) followed by the
parameters.
-/

namespace Spec
open Fz Set Filter Topology

/-- `y` solves the differential equation with parameters `q` from `t0` to `T` -/
def IsSolution (F : ℝ → Nat → List ℝ → ℝ) (n : Nat) (t0 T : ℝ) (q : List ℝ) (y : ℝ → List ℝ) : Prop :=
  ∀ t ∈ Icc t0 T, (y t).length = n ∧ ∀ i < n,
    HasDerivWithinAt (fun r => (y r).getD i 0) (F t i (y t ++ q)) (Icc t0 T) t

/-- `S` solves the sensitivity equations along the solution `y` -/
def IsSensitivity (F : ℝ → Nat → List ℝ → ℝ) (t0 T : ℝ) (q : List ℝ) (src : Nat → Option Nat) (ns : Nat)
    (y : ℝ → List ℝ) (S : ℝ → List (List ℝ)) : Prop :=
  ∀ t ∈ Icc t0 T, (S t).length = ns ∧ ∃ o, IsSensRhs (F t) (y t) q src (S t) o ∧
    ∀ j < ns, ((S t).getD j []).length = (y t).length ∧ ∀ i < (y t).length,
      HasDerivWithinAt (fun r => ((S r).getD j []).getD i 0) ((o.getD j []).getD i 0) (Icc t0 T) t

/-- `x` differs from `x'` by at most `ρ` in every component -/
def NearBy (ρ : ℝ) (x x' : List ℝ) : Prop := x.length = x'.length ∧ ∀ i < x.length, |x.getD i 0 - x'.getD i 0| ≤ ρ

/-- the right-hand side is continuously differentiable, with respect to state and parameters, at distance up to `ρ`
from the curve `w` -/
def C1Near (F : ℝ → Nat → List ℝ → ℝ) (n m : Nat) (t0 T ρ : ℝ) (w : ℝ → List ℝ) : Prop :=
  ∀ i < n, ∃ d : ℝ → List ℝ → List ℝ,
    (∀ t ∈ Icc t0 T, ∀ x, NearBy ρ x (w t) → IsGradAt (F t i) x (d t x)) ∧
    ∀ j < m, ContinuousOn (fun p : ℝ × (Fin m → ℝ) => (d p.1 (List.ofFn p.2)).getD j 0)
      {p | p.1 ∈ Icc t0 T ∧ NearBy ρ (List.ofFn p.2) (w p.1)}

/-- the numbers of `S` are at most `ε` away from those of `S'`, for `ns` sensitivities of `n` components -/
def NearS (ε : ℝ) (ns n : Nat) (S S' : List (List ℝ)) : Prop :=
  ∀ j < ns, ∀ i < n, |(S.getD j []).getD i 0 - (S'.getD j []).getD i 0| ≤ ε

/-- `Y r`, for `r` near `r0`, is a family of solutions, with parameters `Q r`; the initial values have the derivatives
`dy` with respect to `r`, the parameters `dq`; the right-hand side is continuously differentiable near the solution
`Y r0` -/
structure Family (F : ℝ → Nat → List ℝ → ℝ) (n nq : Nat) (t0 T r0 : ℝ) (Y : ℝ → ℝ → List ℝ) (Q : ℝ → List ℝ)
    (dy dq : Nat → ℝ) : Prop where
  solves : ∀ᶠ r in 𝓝 r0, (Q r).length = nq ∧ IsSolution F n t0 T (Q r) (Y r)
  start : ∀ i < n, HasDerivAt (fun r => (Y r t0).getD i 0) (dy i) r0
  pars : ∀ k < nq, HasDerivAt (fun r => (Q r).getD k 0) (dq k) r0
  smooth : ∃ ρ > 0, C1Near F n (n + nq) t0 T ρ (fun t => Y r0 t ++ Q r0)

/-- the solver, when its questions are answered correctly, returns the solution `y` and the sensitivities `S` at the
output times with an error of at most `ε` in every number -/
def AccurateTo {σ : Type} (ε : ℝ) (pr : Problem) (sv : Solver ℝ σ) (n ns : Nat) (y : ℝ → List ℝ)
    (S : ℝ → List (List ℝ)) : List ℝ → σ → Prop
  | [], _ => True
  | t :: ts, m => ∀ yv yS m', Solves pr (sv.step m t) (0, yv, yS, m') →
      (∀ i < n, |yv.getD i 0 - (y t).getD i 0| ≤ ε) ∧ NearS ε ns n yS (S t) ∧ AccurateTo ε pr sv n ns y S ts m'

/-- for all initial values `w` close to `z`, `Y w` is the solution that starts with `w`; the right-hand side is
continuously differentiable near the solution that starts with `z` -/
def SolutionsFrom (F : ℝ → Nat → List ℝ → ℝ) (t0 T : ℝ) (z : List ℝ) (Y : List ℝ → ℝ → List ℝ) : Prop :=
  (∃ δ > 0, ∀ w, NearBy δ w z → IsSolution F z.length t0 T [] (Y w) ∧ Y w t0 = w) ∧
  ∃ ρ > 0, C1Near F z.length z.length t0 T ρ (Y z)

/-- for all parameters `w` close to `z`, `Y w` is the solution that starts with `y`; the right-hand side is continuously
differentiable near the solution for `z` -/
def SolutionsWith (F : ℝ → Nat → List ℝ → ℝ) (t0 T : ℝ) (y z : List ℝ) (Y : List ℝ → ℝ → List ℝ) : Prop :=
  (∃ δ > 0, ∀ w, NearBy δ w z → IsSolution F y.length t0 T w (Y w) ∧ Y w t0 = y) ∧
  ∃ ρ > 0, C1Near F y.length (y.length + z.length) t0 T ρ (fun t => Y z t ++ z)

end Spec
