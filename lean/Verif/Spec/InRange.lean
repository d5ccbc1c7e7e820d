import Verif.Spec.Over

/-! # Arrays on which `log_sum_exp` has nothing to overflow -/

namespace Spec

/-- Every entry is a finite double or `-Infinity`; the logarithm of the sum of the exponentials, and its distance from
each finite entry, is no larger than the largest double. -/
structure InRange (x : List Over) : Prop where
  entries : ∀ y ∈ x, y = .ninf ∨ ∃ a : ℝ, y = .fin a ∧ |a| ≤ big
  value : |Real.log (x.map weight).sum| ≤ big
  spread : ∀ a : ℝ, .fin a ∈ x → Real.log (x.map weight).sum - a ≤ big

end Spec
