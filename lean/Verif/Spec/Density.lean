import Mathlib.Probability.Distributions.Gaussian.Real

/-!
# The densities of C24 and C25
-/

namespace Spec
open ProbabilityTheory

/-- the density at `y` of the normal distribution with mean `mu` and standard deviation `sigma` -/
noncomputable def normalPDF (mu sigma y : ℝ) : ℝ := gaussianPDFReal mu (Real.toNNReal (sigma ^ 2)) y

/-- the density at `y > 0` of the lognormal distribution, the distribution of the exponential of a normal variable
(`Props.lognormal_density`) -/
noncomputable def lognormalPDF (mu sigma y : ℝ) : ℝ := normalPDF mu sigma (Real.log y) / y

/-- the logarithm of the density of independent observations `ys` -/
noncomputable def logLik (pdf : ℝ → ℝ → ℝ → ℝ) (ys : List ℝ) (mu sigma : ℝ) : ℝ :=
  (ys.map fun y => Real.log (pdf mu sigma y)).sum

end Spec
