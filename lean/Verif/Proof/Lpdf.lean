import Verif.Proof.Steps

/-!
# Log densities: value and partial derivatives
-/

set_option linter.unusedSectionVars false

namespace Fz
open Arith Spec

theorem logSqrtTwoPi_real : (logSqrtTwoPi : ℝ) = Real.log √(2 * Real.pi) := by
  unfold logSqrtTwoPi logTwoPi
  rw [piC_real, rMul, rAdd, rLog, rLog, rHalf, rTwo, Real.log_sqrt (by positivity),
    Real.log_mul (by norm_num) Real.pi_pos.ne']
  ring

/-- the models of the log densities and of their partial derivatives -/
noncomputable def lpM : Dist → ℝ → ℝ → ℝ → ℝ
  | .normal => Normal.logp
  | .lognormal => LogNormal.logp
/-- the model of the derivative in the location -/
noncomputable def gmM : Dist → ℝ → ℝ → ℝ → ℝ
  | .normal => Normal.gradMu
  | .lognormal => LogNormal.gradMu
/-- the model of the derivative in the scale -/
noncomputable def gsM : Dist → ℝ → ℝ → ℝ → ℝ
  | .normal => Normal.gradSigma
  | .lognormal => LogNormal.gradSigma

theorem lpM_real (d : Dist) {mu sigma y : ℝ} (hs : 0 < sigma) (hy : d.supp y) :
    lpM d mu sigma y = d.logpdf mu sigma y := by
  have hpi : 0 < √(2 * Real.pi) := Real.sqrt_pos.mpr (by positivity)
  cases d with
  | normal =>
    simp only [lpM, Normal.logp, Dist.logpdf]
    rw [Real.log_mul (by positivity) (Real.exp_pos _).ne', Real.log_exp, one_div, Real.log_inv,
      Real.log_mul hs.ne' hpi.ne', logSqrtTwoPi_real]
    simp only [rSub, rNeg, rMul, rDiv, rLog, rHalf, rOne]
    field_simp
    ring
  | lognormal =>
    have hy' : 0 < y := hy
    simp only [lpM, LogNormal.logp, Dist.logpdf]
    rw [Real.log_mul (by positivity) (Real.exp_pos _).ne', Real.log_exp, one_div, Real.log_inv,
      Real.log_mul (by positivity) hpi.ne', Real.log_mul hy'.ne' hs.ne', logSqrtTwoPi_real]
    simp only [rSub, rNeg, rMul, rDiv, rLog, rHalf, rOne]
    field_simp
    ring

/-- the common shape -/
theorem gauss_deriv {E : Type} [NormedAddCommGroup E] [NormedSpace ℝ E] (t k : ℝ) {m sg : E → ℝ} {dm ds : E →L[ℝ] ℝ} {x0 : E}
    (hm : HasFDerivAt m dm x0) (hs : HasFDerivAt sg ds x0) (h0 : 0 < sg x0) :
    HasFDerivAt (fun x => -(1 / 2 * ((t - m x) * (1 / sg x)) * ((t - m x) * (1 / sg x)))
        - Real.log (sg x) - k)
      (((t - m x0) * (1 / sg x0) * (1 / sg x0)) • dm +
        (1 / sg x0 * ((t - m x0) * (1 / sg x0)) * ((t - m x0) * (1 / sg x0)) - 1 / sg x0) • ds) x0 := by
  have hi : HasFDerivAt (fun x => (sg x)⁻¹) ((-((sg x0) ^ 2)⁻¹) • ds) x0 :=
    (hasDerivAt_inv (x := sg x0) h0.ne').comp_hasFDerivAt x0 hs
  have hq := (hm.const_sub t).fun_mul hi
  have h1 := (((hq.const_mul (1/2 : ℝ)).fun_mul hq).fun_neg.fun_sub (hs.log h0.ne')).sub_const k
  simp only [one_div]
  simp only [one_div] at h1
  refine h1.congr_fderiv ?_
  ext z
  simp
  have := h0.ne'
  field_simp
  ring

theorem lpM_deriv (d : Dist) {E : Type} [NormedAddCommGroup E] [NormedSpace ℝ E] (y : ℝ) {m sg : E → ℝ}
    {dm ds : E →L[ℝ] ℝ} {x0 : E}
    (hm : HasFDerivAt m dm x0) (hs : HasFDerivAt sg ds x0) (h0 : 0 < sg x0) :
    HasFDerivAt (fun x => lpM d (m x) (sg x) y)
      (gmM d (m x0) (sg x0) y • dm + gsM d (m x0) (sg x0) y • ds) x0 := by
  cases d with
  | normal => exact gauss_deriv y _ hm hs h0
  | lognormal =>
    have h := gauss_deriv (Real.log y) (Real.log y + logSqrtTwoPi) hm hs h0
    refine HasFDerivAt.congr_of_eventuallyEq h (Filter.Eventually.of_forall fun x => ?_)
    show Arith.sub _ _ = _
    simp only [rSub, rNeg, rMul, rDiv, rLog, rHalf, rOne]
    ring

theorem lpdf_sum_deriv (d : Dist) {E : Type} [NormedAddCommGroup E] [NormedSpace ℝ E]
    {m sg : E → ℝ} {dm ds : E →L[ℝ] ℝ} {x0 : E}
    (hm : HasFDerivAt m dm x0) (hs : HasFDerivAt sg ds x0) (h0 : 0 < sg x0) : ∀ (ys : List ℝ),
    (∀ y ∈ ys, d.supp y) →
    HasFDerivAt (fun x => (ys.map (d.logpdf (m x) (sg x))).sum)
      ((ys.map (gmM d (m x0) (sg x0))).sum • dm + (ys.map (gsM d (m x0) (sg x0))).sum • ds) x0 := by
  intro ys
  induction ys with
  | nil => intro _; simpa using hasFDerivAt_const (0:ℝ) x0
  | cons y ys ih =>
    intro hy
    simp only [List.map_cons, List.sum_cons]
    have h1 := lpM_deriv d y hm hs h0
    have h2 : HasFDerivAt (fun x => d.logpdf (m x) (sg x) y)
      (gmM d (m x0) (sg x0) y • dm + gsM d (m x0) (sg x0) y • ds) x0 := by
      refine h1.congr_of_eventuallyEq ?_
      have hev : ∀ᶠ x in nhds x0, 0 < sg x := hs.continuousAt.eventually (lt_mem_nhds h0)
      filter_upwards [hev] with x hx
      exact (lpM_real d hx (hy y (by simp))).symm
    refine (h2.add (ih fun z hz => hy z (by simp [hz]))).congr_fderiv ?_
    rw [add_smul, add_smul]; abel

theorem lpdf_sum_value (d : Dist) {mu sigma : ℝ} (hs : 0 < sigma) (ys : List ℝ) (hy : ∀ y ∈ ys, d.supp y) :
    fsum (ys.map (lpM d mu sigma)) = (ys.map (d.logpdf mu sigma)).sum := by
  rw [fsum_real]
  congr 1
  exact List.map_congr_left fun y h => lpM_real d hs (hy y h)

end Fz
