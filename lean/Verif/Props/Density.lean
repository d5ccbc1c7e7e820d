import Verif.Props.Rules
import Verif.Spec.Density
import Mathlib.MeasureTheory.Function.JacobianOneDim

/-!
# C23, C24, C25: supplied partial derivatives; log densities
-/

set_option linter.unusedSectionVars false

namespace Props
open Fz Spec

variable {W : Type} [Rep W ℝ] [LawfulRep W ℝ]
variable {h : List (Call ℝ)} {c : Client W} {u : Var} {b : Var → ℝ}

/-- **C23**: `var_with_partials(x, ops, partials)` gives a variable with value `x` whose derivative with respect
to any variable is the sum of the supplied numbers times the derivatives of the operands, which may be any
variables and may repeat. -/
theorem C23_partials (hr : Reach h c) {vs : List Var} (hvs : ∀ v ∈ vs, v ∈ existing c.st) (x : ℝ) (ds : List ℝ)
    (hl : ds.length = vs.length) (room : c.st.tape.head + (6 + 3 * vs.length) ≤ tapeLimit)
    (hu : u ∈ existing c.st) (hb : Rates c.st u b) :
    ∃ r s', (varWithPartials x vs ds : M W Var) c.st = .ok (r, s') ∧
      Gives c.st s' r x u (List.zipWith (fun d v => d * b v) ds vs).sum := by
  obtain ⟨g, val, adj, G⟩ := hr.good
  have hys := G.inv.varVals fun v hv => (mem_existing G.inv).mp (hvs v hv)
  refine record_gives hr hvs hys (ds := ds) (ch := .eager) (fun g val adj hi hh _ => ?_) ?_ hu hb
  · obtain ⟨s', e, gr⟩ := hi.varWithPartials_ok x hh ds (by omega) (by
      have : cap = tapeLimit := rfl
      omega)
    rw [List.take_of_length_le (by omega)] at gr
    exact ⟨s', e, gr⟩
  · intro a
    simp [contribPlain, hl, Arith.mul]

/-! ## Log densities -/

theorem normal_logpdf {mu sigma y : ℝ} (hs : 0 < sigma) :
    Dist.logpdf .normal mu sigma y = Real.log (normalPDF mu sigma y) := by
  unfold Dist.logpdf normalPDF ProbabilityTheory.gaussianPDFReal
  have h1 : ((Real.toNNReal (sigma ^ 2) : NNReal) : ℝ) = sigma ^ 2 := Real.coe_toNNReal _ (by positivity)
  have h2 : √(2 * Real.pi * sigma ^ 2) = √(2 * Real.pi) * sigma := by
    rw [Real.sqrt_mul (by positivity), Real.sqrt_sq hs.le]
  simp only [h1, h2, one_div, mul_comm sigma]

theorem lognormal_logpdf {mu sigma y : ℝ} (hs : 0 < sigma) :
    Dist.logpdf .lognormal mu sigma y = Real.log (lognormalPDF mu sigma y) := by
  unfold Dist.logpdf lognormalPDF normalPDF ProbabilityTheory.gaussianPDFReal
  have h1 : ((Real.toNNReal (sigma ^ 2) : NNReal) : ℝ) = sigma ^ 2 := Real.coe_toNNReal _ (by positivity)
  have h2 : √(2 * Real.pi * sigma ^ 2) = √(2 * Real.pi) * sigma := by
    rw [Real.sqrt_mul (by positivity), Real.sqrt_sq hs.le]
  simp only [h1, h2, one_div, mul_inv]
  congr 1
  ring

/-- the density of a distribution family -/
noncomputable def Dist.pdf : Dist → ℝ → ℝ → ℝ → ℝ
  | .normal => normalPDF
  | .lognormal => lognormalPDF

theorem sum_logpdf (d : Dist) (ys : List ℝ) {mu sigma : ℝ} (hs : 0 < sigma) :
    (ys.map (d.logpdf mu sigma)).sum = logLik (Dist.pdf d) ys mu sigma := by
  unfold logLik
  congr 1
  apply List.map_congr_left
  intro y _
  cases d
  · exact normal_logpdf hs
  · exact lognormal_logpdf hs

/-- the log likelihood along a line -/
theorem logLik_line (d : Dist) (ys : List ℝ) (hy : ∀ y ∈ ys, d.supp y) {mu sigma : ℝ} (hs : 0 < sigma) (β γ : ℝ) :
    HasDerivAt (fun t => (ys.map (d.logpdf (mu + t * β) (sigma + t * γ))).sum)
      (deriv (fun m => logLik (Dist.pdf d) ys m sigma) mu * β + deriv (fun s => logLik (Dist.pdf d) ys mu s) sigma * γ) 0 := by
  have hline : ∀ x β : ℝ, HasFDerivAt (fun t : ℝ => x + t * β) (β • (1 : ℝ →L[ℝ] ℝ)) 0 := fun x β => by
    have : HasDerivAt (fun t : ℝ => x + t * β) β 0 := by
      simpa using ((hasDerivAt_id (0:ℝ)).mul_const β).const_add x
    refine this.hasFDerivAt.congr_fderiv ?_
    ext; simp
  have hid : ∀ x : ℝ, HasFDerivAt (fun t : ℝ => t) (1 : ℝ →L[ℝ] ℝ) x := fun x => hasFDerivAt_id x
  have k := (lpdf_sum_deriv d (hline mu β) (hline sigma γ) (by simpa using hs) ys hy).hasDerivAt
  have k1 := (lpdf_sum_deriv d (hid mu) (hasFDerivAt_const sigma mu) hs ys hy).hasDerivAt
  have k2 := (lpdf_sum_deriv d (hasFDerivAt_const mu sigma) (hid sigma) hs ys hy).hasDerivAt
  have e1 : (fun m => logLik (Dist.pdf d) ys m sigma) = fun m => (ys.map (d.logpdf m sigma)).sum :=
    funext fun m => (sum_logpdf d ys hs).symm
  have e2 : (fun s => logLik (Dist.pdf d) ys mu s) =ᶠ[nhds sigma] fun s => (ys.map (d.logpdf mu s)).sum := by
    filter_upwards [lt_mem_nhds hs] with s hs
    exact (sum_logpdf d ys hs).symm
  rw [e1, k1.deriv, (k2.congr_of_eventuallyEq e2).deriv]
  refine k.congr_deriv ?_
  simp

/-- all combinations, for both families -/
theorem lpdf_gives (d : Dist) (hr : Reach h c) {ys : List ℝ} (hy : ∀ y ∈ ys, d.supp y) {mu sigma : Var}
    (hmu : mu ∈ existing c.st) (hsi : sigma ∈ existing c.st) {m s : ℝ} (hm : (mu.val : M W ℝ) c.st = .ok (m, c.st))
    (hs : (sigma.val : M W ℝ) c.st = .ok (s, c.st)) (hpos : 0 < s) (room : c.st.tape.head + 12 ≤ tapeLimit)
    (hu : u ∈ existing c.st) (hb : Rates c.st u b) :
    (∃ r s', (d.apiVV ys mu sigma : M W Var) c.st = .ok (r, s') ∧ Gives c.st s' r (logLik (Dist.pdf d) ys m s) u
      (deriv (fun z => logLik (Dist.pdf d) ys z s) m * b mu + deriv (fun z => logLik (Dist.pdf d) ys m z) s * b sigma)) ∧
    (∀ s : ℝ, 0 < s → ∃ r s', (d.apiVD ys mu s : M W Var) c.st = .ok (r, s') ∧
      Gives c.st s' r (logLik (Dist.pdf d) ys m s) u (deriv (fun z => logLik (Dist.pdf d) ys z s) m * b mu)) ∧
    ∀ m : ℝ, ∃ r s', (d.apiDV ys m sigma : M W Var) c.st = .ok (r, s') ∧
      Gives c.st s' r (logLik (Dist.pdf d) ys m s) u (deriv (fun z => logLik (Dist.pdf d) ys m z) s * b sigma) := by
  refine ⟨?_, fun s hpos => ?_, fun m => ?_⟩
  · have := instr_gives (i := .lpdfVV d ys 0 1) (m := d.apiVV ys mu sigma)
      (f := fun z => (ys.map (d.logpdf (look z 0) (look z 1))).sum) hr (vs := [mu, sigma])
      (by simp [hmu, hsi]) (vals_two hm hs) rfl (fun _ => rfl) ⟨by simp, by simp, hpos, hy⟩ id room hu hb
      (logLik_line d ys hy hpos (b mu) (b sigma))
    rw [← sum_logpdf d ys hpos]
    exact this
  · have := instr_gives (i := .lpdfVD d ys 0 s) (m := d.apiVD ys mu s)
      (f := fun z => (ys.map (d.logpdf (look z 0) s)).sum) hr (vs := [mu])
      (by simp [hmu]) (vals_one hm) rfl (fun _ => rfl) ⟨by simp, hpos, hy⟩ id
      (by change c.st.tape.head + 9 ≤ _; omega) hu hb
      (a := deriv (fun z => logLik (Dist.pdf d) ys z s) m * b mu)
      (by simpa [along, look] using logLik_line d ys hy (mu := m) hpos (b mu) 0)
    rw [← sum_logpdf d ys hpos]
    exact this
  · have := instr_gives (i := .lpdfDV d ys m 0) (m := d.apiDV ys m sigma)
      (f := fun z => (ys.map (d.logpdf m (look z 0))).sum) hr (vs := [sigma])
      (by simp [hsi]) (vals_one hs) rfl (fun _ => rfl) ⟨by simp, hpos, hy⟩ id
      (by change c.st.tape.head + 9 ≤ _; omega) hu hb
      (a := deriv (fun z => logLik (Dist.pdf d) ys m z) s * b sigma)
      (by simpa [along, look] using logLik_line d ys hy (mu := m) hpos 0 (b sigma))
    rw [← sum_logpdf d ys hpos]
    exact this

/-- **C24**: `normal_lpdf` of any data, with `mu` and `sigma` variables, one of them a variable, and both real:
the value is the sum of the logarithms of the normal density, the derivatives are those of that sum. -/
theorem C24_normal (hr : Reach h c) (ys : List ℝ) {mu sigma : Var}
    (hmu : mu ∈ existing c.st) (hsi : sigma ∈ existing c.st) {m s : ℝ} (hm : (mu.val : M W ℝ) c.st = .ok (m, c.st))
    (hs : (sigma.val : M W ℝ) c.st = .ok (s, c.st)) (hpos : 0 < s) (room : c.st.tape.head + 12 ≤ tapeLimit)
    (hu : u ∈ existing c.st) (hb : Rates c.st u b) :
    (∃ r s', (normalLpdfVV ys mu sigma : M W Var) c.st = .ok (r, s') ∧ Gives c.st s' r (logLik normalPDF ys m s) u
      (deriv (fun z => logLik normalPDF ys z s) m * b mu + deriv (fun z => logLik normalPDF ys m z) s * b sigma)) ∧
    (∀ s : ℝ, 0 < s → ∃ r s', (normalLpdfVD ys mu s : M W Var) c.st = .ok (r, s') ∧
      Gives c.st s' r (logLik normalPDF ys m s) u (deriv (fun z => logLik normalPDF ys z s) m * b mu)) ∧
    (∀ m : ℝ, ∃ r s', (normalLpdfDV ys m sigma : M W Var) c.st = .ok (r, s') ∧
      Gives c.st s' r (logLik normalPDF ys m s) u (deriv (fun z => logLik normalPDF ys m z) s * b sigma)) ∧
    ∀ m s : ℝ, 0 < s → normalLpdfDD ys m s = logLik normalPDF ys m s := by
  obtain ⟨h1, h2, h3⟩ := lpdf_gives .normal hr (ys := ys) (fun _ _ => trivial) hmu hsi hm hs hpos room hu hb
  exact ⟨h1, h2, h3, fun m s hs => (lpdf_sum_value .normal hs ys fun _ _ => trivial).trans (sum_logpdf .normal ys hs)⟩

/-- **C25**: `lognormal_lpdf` of any positive data, likewise. -/
theorem C25_lognormal (hr : Reach h c) {ys : List ℝ} (hy : ∀ y ∈ ys, 0 < y) {mu sigma : Var}
    (hmu : mu ∈ existing c.st) (hsi : sigma ∈ existing c.st) {m s : ℝ} (hm : (mu.val : M W ℝ) c.st = .ok (m, c.st))
    (hs : (sigma.val : M W ℝ) c.st = .ok (s, c.st)) (hpos : 0 < s) (room : c.st.tape.head + 12 ≤ tapeLimit)
    (hu : u ∈ existing c.st) (hb : Rates c.st u b) :
    (∃ r s', (lognormalLpdfVV ys mu sigma : M W Var) c.st = .ok (r, s') ∧
      Gives c.st s' r (logLik lognormalPDF ys m s) u
      (deriv (fun z => logLik lognormalPDF ys z s) m * b mu + deriv (fun z => logLik lognormalPDF ys m z) s * b sigma)) ∧
    (∀ s : ℝ, 0 < s → ∃ r s', (lognormalLpdfVD ys mu s : M W Var) c.st = .ok (r, s') ∧
      Gives c.st s' r (logLik lognormalPDF ys m s) u (deriv (fun z => logLik lognormalPDF ys z s) m * b mu)) ∧
    (∀ m : ℝ, ∃ r s', (lognormalLpdfDV ys m sigma : M W Var) c.st = .ok (r, s') ∧
      Gives c.st s' r (logLik lognormalPDF ys m s) u (deriv (fun z => logLik lognormalPDF ys m z) s * b sigma)) ∧
    ∀ m s : ℝ, 0 < s → lognormalLpdfDD ys m s = logLik lognormalPDF ys m s := by
  obtain ⟨h1, h2, h3⟩ := lpdf_gives .lognormal hr hy hmu hsi hm hs hpos room hu hb
  exact ⟨h1, h2, h3, fun m s hs => (lpdf_sum_value .lognormal hs ys hy).trans (sum_logpdf .lognormal ys hs)⟩

/-- the derivatives of C24 and C25 exist: they are those of differentiable functions, not default values -/
theorem C24_C25_differentiable (ys : List ℝ) (m : ℝ) {s : ℝ} (hs : 0 < s) :
    DifferentiableAt ℝ (fun z => logLik normalPDF ys z s) m ∧ DifferentiableAt ℝ (fun z => logLik normalPDF ys m z) s ∧
    ((∀ y ∈ ys, 0 < y) → DifferentiableAt ℝ (fun z => logLik lognormalPDF ys z s) m ∧
      DifferentiableAt ℝ (fun z => logLik lognormalPDF ys m z) s) := by
  have hid : ∀ x : ℝ, HasFDerivAt (fun t : ℝ => t) (1 : ℝ →L[ℝ] ℝ) x := fun x => hasFDerivAt_id x
  have key : ∀ d : Dist, (∀ y ∈ ys, d.supp y) → DifferentiableAt ℝ (fun z => logLik (Dist.pdf d) ys z s) m ∧
      DifferentiableAt ℝ (fun z => logLik (Dist.pdf d) ys m z) s := by
    intro d hy
    have k1 := (lpdf_sum_deriv d (hid m) (hasFDerivAt_const s m) hs ys hy)
    have k2 := (lpdf_sum_deriv d (hasFDerivAt_const m s) (hid s) hs ys hy)
    have e1 : (fun m => logLik (Dist.pdf d) ys m s) = fun m => (ys.map (d.logpdf m s)).sum :=
      funext fun m => (sum_logpdf d ys hs).symm
    have e2 : (fun z => logLik (Dist.pdf d) ys m z) =ᶠ[nhds s] fun z => (ys.map (d.logpdf m z)).sum := by
      filter_upwards [lt_mem_nhds hs] with s hs
      exact (sum_logpdf d ys hs).symm
    rw [e1]
    exact ⟨k1.differentiableAt, (k2.congr_of_eventuallyEq e2).differentiableAt⟩
  exact ⟨(key .normal fun _ _ => trivial).1, (key .normal fun _ _ => trivial).2, key .lognormal⟩

open MeasureTheory ProbabilityTheory in
/-- `lognormalPDF` is the density of the exponential of a normal variable -/
theorem lognormal_density (mu : ℝ) {sigma : ℝ} (hs : 0 < sigma) {A : Set ℝ} (hA : MeasurableSet A)
    (hpos : A ⊆ Set.Ioi 0) :
    (gaussianReal mu (Real.toNNReal (sigma ^ 2))).map Real.exp A =
      ∫⁻ y in A, ENNReal.ofReal (lognormalPDF mu sigma y) := by
  have hv : Real.toNNReal (sigma ^ 2) ≠ 0 := by
    intro h
    have := Real.toNNReal_eq_zero.mp h
    nlinarith [pow_pos hs 2]
  rw [Measure.map_apply Real.measurable_exp hA, gaussianReal_apply _ hv]
  have himg : Real.exp ⁻¹' A = Real.log '' A := by
    ext x
    constructor
    · intro hx
      exact ⟨Real.exp x, hx, Real.log_exp x⟩
    · rintro ⟨y, hy, rfl⟩
      rw [Set.mem_preimage, Real.exp_log (hpos hy)]
      exact hy
  rw [himg, lintegral_image_eq_lintegral_abs_deriv_mul hA
    (fun x hx => (Real.hasDerivAt_log (ne_of_gt (hpos hx))).hasDerivWithinAt)
    (fun x hx y hy he => Real.log_injOn_pos (hpos hx) (hpos hy) he)]
  refine setLIntegral_congr_fun hA fun y hy => ?_
  have hy : 0 < y := hpos hy
  simp only [gaussianPDF]
  rw [← ENNReal.ofReal_mul (abs_nonneg _), abs_of_pos (inv_pos.mpr hy)]
  congr 1
  rw [lognormalPDF, normalPDF, div_eq_inv_mul]

/-- the hypotheses of C23, C24, C25 are met: `mu` and `sigma` the product and a factor, three observations -/
example : ∃ c : Client ℝ, Reach demo c ∧ (⟨3⟩ : Var) ∈ existing c.st ∧ (⟨1⟩ : Var) ∈ existing c.st ∧
    ((⟨3⟩ : Var).val : M ℝ ℝ) c.st = .ok (6, c.st) ∧ ((⟨1⟩ : Var).val : M ℝ ℝ) c.st = .ok (2, c.st) ∧
    (0:ℝ) < 2 ∧ (∀ y ∈ [(1:ℝ), 1, 5], 0 < y) ∧ c.st.tape.head + 12 ≤ tapeLimit ∧ Rates c.st ⟨1⟩ demoB ∧
    c.st.tape.head + (6 + 3 * [(⟨3⟩ : Var), ⟨3⟩].length) ≤ tapeLimit ∧ [(0.5:ℝ), 7].length = [(⟨3⟩ : Var), ⟨3⟩].length := by
  obtain ⟨c, hr, hh, hex, h1, h2, h3, hb⟩ := demo_rates (W := ℝ)
  exact ⟨c, hr, by simp [hex], by simp [hex], h3, h1, by norm_num, by simp, by rw [hh]; simp [tapeLimit], hb,
    by rw [hh]; simp [tapeLimit], rfl⟩

end Props
