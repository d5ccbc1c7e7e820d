import Mathlib.Analysis.SpecialFunctions.Gamma.Beta
import Mathlib.Analysis.SpecialFunctions.Gamma.Deriv
import Mathlib.Analysis.SpecialFunctions.Gamma.BohrMollerup
import Mathlib.Analysis.Convex.Deriv
import Mathlib.Analysis.SpecialFunctions.Trigonometric.Cotangent

/-!
# The derivative of `log |Γ|`
-/

namespace Fz.Psi
open Real Set Filter Topology

/-- the digamma function -/
noncomputable def psi (x : ℝ) : ℝ := deriv (fun t => log |Gamma t|) x

theorem psi_hasDerivAt {x : ℝ} (hx : ∀ m : ℕ, x ≠ -m) : HasDerivAt (fun t => log |Gamma t|) (psi x) x := by
  refine DifferentiableAt.hasDerivAt ?_
  have h1 := differentiableAt_Gamma hx
  have h2 : Gamma x ≠ 0 := Gamma_ne_zero hx
  have e : (fun t => log |Gamma t|) = fun t => log (Gamma t) := by funext t; rw [log_abs]
  rw [e]
  exact h1.log h2

theorem pos_ne {x : ℝ} (hx : 0 < x) (m : ℕ) : x ≠ -m := by
  have : (0 : ℝ) ≤ m := Nat.cast_nonneg m
  linarith

theorem psi_pos {x : ℝ} (hx : 0 < x) : HasDerivAt (log ∘ Gamma) (psi x) x := by
  have := psi_hasDerivAt (pos_ne hx)
  have e : (fun t => log |Gamma t|) = log ∘ Gamma := by funext t; rw [log_abs]; rfl
  rwa [e] at this

theorem logGamma_add_one {x : ℝ} (hx : 0 < x) : (log ∘ Gamma) (x + 1) = log x + (log ∘ Gamma) x := by
  simp only [Function.comp]
  rw [Gamma_add_one hx.ne', log_mul hx.ne' (Gamma_pos_of_pos hx).ne']

theorem psi_add_one {x : ℝ} (hx : 0 < x) : psi (x + 1) = psi x + 1 / x := by
  have h1 : HasDerivAt (fun t => (log ∘ Gamma) (t + 1)) (psi (x + 1)) x := by
    have := (psi_pos (x := x + 1) (by linarith)).comp_add_const x 1
    exact this
  have h2 : HasDerivAt (fun t => log t + (log ∘ Gamma) t) (x⁻¹ + psi x) x := (hasDerivAt_log hx.ne').add (psi_pos hx)
  have h3 : (fun t => (log ∘ Gamma) (t + 1)) =ᶠ[𝓝 x] fun t => log t + (log ∘ Gamma) t := by
    filter_upwards [lt_mem_nhds hx] with t ht using logGamma_add_one ht
  rw [(h1.congr_of_eventuallyEq h3.symm).unique h2, one_div, add_comm]

theorem psi_le_log {x : ℝ} (hx : 0 < x) : psi x ≤ log x := by
  have h := convexOn_log_Gamma.le_slope_of_hasDerivAt (x := x) (y := x + 1) hx (by simp; linarith) (by linarith) (psi_pos hx)
  rw [slope_def_field, logGamma_add_one hx] at h
  simpa using h

theorem log_le_psi {x : ℝ} (hx : 0 < x) : log x - 1 / x ≤ psi x := by
  have h := convexOn_log_Gamma.slope_le_of_hasDerivAt (x := x) (y := x + 1) hx (by simp; linarith) (by linarith)
    (psi_pos (by linarith))
  rw [slope_def_field, logGamma_add_one hx, psi_add_one hx] at h
  have : log x ≤ psi x + 1 / x := by simpa using h
  linarith

/-- `F` satisfies the functional equation as an inequality, and is like the logarithm at infinity -/
theorem le_psi {F : ℝ → ℝ} {L a : ℝ} (ha : 0 < a) (hF : ∀ x, a ≤ x → F x + 1 / x ≤ F (x + 1))
    (hL : Tendsto (fun x => F x - log x) atTop (𝓝 L)) {x : ℝ} (hx : a ≤ x) : F x ≤ psi x + L := by
  have m : Monotone fun n : ℕ => F (x + n) - psi (x + n) := by
    refine monotone_nat_of_le_succ fun n => ?_
    have h0 : (0 : ℝ) ≤ n := Nat.cast_nonneg n
    have h1 := hF (x + n) (by linarith)
    have h2 := psi_add_one (x := x + n) (by linarith)
    push_cast
    rw [← add_assoc, h2]
    linarith
  have ht : Tendsto (fun n : ℕ => x + (n : ℝ)) atTop atTop := tendsto_atTop_add_const_left _ _ tendsto_natCast_atTop_atTop
  have z : Tendsto (fun y : ℝ => log y - psi y) atTop (𝓝 0) := by
    refine tendsto_of_tendsto_of_tendsto_of_le_of_le' tendsto_const_nhds (tendsto_inv_atTop_zero (𝕜 := ℝ)) ?_ ?_
    · filter_upwards [eventually_gt_atTop 0] with y hy
      linarith [psi_le_log hy]
    · filter_upwards [eventually_gt_atTop 0] with y hy
      have := log_le_psi hy
      rw [one_div] at this
      linarith
  have lim : Tendsto (fun n : ℕ => F (x + n) - psi (x + n)) atTop (𝓝 L) := by
    have := (hL.add z).comp ht
    rw [add_zero] at this
    refine this.congr fun n => ?_
    simp
  have := m.ge_of_tendsto lim 0
  simp at this
  linarith

theorem psi_le {F : ℝ → ℝ} {L a : ℝ} (ha : 0 < a) (hF : ∀ x, a ≤ x → F (x + 1) ≤ F x + 1 / x)
    (hL : Tendsto (fun x => F x - log x) atTop (𝓝 L)) {x : ℝ} (hx : a ≤ x) : psi x + L ≤ F x := by
  have m : Antitone fun n : ℕ => F (x + n) - psi (x + n) := by
    refine antitone_nat_of_succ_le fun n => ?_
    have h0 : (0 : ℝ) ≤ n := Nat.cast_nonneg n
    have h1 := hF (x + n) (by linarith)
    have h2 := psi_add_one (x := x + n) (by linarith)
    push_cast
    rw [← add_assoc, h2]
    linarith
  have ht : Tendsto (fun n : ℕ => x + (n : ℝ)) atTop atTop := tendsto_atTop_add_const_left _ _ tendsto_natCast_atTop_atTop
  have z : Tendsto (fun y : ℝ => log y - psi y) atTop (𝓝 0) := by
    refine tendsto_of_tendsto_of_tendsto_of_le_of_le' tendsto_const_nhds (tendsto_inv_atTop_zero (𝕜 := ℝ)) ?_ ?_
    · filter_upwards [eventually_gt_atTop 0] with y hy
      linarith [psi_le_log hy]
    · filter_upwards [eventually_gt_atTop 0] with y hy
      have := log_le_psi hy
      rw [one_div] at this
      linarith
  have lim : Tendsto (fun n : ℕ => F (x + n) - psi (x + n)) atTop (𝓝 L) := by
    have := (hL.add z).comp ht
    rw [add_zero] at this
    refine this.congr fun n => ?_
    simp
  have := m.le_of_tendsto lim 0
  simp at this
  linarith

/-- reflection -/
theorem psi_reflect {x : ℝ} (hx : ¬ ∃ n : ℤ, x = n) : psi x = psi (1 - x) - π * cot (π * x) := by
  have h1 : ∀ m : ℕ, x ≠ -m := fun m h => hx ⟨-m, by push_cast; exact h⟩
  have h2 : ∀ m : ℕ, 1 - x ≠ -m := fun m h => hx ⟨1 + m, by push_cast; linarith⟩
  have hs : sin (π * x) ≠ 0 := by
    intro h
    rw [sin_eq_zero_iff] at h
    obtain ⟨n, hn⟩ := h
    refine hx ⟨n, ?_⟩
    have := pi_pos.ne'
    have : π * (x - n) = 0 := by linarith
    rcases mul_eq_zero.mp this with h | h
    · contradiction
    · linarith
  have d1 := psi_hasDerivAt h1
  have d2 : HasDerivAt (fun t => log |Gamma (1 - t)|) (-psi (1 - x)) x := by
    have := (psi_hasDerivAt h2).scomp x ((hasDerivAt_id x).const_sub 1)
    simpa [Function.comp_def] using this
  have d3 : HasDerivAt (fun t => log π - log (sin (π * t))) (-(π * cot (π * x))) x := by
    have h := ((hasDerivAt_id x).const_mul π).sin.log hs
    have := h.const_sub (log π)
    have e : -(π * cot (π * x)) = -(cos (π * id x) * (π * 1) / sin (π * id x)) := by
      rw [cot_eq_cos_div_sin]
      simp
      ring
    rw [e]
    exact this
  have e : (fun t => log |Gamma t| + log |Gamma (1 - t)|) =ᶠ[𝓝 x] fun t => log π - log (sin (π * t)) := by
    have o : ∀ᶠ t in 𝓝 x, sin (π * t) ≠ 0 := by
      have : ContinuousAt (fun t => sin (π * t)) x := by fun_prop
      exact this.eventually_ne hs
    filter_upwards [o] with t ht
    have hg := Gamma_mul_Gamma_one_sub t
    have hne : Gamma t * Gamma (1 - t) ≠ 0 := by
      rw [hg]
      exact div_ne_zero pi_pos.ne' ht
    rw [log_abs, log_abs, ← log_mul (left_ne_zero_of_mul hne) (right_ne_zero_of_mul hne), hg, log_div pi_pos.ne' ht]
  have := ((d1.add d2).congr_of_eventuallyEq e.symm).unique d3
  linarith

end Fz.Psi
