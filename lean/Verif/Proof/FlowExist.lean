import Mathlib.Analysis.ODE.ExistUnique
import Verif.Proof.FlowDeriv

/-!
# Existence of solutions near a solution

Mathlib has the theorem of Picard and Lindelöf, which is local.  Here solutions exist on the whole interval on which a
nearby solution does.
-/

namespace Analysis
open Set Filter Topology
open scoped NNReal

variable {m : Nat}

/-- the point of the cube of radius `ρ` around `w` that is closest to `x` -/
noncomputable def clamp (ρ : ℝ) (w x : Fin m → ℝ) : Fin m → ℝ := fun i => w i + max (-ρ) (min ρ (x i - w i))

theorem clamp_near {ρ : ℝ} (hρ : 0 ≤ ρ) (w x : Fin m → ℝ) : ‖clamp ρ w x - w‖ ≤ ρ := by
  rw [pi_norm_le_iff_of_nonneg hρ]
  intro i
  simp only [clamp, Pi.sub_apply, add_sub_cancel_left, Real.norm_eq_abs, abs_le]
  exact ⟨le_max_left _ _, max_le (by linarith) (min_le_left _ _)⟩

theorem clamp_of_near {ρ : ℝ} {w x : Fin m → ℝ} (h : ‖x - w‖ ≤ ρ) : clamp ρ w x = x := by
  funext i
  have := (norm_le_pi_norm (x - w) i).trans h
  rw [Pi.sub_apply, Real.norm_eq_abs, abs_le] at this
  simp only [clamp]
  rw [min_eq_right this.2, max_eq_right this.1]
  ring

theorem clamp_lipschitz (ρ : ℝ) (w x y : Fin m → ℝ) : ‖clamp ρ w x - clamp ρ w y‖ ≤ ‖x - y‖ := by
  rw [pi_norm_le_iff_of_nonneg (norm_nonneg _)]
  intro i
  refine le_trans ?_ (norm_le_pi_norm (x - y) i)
  simp only [clamp, Pi.sub_apply, add_sub_add_left_eq_sub, Real.norm_eq_abs]
  have h1 := abs_max_sub_max_le_max (-ρ) (min ρ (x i - w i)) (-ρ) (min ρ (y i - w i))
  have h2 := abs_min_sub_min_le_max ρ (x i - w i) ρ (y i - w i)
  simp only [sub_self, abs_zero, sub_sub_sub_cancel_right] at h1 h2
  exact h1.trans (max_le (abs_nonneg _) (h2.trans (max_le (abs_nonneg _) le_rfl)))

theorem exists_near {G : ℝ → (Fin m → ℝ) → Fin m → ℝ} {w : ℝ → Fin m → ℝ} {a b ρ : ℝ} {K : ℝ≥0} (hρ : 0 < ρ)
    (hK : ∀ t ∈ Icc a b, LipschitzOnWith K (G t) (Metric.closedBall (w t) ρ))
    (hc : ContinuousOn (fun p : ℝ × (Fin m → ℝ) => G p.1 p.2) {p | p.1 ∈ Icc a b ∧ ‖p.2 - w p.1‖ ≤ ρ})
    (hw : ∀ t ∈ Icc a b, HasDerivWithinAt w (G t (w t)) (Icc a b) t) :
    ∃ δ > 0, ∀ x, ‖x - w a‖ ≤ δ → ∃ α : ℝ → Fin m → ℝ, α a = x ∧ ∀ t ∈ Icc a b, ‖α t - w t‖ ≤ ρ ∧
      HasDerivWithinAt α (G t (α t)) (Icc a b) t := by
  rcases lt_or_ge b a with hab | hab
  · exact ⟨1, one_pos, fun x _ => ⟨fun _ => x, rfl, fun t ht => absurd (ht.1.trans ht.2) (not_le.mpr hab)⟩⟩
  have hwc : ContinuousOn w (Icc a b) := fun t ht => (hw t ht).continuousWithinAt
  have hcomp : IsCompact {p : ℝ × (Fin m → ℝ) | p.1 ∈ Icc a b ∧ ‖p.2 - w p.1‖ ≤ ρ} := tube_compact hwc
  obtain ⟨L, hL⟩ := hcomp.exists_bound_of_continuousOn hc
  have hin : ∀ t ∈ Icc a b, ∀ x, (t, clamp ρ (w t) x) ∈ {p : ℝ × (Fin m → ℝ) | p.1 ∈ Icc a b ∧ ‖p.2 - w p.1‖ ≤ ρ} :=
    fun t ht x => ⟨ht, clamp_near hρ.le _ _⟩
  have hL0 : 0 ≤ L := (norm_nonneg _).trans (hL _ (hin a ⟨le_rfl, hab⟩ 0))
  have hlip : ∀ t ∈ Icc a b, ∀ x y, ‖G t (clamp ρ (w t) x) - G t (clamp ρ (w t) y)‖ ≤ K * ‖x - y‖ := by
    intro t ht x y
    have := (hK t ht).dist_le_mul _ (by rw [mem_closedBall_iff_norm]; exact clamp_near hρ.le _ x) _
      (by rw [mem_closedBall_iff_norm]; exact clamp_near hρ.le _ y)
    rw [dist_eq_norm, dist_eq_norm] at this
    exact this.trans (mul_le_mul_of_nonneg_left (clamp_lipschitz _ _ _ _) K.2)
  have hB : 0 < gronwallBound 1 K 0 (b - a) := gronwallBound_pos one_pos K.2 le_rfl (by linarith)
  refine ⟨ρ / gronwallBound 1 K 0 (b - a), by positivity, fun x hx => ?_⟩
  have pl : IsPicardLindelof (fun t x => G t (clamp ρ (w t) x)) (⟨a, le_rfl, hab⟩ : Icc a b) x
      ⟨L * (b - a), by nlinarith⟩ 0 ⟨L, hL0⟩ K := by
    refine ⟨fun t ht => ?_, fun x _ => ?_, fun t ht x _ => ?_, ?_⟩
    · refine LipschitzOnWith.of_dist_le_mul fun x _ y _ => ?_
      rw [dist_eq_norm, dist_eq_norm]
      exact hlip t ht x y
    · refine hc.comp (f := fun t => (t, clamp ρ (w t) x)) (continuousOn_id.prodMk ?_) fun t ht => hin t ht x
      refine continuousOn_pi.mpr fun i => ?_
      have hi : ContinuousOn (fun t => w t i) (Icc a b) := (continuous_apply i).comp_continuousOn hwc
      exact hi.add (continuousOn_const.sup (continuousOn_const.inf (continuousOn_const.sub hi)))
    · exact hL _ (hin t ht x)
    · simp only [NNReal.coe_mk, NNReal.coe_zero, sub_zero, sub_self]
      rw [max_eq_left (by linarith)]
      exact le_rfl
  obtain ⟨α, h0, hα⟩ := pl.exists_eq_forall_mem_Icc_hasDerivWithinAt₀
  have h0 : α a = x := h0
  have close : ∀ t ∈ Icc a b, ‖α t - w t‖ ≤ ρ := by
    intro t ht
    have key := norm_le_gronwallBound_of_norm_deriv_right_le (f := fun t => α t - w t)
      (f' := fun t => G t (clamp ρ (w t) (α t)) - G t (w t)) (δ := ρ / gronwallBound 1 K 0 (b - a)) (K := K) (ε := 0)
      (a := a) (b := b) (fun t ht => ((hα t ht).continuousWithinAt.sub (hwc t ht)))
      (fun t ht => ?_) (by rw [h0]; exact hx) (fun t ht => ?_) t ht
    · refine key.trans ?_
      have e : gronwallBound (ρ / gronwallBound 1 K 0 (b - a)) K 0 (t - a) =
          ρ / gronwallBound 1 K 0 (b - a) * gronwallBound 1 K 0 (t - a) := by
        have := gronwallBound_scale (ρ / gronwallBound 1 K 0 (b - a)) 1 K 0 (t - a)
        simpa using this
      rw [e, div_mul_eq_mul_div, div_le_iff₀ hB]
      exact mul_le_mul_of_nonneg_left (gronwallBound_mono zero_le_one le_rfl K.2 (by linarith [ht.2])) hρ.le
    · have hm : t ∈ Icc a b := ⟨ht.1, ht.2.le⟩
      refine ((hα t hm).sub (hw t hm)).mono_of_mem_nhdsWithin ?_
      exact mem_of_superset (Icc_mem_nhdsGE ht.2) (Icc_subset_Icc_left ht.1)
    · have := hlip t ⟨ht.1, ht.2.le⟩ (α t) (w t)
      rw [clamp_of_near (x := w t) (by simpa using hρ.le)] at this
      simpa using this
  refine ⟨α, h0, fun t ht => ⟨close t ht, ?_⟩⟩
  have := hα t ht
  rwa [clamp_of_near (close t ht)] at this

/-- linear differential equations have solutions -/
theorem exists_linear {A : ℝ → (Fin m → ℝ) →L[ℝ] (Fin m → ℝ)} {a b : ℝ} (hA : ContinuousOn A (Icc a b)) (x : Fin m → ℝ) :
    ∃ α : ℝ → Fin m → ℝ, α a = x ∧ ∀ t ∈ Icc a b, HasDerivWithinAt α (A t (α t)) (Icc a b) t := by
  obtain ⟨B, hB⟩ := isCompact_Icc.exists_bound_of_continuousOn hA
  obtain ⟨δ, hδ, h⟩ := exists_near (G := fun t x => A t x) (w := fun _ => 0) (a := a) (b := b) (ρ := 1) (K := B.toNNReal) one_pos
    (fun t ht => LipschitzOnWith.of_dist_le_mul fun x _ y _ => by
      rw [dist_eq_norm, dist_eq_norm, ← map_sub]
      refine ((A t).le_opNorm _).trans (mul_le_mul_of_nonneg_right ?_ (norm_nonneg _))
      exact (hB t ht).trans (Real.le_coe_toNNReal B))
    (ContinuousOn.clm_apply (hA.comp continuousOn_fst fun p hp => hp.1) continuousOn_snd)
    (fun t _ => by simpa using hasDerivWithinAt_const t (Icc a b) (0 : Fin m → ℝ))
  obtain ⟨α, h0, hα⟩ := h ((δ / (‖x‖ + 1)) • x) (by
    rw [sub_zero, norm_smul, Real.norm_of_nonneg (by positivity), div_mul_eq_mul_div, div_le_iff₀ (by positivity)]
    nlinarith [norm_nonneg x])
  refine ⟨fun t => ((‖x‖ + 1) / δ) • α t, ?_, fun t ht => ?_⟩
  · have : (‖x‖ + 1) / δ * (δ / (‖x‖ + 1)) = 1 := by field_simp
    simp only []
    rw [h0, smul_smul, this, one_smul]
  · rw [map_smul]
    exact (hα t ht).2.const_smul ((‖x‖ + 1) / δ)

end Analysis
