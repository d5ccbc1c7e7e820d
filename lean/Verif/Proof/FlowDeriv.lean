import Mathlib.Analysis.ODE.Gronwall
import Mathlib.Analysis.Calculus.MeanValue

/-!
# Derivative of the solutions of a differential equation along a family

Mathlib has Grönwall's inequality but not the differentiability of solutions with respect to initial values.
-/

namespace Analysis
open Set Filter Topology

variable {E : Type*} [NormedAddCommGroup E] [NormedSpace ℝ E]

theorem gronwallBound_scale (x δ K ε t : ℝ) : gronwallBound (x * δ) K (x * ε) t = x * gronwallBound δ K ε t := by
  unfold gronwallBound
  split_ifs <;> ring

theorem gronwallBound_pos {δ K ε t : ℝ} (hδ : 0 < δ) (hK : 0 ≤ K) (hε : 0 ≤ ε) (ht : 0 ≤ t) : 0 < gronwallBound δ K ε t := by
  have := gronwallBound_mono hδ.le hε hK ht
  rw [gronwallBound_x0] at this
  linarith

/-- Grönwall's inequality as long as the function stays below `m`, if the bound keeps it there -/
theorem gronwall_tube {d d' : ℝ → E} {δ K ε m a b : ℝ} (hK : 0 ≤ K) (hδ : 0 ≤ δ) (hε : 0 ≤ ε)
    (hd : ContinuousOn d (Icc a b)) (hd' : ∀ t ∈ Ico a b, HasDerivWithinAt d (d' t) (Ici t) t) (ha : ‖d a‖ ≤ δ)
    (bound : ∀ t ∈ Ico a b, ‖d t‖ < m → ‖d' t‖ ≤ K * ‖d t‖ + ε) (hm : gronwallBound δ K ε (b - a) < m) :
    ∀ t ∈ Icc a b, ‖d t‖ ≤ gronwallBound δ K ε (b - a) := by
  have main : ∀ τ ∈ Icc a b, (∀ t ∈ Ico a τ, ‖d t‖ < m) → ‖d τ‖ ≤ gronwallBound δ K ε (b - a) := by
    intro τ hτ h
    have := norm_le_gronwallBound_of_norm_deriv_right_le (f := d) (f' := d') (δ := δ) (K := K) (ε := ε) (a := a) (b := τ)
      (hd.mono (Icc_subset_Icc_right hτ.2)) (fun t ht => hd' t ⟨ht.1, ht.2.trans_le hτ.2⟩) ha
      (fun t ht => bound t ⟨ht.1, ht.2.trans_le hτ.2⟩ (h t ht)) τ ⟨hτ.1, le_rfl⟩
    exact this.trans (gronwallBound_mono hδ hε hK (by linarith [hτ.2]))
  have none : ∀ t ∈ Icc a b, ‖d t‖ < m := by
    by_contra hne
    push Not at hne
    obtain ⟨t0, h0, h0'⟩ := hne
    have hs : IsCompact (Icc a b ∩ (fun t => ‖d t‖) ⁻¹' Ici m) :=
      isCompact_Icc.of_isClosed_subset (hd.norm.preimage_isClosed_of_isClosed isClosed_Icc isClosed_Ici) inter_subset_left
    obtain ⟨τ, hτ, hle⟩ := hs.exists_isLeast ⟨t0, h0, h0'⟩
    refine absurd (main τ hτ.1 fun t ht => ?_) (not_le.mpr (hm.trans_le hτ.2))
    by_contra hc
    exact absurd (hle ⟨⟨ht.1, ht.2.le.trans hτ.1.2⟩, not_lt.mp hc⟩) (not_le.mpr ht.2)
  intro t ht
  exact main t ht fun r hr => none r ⟨hr.1, hr.2.le.trans ht.2⟩

/-- One solution of `z' = G t z` and a family of solutions beside it: if the initial values of the family have the
derivative `s a` and `s` solves the linearised equation, the values at every later time have the derivative `s t`. -/
theorem family_fderiv {P : Type*} [NormedAddCommGroup P] [NormedSpace ℝ P] {G : ℝ → E → E} {A : ℝ → E →L[ℝ] E}
    {z : P → ℝ → E} {s : ℝ → P →L[ℝ] E} {a b B : ℝ} {r0 : P}
    (hA : ∀ t ∈ Icc a b, ‖A t‖ ≤ B)
    (hG : ∀ ε > 0, ∃ δ > 0, ∀ t ∈ Icc a b, ∀ x, ‖x - z r0 t‖ < δ →
      ‖G t x - G t (z r0 t) - A t (x - z r0 t)‖ ≤ ε * ‖x - z r0 t‖)
    (hz : ∀ᶠ r in 𝓝 r0, ∀ t ∈ Icc a b, HasDerivWithinAt (z r) (G t (z r t)) (Icc a b) t)
    (h0 : HasFDerivAt (fun r => z r a) (s a) r0)
    (hs : ∀ t ∈ Icc a b, ∀ v, HasDerivWithinAt (fun t => s t v) (A t (s t v)) (Icc a b) t) :
    ∀ t ∈ Icc a b, HasFDerivAt (fun r => z r t) (s t) r0 := by
  intro t1 ht1
  have hab : a ≤ b := ht1.1.trans ht1.2
  have hB : 0 ≤ B := (norm_nonneg _).trans (hA a ⟨le_rfl, hab⟩)
  have right : ∀ {f : ℝ → E} {f' t}, t ∈ Ico a b → HasDerivWithinAt f f' (Icc a b) t → HasDerivWithinAt f f' (Ici t) t :=
    fun ht h => (h.mono_of_mem_nhdsWithin (Icc_mem_nhdsGE_of_mem ht))
  have hz0 := hz.self_of_nhds
  -- the family stays close
  obtain ⟨c, hc, hc'⟩ : ∃ c > 0, ∀ᶠ r in 𝓝 r0, ‖z r a - z r0 a‖ ≤ c * ‖r - r0‖ := by
    obtain ⟨c, hc, h⟩ := h0.isBigO_sub.exists_pos
    exact ⟨c, hc, by simpa [Asymptotics.IsBigOWith] using h⟩
  obtain ⟨δ1, hδ1, hG1⟩ := hG 1 one_pos
  have hC : 0 < gronwallBound c (B + 1) 0 (b - a) := gronwallBound_pos hc (by linarith) le_rfl (by linarith)
  set C := gronwallBound c (B + 1) 0 (b - a) with hCdef
  have small : ∀ m > 0, ∀ᶠ r in 𝓝 r0, C * ‖r - r0‖ < m := by
    intro m hm
    have : Tendsto (fun r => C * ‖r - r0‖) (𝓝 r0) (𝓝 (C * ‖r0 - r0‖)) := by
      apply Continuous.tendsto; fun_prop
    rw [sub_self, norm_zero, mul_zero] at this
    exact this.eventually (gt_mem_nhds hm)
  have close : ∀ᶠ r in 𝓝 r0, ∀ t ∈ Icc a b, ‖z r t - z r0 t‖ ≤ C * ‖r - r0‖ := by
    filter_upwards [hz, hc', small δ1 hδ1] with r hr hra hrs
    have e : gronwallBound (‖r - r0‖ * c) (B + 1) (‖r - r0‖ * 0) (b - a) = C * ‖r - r0‖ := by
      rw [gronwallBound_scale, mul_comm]
    rw [← e] at hrs ⊢
    refine gronwall_tube (d := fun t => z r t - z r0 t) (d' := fun t => G t (z r t) - G t (z r0 t)) (by linarith)
      (by positivity) (by simp) ?_ (fun t ht => ?_) (by rw [mul_comm]; exact hra) (fun t ht hm => ?_) hrs
    · exact fun t ht => ((hr t ht).sub (hz0 t ht)).continuousWithinAt
    · exact (right ht (hr t (Ico_subset_Icc_self ht))).sub (right ht (hz0 t (Ico_subset_Icc_self ht)))
    · have h1 := hG1 t (Ico_subset_Icc_self ht) (z r t) hm
      have h2 := (A t).le_of_opNorm_le (hA t (Ico_subset_Icc_self ht)) (z r t - z r0 t)
      have h3 : G t (z r t) - G t (z r0 t) =
        (G t (z r t) - G t (z r0 t) - A t (z r t - z r0 t)) + A t (z r t - z r0 t) := by abel
      rw [h3]
      refine (norm_add_le _ _).trans ?_
      nlinarith
  -- the remainder
  rw [hasFDerivAt_iff_isLittleO, Asymptotics.isLittleO_iff]
  intro η hη
  have hM : 0 < gronwallBound 1 B C (b - a) := gronwallBound_pos one_pos hB hC.le (by linarith)
  set M := gronwallBound 1 B C (b - a)
  obtain ⟨δ, hδ, hGδ⟩ := hG (η / M) (by positivity)
  rw [hasFDerivAt_iff_isLittleO, Asymptotics.isLittleO_iff] at h0
  filter_upwards [hz, close, small δ hδ, h0 (by positivity : 0 < η / M)] with r hr hcl hsm hr0
  have e : gronwallBound ((η / M * ‖r - r0‖) * 1) B ((η / M * ‖r - r0‖) * C) (b - a) = η * ‖r - r0‖ := by
    rw [gronwallBound_scale]
    show η / M * ‖r - r0‖ * M = _
    field_simp
  rw [← e]
  refine (norm_le_gronwallBound_of_norm_deriv_right_le (f := fun t => z r t - z r0 t - s t (r - r0))
    (f' := fun t => G t (z r t) - G t (z r0 t) - A t (s t (r - r0))) (a := a) (b := b) ?_ ?_ ?_ ?_ t1 ht1).trans
      (gronwallBound_mono (by positivity) (by positivity) hB (by linarith [ht1.2]))
  · exact fun t ht => (((hr t ht).sub (hz0 t ht)).sub (hs t ht _)).continuousWithinAt
  · intro t ht
    have hi := Ico_subset_Icc_self ht
    exact ((right ht (hr t hi)).sub (right ht (hz0 t hi))).sub (right ht (hs t hi _))
  · simpa using hr0
  · intro t ht
    have hi := Ico_subset_Icc_self ht
    have h1 := hGδ t hi (z r t) ((hcl t hi).trans_lt hsm)
    have h2 := (A t).le_of_opNorm_le (hA t hi) (z r t - z r0 t - s t (r - r0))
    have h3 : G t (z r t) - G t (z r0 t) - A t (s t (r - r0)) =
        A t (z r t - z r0 t - s t (r - r0)) + (G t (z r t) - G t (z r0 t) - A t (z r t - z r0 t)) := by
      rw [(A t).map_sub (z r t - z r0 t)]; abel
    show ‖G t (z r t) - G t (z r0 t) - A t (s t (r - r0))‖ ≤ _
    rw [h3]
    refine (norm_add_le _ _).trans (add_le_add h2 (h1.trans ?_))
    have := mul_le_mul_of_nonneg_left (hcl t hi) (by positivity : 0 ≤ η / M)
    linarith

/-- the points near a curve -/
theorem tube_compact [ProperSpace E] {w : ℝ → E} {a b ρ : ℝ} (hw : ContinuousOn w (Icc a b)) :
    IsCompact {p : ℝ × E | p.1 ∈ Icc a b ∧ ‖p.2 - w p.1‖ ≤ ρ} := by
  have := (isCompact_Icc.prod (isCompact_closedBall (0 : E) ρ)).image_of_continuousOn
    (f := fun p : ℝ × E => (p.1, w p.1 + p.2)) (s := Icc a b ×ˢ Metric.closedBall 0 ρ)
    (continuousOn_fst.prodMk ((hw.comp continuousOn_fst fun p hp => hp.1).add continuousOn_snd))
  convert this using 1
  ext ⟨t, x⟩
  simp only [mem_ofPred_eq, mem_image, mem_prod, Metric.mem_closedBall, dist_zero_right, Prod.mk.injEq, Prod.exists]
  exact ⟨fun h => ⟨t, x - w t, h, rfl, by abel⟩, fun ⟨t', v, h, h1, h2⟩ => by subst h1 h2; simpa using h⟩

/-- a right-hand side that is continuously differentiable near a curve is so uniformly -/
theorem tube_uniform [ProperSpace E] {G : ℝ → E → E} {D : ℝ → E → E →L[ℝ] E} {w : ℝ → E} {a b ρ : ℝ} (hρ : 0 < ρ)
    (hw : ContinuousOn w (Icc a b))
    (hd : ∀ t ∈ Icc a b, ∀ x, ‖x - w t‖ ≤ ρ → HasFDerivAt (G t) (D t x) x)
    (hc : ContinuousOn (fun p : ℝ × E => D p.1 p.2) {p | p.1 ∈ Icc a b ∧ ‖p.2 - w p.1‖ ≤ ρ}) :
    (∃ B, ∀ t ∈ Icc a b, ‖D t (w t)‖ ≤ B) ∧ ∀ ε > 0, ∃ δ > 0, ∀ t ∈ Icc a b, ∀ x, ‖x - w t‖ < δ →
      ‖G t x - G t (w t) - D t (w t) (x - w t)‖ ≤ ε * ‖x - w t‖ := by
  have hK : IsCompact {p : ℝ × E | p.1 ∈ Icc a b ∧ ‖p.2 - w p.1‖ ≤ ρ} := tube_compact hw
  constructor
  · obtain ⟨B, hB⟩ := hK.exists_bound_of_continuousOn hc
    exact ⟨B, fun t ht => hB (t, w t) ⟨ht, by simpa using hρ.le⟩⟩
  · intro ε hε
    obtain ⟨δ, hδ, hu⟩ := Metric.uniformContinuousOn_iff.mp (hK.uniformContinuousOn_of_continuous hc) ε hε
    refine ⟨min δ ρ, lt_min hδ hρ, fun t ht x hx => ?_⟩
    have conv : Convex ℝ (Metric.ball (w t) (min δ ρ)) := convex_ball _ _
    refine conv.norm_image_sub_le_of_norm_hasFDerivWithin_le' (f := G t) (f' := D t) (fun y hy => ?_) (fun y hy => ?_)
      (Metric.mem_ball_self (lt_min hδ hρ)) (by rwa [Metric.mem_ball, dist_eq_norm])
    · rw [Metric.mem_ball, dist_eq_norm] at hy
      exact (hd t ht y (hy.le.trans (min_le_right _ _))).hasFDerivWithinAt
    · rw [Metric.mem_ball, dist_eq_norm] at hy
      have := hu (t, y) ⟨ht, hy.le.trans (min_le_right _ _)⟩ (t, w t) ⟨ht, by simpa using hρ.le⟩
        (by rw [Prod.dist_eq, dist_self, dist_eq_norm]; exact max_lt hδ (hy.trans_le (min_le_left _ _)))
      rw [dist_eq_norm] at this
      exact this.le

end Analysis
