import Verif.Proof.FlowDeriv
import Verif.Spec.Variation
import Mathlib.Analysis.Normed.Module.FiniteDimension
import Mathlib.Data.List.GetD

/-!
# The sensitivity equations give the derivatives of the solutions
-/

namespace Spec
open Set Filter Topology

theorem IsGradAt.ofLength {F : List ℝ → ℝ} {l d : List ℝ} {m : Nat} (hl : l.length = m) (h : IsGradAt F l d) :
    HasFDerivAt (fun y : Fin m → ℝ => F (List.ofFn y))
      (∑ i : Fin m, d.getD i 0 • ContinuousLinearMap.proj (R := ℝ) (φ := fun _ => ℝ) i) (fun i => l.getD i 0) := by
  subst hl
  have := h.2
  simpa using this

theorem ofFn_getD {l : List ℝ} {m : Nat} (hl : l.length = m) : List.ofFn (fun i : Fin m => l.getD i 0) = l := by
  subst hl
  apply List.ext_getElem <;> simp

theorem near_iff {ρ : ℝ} (hρ : 0 ≤ ρ) {m : Nat} {x : Fin m → ℝ} {l : List ℝ} (hl : l.length = m) :
    NearBy ρ (List.ofFn x) l ↔ ‖x - fun i : Fin m => l.getD i 0‖ ≤ ρ := by
  rw [pi_norm_le_iff_of_nonneg hρ]
  constructor
  · intro h i
    have := h.2 i (by simp)
    simpa using this
  · intro h
    refine ⟨by simp [hl], fun i hi => ?_⟩
    have := h ⟨i, by simpa using hi⟩
    have hi' : i < m := by simpa using hi
    simpa [hi'] using this

theorem sum_zip (a b : List ℝ) (h : a.length = b.length) :
    (List.zipWith (· * ·) a b).sum = ∑ i ∈ Finset.range a.length, a.getD i 0 * b.getD i 0 := by
  induction a generalizing b with
  | nil => simp
  | cons x a ih =>
    cases b with
    | nil => simp at h
    | cons y b =>
      rw [List.zipWith_cons_cons, List.sum_cons, ih b (by simpa using h), List.length_cons, Finset.sum_range_succ']
      simp [add_comm]

/-- the derivatives of the solutions of a family of differential equations -/
theorem sens_fderiv {P : Type*} [NormedAddCommGroup P] [NormedSpace ℝ P] {F : ℝ → Nat → List ℝ → ℝ} {n nq ns : Nat} {t0 T ρ : ℝ} {r0 : P} {Y : P → ℝ → List ℝ} {Q : P → List ℝ}
    {src : Nat → Option Nat} {S : ℝ → List (List ℝ)} {b : Nat → P →L[ℝ] ℝ} (hρ : 0 < ρ)
    (hY : ∀ᶠ r in 𝓝 r0, (Q r).length = nq ∧ IsSolution F n t0 T (Q r) (Y r))
    (hC : C1Near F n (n + nq) t0 T ρ (fun t => Y r0 t ++ Q r0))
    (hS : IsSensitivity F t0 T (Q r0) src ns (Y r0) S)
    (h0 : ∀ i < n, HasFDerivAt (fun r => (Y r t0).getD i 0)
      (∑ j ∈ Finset.range ns, ((S t0).getD j []).getD i 0 • b j) r0)
    (hq : ∀ k < nq, HasFDerivAt (fun r => (Q r).getD k 0) (∑ j ∈ Finset.range ns, if src j = some k then b j else 0) r0) :
    ∀ t ∈ Icc t0 T, ∀ i < n, HasFDerivAt (fun r => (Y r t).getD i 0)
      (∑ j ∈ Finset.range ns, ((S t).getD j []).getD i 0 • b j) r0 := by
  intro t1 ht1
  have hT : t0 ≤ T := ht1.1.trans ht1.2
  choose! d hd hdc using hC
  obtain ⟨hQl, hsol⟩ := hY.self_of_nhds
  let z : P → ℝ → Fin (n + nq) → ℝ := fun r t i => (Y r t ++ Q r).getD i 0
  let G : ℝ → (Fin (n + nq) → ℝ) → Fin (n + nq) → ℝ := fun t x i => if (i : Nat) < n then F t i (List.ofFn x) else 0
  let e : Fin (n + nq) → Fin (n + nq) → (Fin (n + nq) → ℝ) →L[ℝ] (Fin (n + nq) → ℝ) := fun i j =>
    (ContinuousLinearMap.proj (R := ℝ) (φ := fun _ => ℝ) j).smulRight (Pi.single i (1 : ℝ))
  let D : ℝ → (Fin (n + nq) → ℝ) → (Fin (n + nq) → ℝ) →L[ℝ] (Fin (n + nq) → ℝ) := fun t x =>
    ∑ i : Fin (n + nq), ∑ j : Fin (n + nq), (if (i : Nat) < n then (d i t (List.ofFn x)).getD j 0 else 0) • e i j
  let s' : ℝ → P → Fin (n + nq) → ℝ := fun t v i =>
    if (i : Nat) < n then ∑ j ∈ Finset.range ns, ((S t).getD j []).getD i 0 * b j v
    else ∑ j ∈ Finset.range ns, if src j = some (i - n) then b j v else 0
  let s : ℝ → P →L[ℝ] (Fin (n + nq) → ℝ) := fun t => ContinuousLinearMap.pi fun i =>
    if (i : Nat) < n then ∑ j ∈ Finset.range ns, ((S t).getD j []).getD i 0 • b j
    else ∑ j ∈ Finset.range ns, if src j = some (i - n) then b j else 0
  have hss : ∀ t v, s t v = s' t v := by
    intro t v
    funext i
    simp only [s, s', ContinuousLinearMap.pi_apply]
    split
    · simp
    · rw [sum_apply]
      exact Finset.sum_congr rfl fun j _ => by split <;> simp
  have hlen : ∀ t ∈ Icc t0 T, (Y r0 t ++ Q r0).length = n + nq := fun t ht => by
    rw [List.length_append, (hsol t ht).1, hQl]
  have hset : {p : ℝ × (Fin (n + nq) → ℝ) | p.1 ∈ Icc t0 T ∧ NearBy ρ (List.ofFn p.2) (Y r0 p.1 ++ Q r0)} =
      {p | p.1 ∈ Icc t0 T ∧ ‖p.2 - z r0 p.1‖ ≤ ρ} := by
    ext p
    simp only [mem_ofPred_eq]
    exact and_congr_right fun h => near_iff hρ.le (hlen _ h)
  have hDi : ∀ t x (i : Fin (n + nq)) v, D t x v i = if (i : Nat) < n then ∑ j : Fin (n + nq), (d i t (List.ofFn x)).getD j 0 * v j else 0 := by
    intro t x i v
    simp only [D, e, sum_apply, Finset.sum_apply, smul_apply, Pi.smul_apply,
      ContinuousLinearMap.smulRight_apply, ContinuousLinearMap.proj_apply, Pi.single_apply, smul_eq_mul]
    rw [Finset.sum_eq_single i]
    · split <;> simp
    · intro k _ hk; simp [Ne.symm hk]
    · simp
  have hz : ∀ᶠ r in 𝓝 r0, ∀ t ∈ Icc t0 T, HasDerivWithinAt (z r) (G t (z r t)) (Icc t0 T) t := by
    filter_upwards [hY] with r hr t ht
    have hof : ∀ t ∈ Icc t0 T, List.ofFn (z r t) = Y r t ++ Q r := fun t ht =>
      ofFn_getD (by rw [List.length_append, (hr.2 t ht).1, hr.1])
    rw [hasDerivWithinAt_pi]
    intro i
    by_cases hi : (i : Nat) < n
    · simp only [G, hi, if_true, hof t ht]
      refine ((hr.2 t ht).2 i hi).congr (fun u hu => ?_) ?_
      · simp only [z]; rw [List.getD_append _ _ _ _ (by rw [(hr.2 u hu).1]; exact hi)]
      · simp only [z]; rw [List.getD_append _ _ _ _ (by rw [(hr.2 t ht).1]; exact hi)]
    · simp only [G, hi, if_false]
      refine (hasDerivWithinAt_const t (Icc t0 T) ((Q r).getD (i - n) 0)).congr (fun u hu => ?_) ?_
      · simp only [z]; rw [List.getD_append_right _ _ _ _ (by rw [(hr.2 u hu).1]; omega), (hr.2 u hu).1]
      · simp only [z]; rw [List.getD_append_right _ _ _ _ (by rw [(hr.2 t ht).1]; omega), (hr.2 t ht).1]
  have hw : ContinuousOn (z r0) (Icc t0 T) := fun t ht => (hz.self_of_nhds t ht).continuousWithinAt
  obtain ⟨⟨B, hB⟩, hu⟩ := Analysis.tube_uniform (G := G) (D := D) (w := z r0) hρ hw (fun t ht x hx => by
      rw [hasFDerivAt_pi']
      intro i
      by_cases hi : (i : Nat) < n
      · have h1 := (hd i hi t ht (List.ofFn x) ((near_iff hρ.le (hlen t ht)).mpr hx)).ofLength (m := n + nq) (by simp)
        have h2 : (fun i : Fin (n + nq) => (List.ofFn x).getD i 0) = x := by funext j; simp
        rw [h2] at h1
        simp only [G, hi, if_true]
        refine h1.congr_fderiv ?_
        ext v
        simp [hDi, hi]
      · simp only [G, hi, if_false]
        refine (hasFDerivAt_const (0 : ℝ) x).congr_fderiv ?_
        ext v
        simp [hDi, hi])
    (by
      rw [← hset]
      refine continuousOn_finsetSum _ fun i _ => continuousOn_finsetSum _ fun j _ => ContinuousOn.fun_smul ?_ continuousOn_const
      by_cases hi : (i : Nat) < n
      · simp only [hi, if_true]
        exact hdc i hi j j.2
      · simp only [hi, if_false]
        exact continuousOn_const)
  have key := Analysis.family_fderiv (G := G) (A := fun t => D t (z r0 t)) (z := z) (s := s) (r0 := r0) hB hu hz ?_ ?_
  · intro i hi
    have h1 := (hasFDerivAt_pi'.mp (key t1 ht1)) ⟨i, by omega⟩
    simp only [s, ContinuousLinearMap.proj_pi, hi, if_true] at h1
    refine h1.congr_of_eventuallyEq ?_
    filter_upwards [hY] with r hr
    simp only [z]; rw [List.getD_append _ _ _ _ (by rw [(hr.2 t1 ht1).1]; exact hi)]
  · rw [hasFDerivAt_pi']
    intro i
    · by_cases hi : (i : Nat) < n
      · simp only [s, ContinuousLinearMap.proj_pi, hi, if_true]
        refine (h0 i hi).congr_of_eventuallyEq ?_
        filter_upwards [hY] with r hr
        simp only [z]; rw [List.getD_append _ _ _ _ (by rw [(hr.2 t0 ⟨le_rfl, hT⟩).1]; exact hi)]
      · simp only [s, ContinuousLinearMap.proj_pi, hi, if_false]
        refine (hq (i - n) (by omega)).congr_of_eventuallyEq ?_
        filter_upwards [hY] with r hr
        have hl := (hr.2 t0 ⟨le_rfl, hT⟩).1
        simp only [z]; rw [List.getD_append_right _ _ _ _ (by rw [hl]; omega), hl]
  · intro t ht v
    simp only [hss]
    obtain ⟨hSl, o, ho, hoj⟩ := hS t ht
    have hYl := (hsol t ht).1
    rw [hasDerivWithinAt_pi]
    intro i
    rw [hDi]
    by_cases hi : (i : Nat) < n
    · have hof : List.ofFn (z r0 t) = Y r0 t ++ Q r0 := ofFn_getD (hlen t ht)
      simp only [s', hi, if_true, hof]
      have hsum : HasDerivWithinAt (fun r => ∑ j ∈ Finset.range ns, ((S r).getD j []).getD i 0 * b j v)
          (∑ j ∈ Finset.range ns, (o.getD j []).getD i 0 * b j v) (Icc t0 T) t :=
        HasDerivWithinAt.fun_sum fun j hj => ((hoj j (Finset.mem_range.mp hj)).2 i (by omega)).mul_const (b j v)
      refine hsum.congr_deriv ?_
      have hg := hd i hi t ht (Y r0 t ++ Q r0) ⟨rfl, fun k _ => by simpa using hρ.le⟩
      have hdl := hg.1
      rw [hlen t ht] at hdl
      generalize d i t (Y r0 t ++ Q r0) = dd at hg hdl
      have hfin := (Finset.sum_range (n := n + nq) fun x => dd.getD x 0 *
        if x < n then ∑ j ∈ Finset.range ns, ((S t).getD j []).getD x 0 * b j v
        else ∑ j ∈ Finset.range ns, if src j = some (x - n) then b j v else 0).symm
      refine Eq.trans ?_ hfin.symm
      rw [Finset.sum_range_add]
      have ha : ∀ x ∈ Finset.range n, (dd.getD x 0 * if x < n then ∑ j ∈ Finset.range ns, ((S t).getD j []).getD x 0 * b j v
          else ∑ j ∈ Finset.range ns, if src j = some (x - n) then b j v else 0) =
          ∑ j ∈ Finset.range ns, dd.getD x 0 * ((S t).getD j []).getD x 0 * b j v := fun x hx => by
        rw [if_pos (Finset.mem_range.mp hx), Finset.mul_sum]
        exact Finset.sum_congr rfl fun j _ => by ring
      have hb : ∀ x ∈ Finset.range nq, (dd.getD (n + x) 0 * if n + x < n then ∑ j ∈ Finset.range ns, ((S t).getD j []).getD (n + x) 0 * b j v
          else ∑ j ∈ Finset.range ns, if src j = some (n + x - n) then b j v else 0) =
          ∑ j ∈ Finset.range ns, if src j = some x then dd.getD (n + x) 0 * b j v else 0 := fun x _ => by
        rw [if_neg (by omega), Finset.mul_sum, Nat.add_sub_cancel_left]
        exact Finset.sum_congr rfl fun j _ => by split <;> simp
      rw [Finset.sum_congr rfl ha, Finset.sum_congr rfl hb, Finset.sum_comm, Finset.sum_comm (s := Finset.range nq),
        ← Finset.sum_add_distrib]
      refine Finset.sum_congr rfl fun j hj => ?_
      have hj := Finset.mem_range.mp hj
      obtain ⟨dy, dq, hdy, hgr, he⟩ := (ho.2 j (by omega)).2 i (by omega)
      have hu := hg.unique hgr
      subst hu
      have hdq : dq.length = nq := by rw [List.length_append] at hdl; omega
      rw [he, add_mul, sum_zip _ _ (by rw [hdy, (hoj j hj).1]), Finset.sum_mul, hdy, hYl]
      congr 1
      · refine Finset.sum_congr rfl fun x hx => ?_
        have hx := Finset.mem_range.mp hx
        rw [List.getD_append _ _ _ _ (by omega)]
      · have hx : ∀ x ∈ Finset.range nq, (if src j = some x then (dy ++ dq).getD (n + x) 0 * b j v else 0) =
            if src j = some x then dq.getD x 0 * b j v else 0 := fun x _ => by
          rw [List.getD_append_right _ _ _ _ (by omega), hdy, hYl, Nat.add_sub_cancel_left]
        rw [Finset.sum_congr rfl hx]
        cases src j with
        | none => simp
        | some k =>
          simp only [Option.some.injEq]
          rw [Finset.sum_ite_eq]
          split
          · rfl
          · rename_i hk
            rw [Finset.mem_range] at hk
            rw [List.getD_eq_default _ _ (by omega), zero_mul]
    · simp only [s', hi, if_false]
      exact hasDerivWithinAt_const _ _ _

theorem sens_deriv {F : ℝ → Nat → List ℝ → ℝ} {n nq ns : Nat} {t0 T ρ r0 : ℝ} {Y : ℝ → ℝ → List ℝ} {Q : ℝ → List ℝ}
    {src : Nat → Option Nat} {S : ℝ → List (List ℝ)} {b : Nat → ℝ} (hρ : 0 < ρ)
    (hY : ∀ᶠ r in 𝓝 r0, (Q r).length = nq ∧ IsSolution F n t0 T (Q r) (Y r))
    (hC : C1Near F n (n + nq) t0 T ρ (fun t => Y r0 t ++ Q r0))
    (hS : IsSensitivity F t0 T (Q r0) src ns (Y r0) S)
    (h0 : ∀ i < n, HasDerivAt (fun r => (Y r t0).getD i 0)
      (∑ j ∈ Finset.range ns, ((S t0).getD j []).getD i 0 * b j) r0)
    (hq : ∀ k < nq, HasDerivAt (fun r => (Q r).getD k 0) (∑ j ∈ Finset.range ns, if src j = some k then b j else 0) r0)
    {t : ℝ} (ht : t ∈ Icc t0 T) {i : Nat} (hi : i < n) : HasDerivAt (fun r => (Y r t).getD i 0)
      (∑ j ∈ Finset.range ns, ((S t).getD j []).getD i 0 * b j) r0 := by
  have one : ∀ x : ℝ, (ContinuousLinearMap.toSpanSingleton ℝ x) 1 = x := fun x => by simp
  have := (sens_fderiv (b := fun j => ContinuousLinearMap.toSpanSingleton ℝ (b j)) hρ hY hC hS (fun i hi => ?_) (fun k hk => ?_)
    t ht i hi).hasDerivAt
  · simpa using this
  · rw [hasFDerivAt_iff_hasDerivAt]
    simpa using h0 i hi
  · rw [hasFDerivAt_iff_hasDerivAt]
    refine (hq k hk).congr_deriv ?_
    rw [sum_apply]
    exact Finset.sum_congr rfl fun j _ => by split <;> simp

open Fz in
theorem sensSum_eq (S : List (List ℝ)) (ops : List Var) (b : Var → ℝ) (i : Nat) :
    sensSum S ops b i = ∑ j ∈ Finset.range ops.length, (S.getD j []).getD i 0 * (ops.map b).getD j 0 := by
  have h : sensSum S ops b i = (List.zipWith (· * ·) ((List.range ops.length).map fun j => (S.getD j []).getD i 0)
      (ops.map b)).sum := by
    rw [sensSum, List.zipWith_map_right]
  rw [h, sum_zip _ _ (by simp)]
  simp only [List.length_map, List.length_range]
  refine Finset.sum_congr rfl fun j hj => ?_
  have hj := Finset.mem_range.mp hj
  simp [hj]

open Fz in
theorem sensSum_near {ε : ℝ} {S S' : List (List ℝ)} {ops : List Var} {b : Var → ℝ} {i n : Nat} (hi : i < n)
    (h : NearS ε ops.length n S S') : |sensSum S ops b i - sensSum S' ops b i| ≤ ε * (ops.map fun v => |b v|).sum := by
  have e : (ops.map fun v => |b v|).sum = ∑ j ∈ Finset.range ops.length, |(ops.map b).getD j 0| := by
    clear h
    induction ops with
    | nil => simp
    | cons v l ih =>
      rw [List.map_cons, List.sum_cons, ih, List.length_cons, Finset.sum_range_succ']
      simp [add_comm]
  rw [sensSum_eq, sensSum_eq, ← Finset.sum_sub_distrib, e, Finset.mul_sum]
  refine (Finset.abs_sum_le_sum_abs _ _).trans (Finset.sum_le_sum fun j hj => ?_)
  rw [← sub_mul, abs_mul]
  exact mul_le_mul_of_nonneg_right (h j (Finset.mem_range.mp hj) i hi) (abs_nonneg _)

/-- the accumulated sensitivities of an accurate solver are the derivatives of the family, up to the error -/
theorem Family.deriv {F : ℝ → Nat → List ℝ → ℝ} {n nq : Nat} {t0 T r0 : ℝ} {Y : ℝ → ℝ → List ℝ} {Q : ℝ → List ℝ}
    {dy dq : Nat → ℝ} (H : Family F n nq t0 T r0 Y Q dy dq) {src : Nat → Option Nat} {S : ℝ → List (List ℝ)}
    {ops : List Fz.Var} {b : Fz.Var → ℝ} (hS : IsSensitivity F t0 T (Q r0) src ops.length (Y r0) S)
    (h0 : ∀ i < n, dy i = sensSum (S t0) ops b i)
    (hq : ∀ k < nq, dq k = ∑ j ∈ Finset.range ops.length, if src j = some k then (ops.map b).getD j 0 else 0)
    {t ε : ℝ} (ht : t ∈ Icc t0 T) {i : Nat} (hi : i < n) {S' : List (List ℝ)} (hn : NearS ε ops.length n S' (S t)) :
    ∃ d, HasDerivAt (fun r => (Y r t).getD i 0) d r0 ∧
      |sensSum S' ops b i - d| ≤ ε * (ops.map fun v => |b v|).sum := by
  obtain ⟨ρ, hρ, hC⟩ := H.smooth
  refine ⟨_, sens_deriv (b := fun j => (ops.map b).getD j 0) hρ H.solves hC hS (fun i hi => ?_) (fun k hk => ?_) ht hi, ?_⟩
  · rw [← sensSum_eq, ← h0 i hi]; exact H.start i hi
  · rw [← hq k hk]; exact H.pars k hk
  · rw [← sensSum_eq]; exact sensSum_near hi hn

open Fz in
theorem sensSum_units (ops : List Var) (b : Var → ℝ) {i : Nat} (hi : i < ops.length) :
    sensSum (unitVectors ops.length) ops b i = (ops.map b).getD i 0 := by
  rw [sensSum_eq, Finset.sum_eq_single i]
  · simp [unitVectors, hi]
  · intro j hj hne
    have hj := Finset.mem_range.mp hj
    simp [unitVectors, hi, hj, hne.symm]
  · intro h
    exact absurd (Finset.mem_range.mpr hi) h

open Fz in
theorem sensSum_zeros (ops : List Var) (b : Var → ℝ) (n i : Nat) :
    sensSum (List.replicate ops.length (List.replicate n 0)) ops b i = 0 := by
  rw [sensSum_eq]
  refine Finset.sum_eq_zero fun j hj => ?_
  have hj := Finset.mem_range.mp hj
  have : ((List.replicate ops.length (List.replicate n (0 : ℝ))).getD j []).getD i 0 = 0 := by
    rw [List.getD_replicate _ hj]
    by_cases h : i < n
    · rw [List.getD_replicate _ h]
    · rw [List.getD_eq_default _ _ (by simpa using h)]
  rw [this, zero_mul]

theorem AccurateTo.at {σ : Type} {ε : ℝ} {pr : Problem} {sv : Fz.Solver ℝ σ} {n ns : Nat} {y : ℝ → List ℝ}
    {S : ℝ → List (List ℝ)} {ts : List ℝ} {m : σ} (h : AccurateTo ε pr sv n ns y S ts m) {sol : List (List ℝ × List (List ℝ))}
    (hs : SolvesAll pr sv ts m sol) {k : Nat} (h1 : k < sol.length) (h2 : k < ts.length) :
    (∀ i < n, |sol[k].1.getD i 0 - (y ts[k]).getD i 0| ≤ ε) ∧ NearS ε ns n sol[k].2 (S ts[k]) := by
  induction hs generalizing k with
  | nil => simp at h2
  | cons hd tl ih =>
    obtain ⟨a1, a2, a3⟩ := h _ _ _ hd
    cases k with
    | zero => exact ⟨a1, a2⟩
    | succ k => exact ih a3 (by simpa using h1) (by simpa using h2)

/-- the coordinates, as linear functions -/
noncomputable def coord (m j : Nat) : (Fin m → ℝ) →L[ℝ] ℝ :=
  if h : j < m then ContinuousLinearMap.proj (R := ℝ) (φ := fun _ => ℝ) ⟨j, h⟩ else 0

theorem near_eventually {z : List ℝ} {P : List ℝ → Prop} (h : ∃ δ > 0, ∀ w, NearBy δ w z → P w) :
    ∀ᶠ p in 𝓝 (fun i : Fin z.length => z.getD i 0), P (List.ofFn p) := by
  obtain ⟨δ, hδ, h⟩ := h
  filter_upwards [Metric.closedBall_mem_nhds (fun i : Fin z.length => z.getD i 0) hδ] with p hp
  refine h _ ((near_iff hδ.le rfl).mpr ?_)
  rwa [Metric.mem_closedBall, dist_eq_norm] at hp

theorem coord_at (m j : Nat) (x : Fin m → ℝ) : HasFDerivAt (fun p : Fin m → ℝ => (List.ofFn p).getD j 0) (coord m j) x := by
  by_cases h : j < m
  · have e : (fun p : Fin m → ℝ => (List.ofFn p).getD j 0) = fun p => p ⟨j, h⟩ := by funext p; simp [h]
    rw [e, coord, dif_pos h]
    exact hasFDerivAt_apply (𝕜 := ℝ) _ _
  · have e : (fun p : Fin m → ℝ => (List.ofFn p).getD j 0) = fun p => 0 := by funext p; simp [h]
    rw [e, coord, dif_neg h]
    exact hasFDerivAt_const _ _

/-- the columns of the sensitivities are the gradients -/
theorem isGradAt_of_sum {z : List ℝ} {φ : List ℝ → ℝ} {yS : List (List ℝ)} {i : Nat} (hl : yS.length = z.length)
    (h : HasFDerivAt (fun p : Fin z.length → ℝ => φ (List.ofFn p))
      (∑ j ∈ Finset.range z.length, ((yS.getD j []).getD i 0) • coord z.length j) (fun i : Fin z.length => z.getD i 0)) :
    IsGradAt φ z (yS.map fun v => v.getD i 0) := by
  refine ⟨by simp [hl], ?_⟩
  have e : (fun i : Fin z.length => z[i]) = fun i : Fin z.length => z.getD i 0 := by funext i; simp
  rw [e]
  refine h.congr_fderiv ?_
  rw [Finset.sum_range]
  refine Finset.sum_congr rfl fun j _ => ?_
  simp [coord, hl]

end Spec
