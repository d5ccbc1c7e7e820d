import Verif.Proof.Region
import Verif.Spec.Region

/-!
# `grad_nested`: derivatives with respect to all existing variables
-/

set_option linter.unusedSectionVars false

namespace Fz
open Arith Spec

/-- the coordinate `i`, zero if there is none -/
noncomputable def cproj (N i : Nat) : (Fin N → ℝ) →L[ℝ] ℝ :=
  if h : i < N then ContinuousLinearMap.proj (R := ℝ) (φ := fun _ => ℝ) (⟨i, h⟩ : Fin N) else 0

theorem cproj_deriv (N i : Nat) (y0 : Fin N → ℝ) :
    HasFDerivAt (fun y : Fin N → ℝ => (List.ofFn y).getD i 0) (cproj N i) y0 := by
  unfold cproj
  split
  · rename_i h
    have : (fun y : Fin N → ℝ => (List.ofFn y).getD i 0) = fun y => y ⟨i, h⟩ := by
      funext y
      simp [List.getD_eq_getElem?_getD, h]
    rw [this]
    exact hasFDerivAt_apply (𝕜 := ℝ) (F' := fun _ : Fin N => ℝ) ⟨i, h⟩ y0
  · rename_i h
    have : (fun y : Fin N → ℝ => (List.ofFn y).getD i 0) = fun y => 0 := by
      funext y
      simp [List.getD_eq_getElem?_getD, h]
    rw [this]
    exact hasFDerivAt_const _ _

theorem cproj_sum (N : Nat) (c : List ℝ) :
    ((List.range N).map fun i => c.getD i 0 • cproj N i).sum =
      ∑ i : Fin N, c.getD i 0 • ContinuousLinearMap.proj (R := ℝ) (φ := fun _ => ℝ) i := by
  rw [← List.sum_ofFn]
  congr 1
  apply List.ext_getElem
  · simp
  · intro i h1 h2
    have h : i < N := by simpa using h1
    simp [cproj, h]

variable {W : Type} [Rep W ℝ] [LawfulRep W ℝ]
variable {s s' t t' : St W} {g g' : Graph ℝ} {val adj val' adj' : Nat → ℝ} {x : List ℝ} {p : Prog}

/-- tangents: one coordinate for every record of `g`, after `n` others -/
noncomputable def dAll (N n : Nat) (g : Graph ℝ) (q : Nat) : (Fin N → ℝ) →L[ℝ] ℝ :=
  cproj N (n + (g.nodes.map Node.pos).idxOf q)

theorem dAll_pos {N n hd : Nat} (wf : g.WF hd) {i : Nat} (hi : i < g.nodes.length) :
    dAll N n g (g.nodes[i]).pos = cproj N (n + i) := by
  unfold dAll
  congr 2
  have := wf.nodup.idxOf_getElem i (by simpa using hi)
  simpa using this

theorem existing_has (h : Inv s g val adj) : ∀ v ∈ existing s, g.Has v := by
  intro v hv
  obtain ⟨k, hk, rfl⟩ := List.mem_map.mp hv
  have := List.mem_range.mp hk
  have := h.vhead
  exact ⟨by simp, by simp; omega⟩

theorem existing_pos (h : Inv s g val adj) (f : Nat → ℝ) :
    (existing s).map (fun v => f (g.pos v)) = g.nodes.map fun nd => f nd.pos := by
  have hvh := h.vhead
  apply List.ext_getElem
  · simp [existing, hvh]
  · intro i h1 h2
    have hi : i < g.nodes.length := by simpa using h2
    simp only [existing, List.map_map, List.getElem_map, List.getElem_range, Function.comp_apply]
    congr 1
    exact Graph.At.pos_eq ⟨by simp, by simpa using List.getElem?_eq_getElem hi⟩

/-- a run inside a region, with one coordinate for every existing variable -/
theorem ran_region (h : Inv s g val adj) {vs : List Var} (hvs : ∀ v ∈ vs, g.Has v)
    (hok : p.Ok (x ++ vs.map fun v => val (g.pos v)))
    (hroom : Room s p x (vs.map fun v => val (g.pos v))) :
    ∃ xv outs s1 s', (newVars x : M W (List Var)) s = .ok (xv, s1) ∧
      (p.run (xv ++ vs) : M W (List Var)) s1 = .ok (outs, s') ∧
      ∃ ε g' val' adj' D' ε', Ran (E := Fin (x.length + g.nodes.length) → ℝ)
        (fun i => (x ++ g.nodes.map fun nd => val nd.pos).getD i 0) s g val adj
        (dAll (x.length + g.nodes.length) x.length g) ε
        ((List.range x.length).map (cproj _)) (p.cost (x ++ vs.map fun v => val (g.pos v)))
        s' g' val' adj' D' ε' xv outs
        (fun y => p.sem ((List.ofFn y).take x.length ++
          vs.map fun v => (List.ofFn y).getD (x.length + (v.vi - 1)) 0)) p.hasConst := by
  obtain ⟨ε, hε⟩ := h.wf.source val (dAll (x.length + g.nodes.length) x.length g)
  have hs : Sim s g val adj (dAll (x.length + g.nodes.length) x.length g) ε := ⟨h, hε⟩
  have e0 : ∀ y : Fin (x.length + g.nodes.length) → ℝ,
      ((List.range x.length).map fun i => ((fun y : Fin (x.length + g.nodes.length) → ℝ =>
        (List.ofFn y).getD i 0), cproj (x.length + g.nodes.length) i)).map (fun a => a.1 y) =
      (List.ofFn y).take x.length := by
    intro y
    apply List.ext_getElem
    · simp
    · intro i h1 h2
      have hi : i < x.length := by simpa using h1
      simp [List.getD_eq_getElem?_getD, show i < x.length + g.nodes.length by omega]
  have e1 : (List.ofFn fun i : Fin (x.length + g.nodes.length) =>
      (x ++ g.nodes.map fun nd => val nd.pos).getD i 0) = x ++ g.nodes.map fun nd => val nd.pos := by
    apply List.ext_getElem
    · simp
    · intro i h1 h2
      simp [List.getD_eq_getElem?_getD, h2]
  have hpos : ∀ v : Var, g.Has v → ∃ hi : v.vi - 1 < g.nodes.length, g.pos v = (g.nodes[v.vi - 1]).pos := by
    intro v hv
    obtain ⟨nd, h1, h2⟩ := hv.at
    obtain ⟨hi, h3⟩ := List.getElem?_eq_some_iff.mp h1.2
    exact ⟨hi, by rw [h3, h2]⟩
  have e2 : (vs.map fun v => (x ++ g.nodes.map fun nd => val nd.pos).getD (x.length + (v.vi - 1)) 0) =
      vs.map fun v => val (g.pos v) := by
    apply List.map_congr_left
    intro v hv
    obtain ⟨hi, hp⟩ := hpos v (hvs v hv)
    rw [hp]
    simp [List.getD_eq_getElem?_getD, List.getElem?_append_right, hi]
  have tc : EnvTracks (fun i : Fin (x.length + g.nodes.length) =>
      (x ++ g.nodes.map fun nd => val nd.pos).getD i 0) g val
      (dAll (x.length + g.nodes.length) x.length g) vs
      (fun y => vs.map fun v => (List.ofFn y).getD (x.length + (v.vi - 1)) 0) := by
    refine ⟨fun _ => by simp, fun i hi => ?_⟩
    have hlook : lookV vs i = vs[i] := by simp [lookV, List.getD_eq_getElem?_getD, hi]
    have hm : vs[i] ∈ vs := List.getElem_mem hi
    obtain ⟨hj, hp⟩ := hpos vs[i] (hvs _ hm)
    have hl : (fun y : Fin (x.length + g.nodes.length) → ℝ =>
        look (vs.map fun v => (List.ofFn y).getD (x.length + (v.vi - 1)) 0) i) =
        fun y => (List.ofFn y).getD (x.length + (vs[i].vi - 1)) 0 := by
      funext y
      simp [look, List.getD_eq_getElem?_getD, hi]
    rw [hlook, hl]
    refine ⟨hvs _ hm, ?_, ?_⟩
    · rw [e1, hp]
      simp [List.getD_eq_getElem?_getD, List.getElem?_append_right, hj]
    · rw [hp, dAll_pos h.wf hj]
      exact cproj_deriv _ _ _
  have hl : ∀ a ∈ (List.range x.length).map fun i => ((fun y : Fin (x.length + g.nodes.length) → ℝ =>
        (List.ofFn y).getD i 0), cproj (x.length + g.nodes.length) i),
      HasFDerivAt a.1 a.2 (fun i : Fin (x.length + g.nodes.length) =>
      (x ++ g.nodes.map fun nd => val nd.pos).getD i 0) := by
    intro a ha
    obtain ⟨i, -, rfl⟩ := List.mem_map.mp ha
    exact cproj_deriv _ _ _
  have := ran hs _ hl tc p
  simp only [e0, e1, e2, List.take_left'] at this
  have e3 : ((List.range x.length).map fun i => ((fun y : Fin (x.length + g.nodes.length) → ℝ =>
        (List.ofFn y).getD i 0), cproj (x.length + g.nodes.length) i)).map Prod.snd =
      (List.range x.length).map (cproj (x.length + g.nodes.length)) := by simp [Function.comp_def]
  rw [e3] at this
  simp only [List.length_map, List.length_range, List.take_left] at this
  obtain ⟨xv, outs, s1, s', f1, f2, g', val', adj', D', ε', r⟩ := this hok hroom
  exact ⟨xv, outs, s1, s', f1, f2, ε, g', val', adj', D', ε', r⟩

/-- the sweep over the region, from a new output -/
theorem region_grad (h : Inv s g val adj) {vs : List Var} (hvs : ∀ v ∈ vs, g.Has v)
    (hcok : ∀ nd ∈ g.nodes, nd.ChainOK ∨ nd.Fits val)
    (hl0 : 0 < s.level) (hl : s.level ≤ maxNestedStack) (hnv : s.nestVari s.level = s.vhead)
    (hok : p.Ok (x ++ vs.map fun v => val (g.pos v)))
    (hroom : Room s p x (vs.map fun v => val (g.pos v))) {xv outs : List Var} {s1 s2 s3 : St W} {k : Nat}
    (e1 : (newVars x : M W (List Var)) s = .ok (xv, s1))
    (e2 : (p.run (xv ++ vs) : M W (List Var)) s1 = .ok (outs, s2)) (hk : k < outs.length)
    (hnew : s.vhead ≤ outs[k].vi)
    (e3 : ((lookV outs k).gradNested : M W Unit) s2 = .ok ((), s3)) :
    ∃ df as', (adjs xv : M W (List ℝ)) s3 = .ok (df, s3) ∧
      (adjs (existing s) : M W (List ℝ)) s3 = .ok (as', s3) ∧
      (vals (existing s) : M W (List ℝ)) s3 = .ok (g.nodes.map fun nd => val nd.pos, s3) ∧
      IsGradAt (p.outAll x.length vs k) (x ++ g.nodes.map fun nd => val nd.pos)
        (df ++ List.zipWith (· - ·) as' (g.nodes.map fun nd => adj nd.pos)) := by
  obtain ⟨xv', outs', s1', s2', f1, f2, ε, g', val', adj', D', ε', r⟩ := ran_region h hvs hok hroom
  rw [e1] at f1
  cases f1
  rw [e2] at f2
  cases f2
  have hvh := h.vhead
  have hlk : lookV outs k = outs[k] := by simp [lookV, List.getD_eq_getElem?_getD, hk]
  rw [hlk] at e3
  have hle := r.pre.nodes.length_le
  obtain ⟨hf, m, rfl, i⟩ := gradNested_run r.sim.inv (r.ok hcok) (r.os k hk).has
    (by rw [r.keep.level]; exact hl0) (by rw [r.keep.level]; exact hl) (n := g.nodes.length)
    (by rw [r.keep.level, r.keep.nestVari, hnv, hvh]) hle e3
  have hx : ∀ v ∈ xv, g'.Has v := fun v hv => by
    obtain ⟨k, hk, rfl⟩ := List.getElem_of_mem hv
    exact (r.xs k hk).1
  have hxl : xv.length = x.length := by rw [r.xlen]; simp
  have hev : ∀ v ∈ existing s, g'.Has v := fun v hv => r.pre.has (existing_has h v hv)
  refine ⟨_, _, i.varAdjs hx, i.varAdjs hev, ?_, ?_⟩
  · rw [i.varVals hev]
    congr 2
    rw [← existing_pos h]
    apply List.map_congr_left
    intro v hv
    rw [r.pre.pos (existing_has h v hv), r.val _ (h.has_lt (existing_has h v hv))]
  · have hea : (existing s).map (fun v => Fz.sweep val' (g'.nodes.drop g.nodes.length)
        (Fz.upd adj' (g'.pos outs[k]) one) (g'.pos v)) =
        g.nodes.map fun nd => Fz.sweep val' (g'.nodes.drop g.nodes.length)
        (Fz.upd adj' (g'.pos outs[k]) one) nd.pos := by
      rw [← existing_pos h (Fz.sweep val' (g'.nodes.drop g.nodes.length) (Fz.upd adj' (g'.pos outs[k]) one))]
      apply List.map_congr_left
      intro v hv
      rw [r.pre.pos (existing_has h v hv)]
    rw [hea]
    generalize hS : Fz.sweep val' (g'.nodes.drop g.nodes.length) (Fz.upd adj' (g'.pos outs[k]) one) = S
    -- the new output
    have hop : s.tape.head ≤ g'.pos outs[k] := by
      obtain ⟨nd, h1, h2⟩ := (r.os k hk).has.at
      have hm : nd ∈ g'.nodes.drop g.nodes.length := by
        apply List.mem_of_getElem? (i := outs[k].vi - 1 - g.nodes.length)
        rw [List.getElem?_drop, ← h1.2]
        congr 1
        omega
      rw [← h2]
      exact (r.zero nd hm).1
    have key := r.sweepNew hf (Fz.upd adj' (g'.pos outs[k]) one)
    rw [hS] at key
    have hlhs : pair (g'.nodes.map Node.pos) (Fz.upd adj' (g'.pos outs[k]) one) D' =
        pair (g.nodes.map Node.pos) adj (dAll (x.length + g.nodes.length) x.length g) + D' (g'.pos outs[k]) := by
      rw [r.split, List.map_append, pair_append]
      congr 1
      · refine pair_congr (fun q hq => ?_) fun q hq => ?_
        · obtain ⟨nd, hnd, rfl⟩ := List.mem_map.mp hq
          have := h.node_lt hnd
          rw [upd_ne _ _ (by omega), r.adj _ this]
        · obtain ⟨nd, hnd, rfl⟩ := List.mem_map.mp hq
          exact r.dd _ (h.node_lt hnd)
      · have hnd : ((g'.nodes.drop g.nodes.length).map Node.pos).Nodup := by
          have := r.sim.inv.wf.nodup
          rw [r.split, List.map_append] at this
          exact (List.nodup_append.mp this).2.1
        rw [pair_single _ hnd _ _ (g'.pos outs[k])]
        · rw [upd_self]; exact one_smul _ _
        · obtain ⟨nd, h1, h2⟩ := (r.os k hk).has.at
          have hm := h1.mem
          rw [r.split] at hm
          rcases List.mem_append.mp hm with hm | hm
          · have := h.node_lt hm
            omega
          · rw [← h2]; exact List.mem_map_of_mem hm
        · intro q hq hne
          obtain ⟨nd, hnd, rfl⟩ := List.mem_map.mp hq
          rw [upd_ne _ _ hne, (r.zero nd hnd).2, zero_smul]
    rw [hlhs] at key
    have hlen : (x ++ g.nodes.map fun nd => val nd.pos).length = x.length + g.nodes.length := by simp
    refine ⟨by simp [hxl], ?_⟩
    have hD : D' (g'.pos outs[k]) = ∑ i : Fin (x.length + g.nodes.length),
        ((xv.map fun v => S (g'.pos v)) ++ List.zipWith (· - ·) (g.nodes.map fun nd => S nd.pos)
          (g.nodes.map fun nd => adj nd.pos)).getD i 0 •
          ContinuousLinearMap.proj (R := ℝ) (φ := fun _ => ℝ) i := by
      rw [← cproj_sum, List.range_add, List.map_append, List.sum_append]
      have k1 : D' (g'.pos outs[k]) = comb (xv.map fun v => S (g'.pos v))
          ((List.range x.length).map (cproj (x.length + g.nodes.length))) +
          (pair (g.nodes.map Node.pos) S (dAll (x.length + g.nodes.length) x.length g) -
          pair (g.nodes.map Node.pos) adj (dAll (x.length + g.nodes.length) x.length g)) := by
        rw [eq_comm, ← sub_eq_iff_eq_add.mpr key.symm]
        abel
      rw [k1]
      congr 1
      · unfold comb
        congr 1
        apply List.ext_getElem
        · simp [hxl]
        · intro n h1 h2
          have hn : n < xv.length := by simp at h2; omega
          simp [List.getD_eq_getElem?_getD, List.getElem?_append_left, hn]
      · unfold pair
        have e5 : ∀ b : Nat → ℝ, ((g.nodes.map Node.pos).map fun q => b q •
            dAll (x.length + g.nodes.length) x.length g q) =
            (List.range g.nodes.length).map fun j => (g.nodes.map fun nd => b nd.pos).getD j 0 •
              cproj (x.length + g.nodes.length) (x.length + j) := by
          intro b
          apply List.ext_getElem
          · simp
          · intro n h1 h2
            have hn : n < g.nodes.length := by simpa using h1
            simp only [List.getElem_map, List.getElem_range]
            rw [dAll_pos h.wf hn]
            simp [List.getD_eq_getElem?_getD, hn]
        rw [e5, e5, List.map_map, sub_eq_iff_eq_add, ← List.sum_map_add]
        congr 1
        apply List.map_congr_left
        intro j hj
        have hj : j < g.nodes.length := List.mem_range.mp hj
        rw [Function.comp_apply, ← add_smul]
        congr 1
        simp [List.getD_eq_getElem?_getD, List.getElem?_append_right, hxl, hj]
    have hder := (r.os k hk).deriv
    rw [hD] at hder
    have e6 : (fun i : Fin (x.length + g.nodes.length) => (x ++ g.nodes.map fun nd => val nd.pos).getD i 0) =
        fun i => (x ++ g.nodes.map fun nd => val nd.pos)[i]'(by rw [hlen]; exact i.2) := by
      funext i
      have : (i : Nat) < (x ++ g.nodes.map fun nd => val nd.pos).length := by rw [hlen]; exact i.2
      rw [List.getD_eq_getElem?_getD, List.getElem?_eq_getElem this]
      rfl
    rw [e6] at hder
    have cast : ∀ (N N' : Nat) (hN : N = N') (l : List ℝ) (hlN : l.length = N) (c : List ℝ) (F : List ℝ → ℝ),
        HasFDerivAt (fun y : Fin N → ℝ => F (List.ofFn y))
          (∑ i : Fin N, c.getD i 0 • ContinuousLinearMap.proj (R := ℝ) (φ := fun _ => ℝ) i)
          (fun i => l[i]'(by rw [hlN]; exact i.2)) →
        ∀ hlN' : l.length = N', HasFDerivAt (fun y : Fin N' → ℝ => F (List.ofFn y))
          (∑ i : Fin N', c.getD i 0 • ContinuousLinearMap.proj (R := ℝ) (φ := fun _ => ℝ) i)
          (fun i => l[i]'(by rw [hlN']; exact i.2)) := by
      intro N N' hN
      subst hN
      intro l hlN c F hF _
      exact hF
    exact cast _ _ hlen.symm _ hlen _ (p.outAll x.length vs k) hder rfl

end Fz
