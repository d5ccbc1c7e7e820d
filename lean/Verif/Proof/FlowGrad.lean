import Verif.Proof.Flow

/-!
# Functions that solve differential equations on the way: `gradient` and `jacobian`
-/

set_option linter.unusedSectionVars false

namespace Fz
open Arith Spec

variable {W : Type} [Rep W ℝ] [LawfulRep W ℝ]
variable {s t s' t' : St W} {g g' : Graph ℝ} {val adj val' adj' : Nat → ℝ} {k0 : Nat}

/-- the state after creating the independent variables `x` and computing a function of them and of variables of the
caller -/
structure Flown (x : List ℝ) (t : St W) (g : Graph ℝ) (val : Nat → ℝ) (t' : St W) (g' : Graph ℝ) (val' adj' : Nat → ℝ)
    (D' ε' : Nat → (Fin x.length → ℝ) →L[ℝ] ℝ) (xv outs : List Var) (τ : (Fin x.length → ℝ) → List ℝ) : Prop where
  low : ∀ nd ∈ g.nodes, nd.pos < t.tape.head
  sim : Sim t' g' val' adj' D' ε'
  pre : g.Prefix g'
  val : ∀ q < t.tape.head, val' q = val q
  dd : ∀ q < t.tape.head, D' q = 0
  ee : ∀ q < t.tape.head, ε' q = 0
  xlen : xv.length = x.length
  olen : outs.length = (τ fun i => x[i]).length
  /-- positions of the new records: the inputs, then records without sources -/
  news : ∃ Q, (g'.nodes.drop g.nodes.length).map Node.pos = xv.map g'.pos ++ Q ∧ ∀ q ∈ Q, ε' q = 0
  zero : ∀ nd ∈ g'.nodes.drop g.nodes.length, t.tape.head ≤ nd.pos ∧ adj' nd.pos = 0
  xs : ∀ k (h : k < xv.length), g'.Has xv[k] ∧
    ε' (g'.pos xv[k]) = ContinuousLinearMap.proj (R := ℝ) (φ := fun _ => ℝ) ⟨k, by rw [← xlen]; exact h⟩
  os : ∀ k (h : k < outs.length), Tracks (fun i => x[i]) g' val' D' outs[k] (fun y => (τ y).getD k 0)

variable {x : List ℝ} {D' ε' : Nat → (Fin x.length → ℝ) →L[ℝ] ℝ} {xv outs : List Var} {F : List ℝ → List ℝ}

theorem Flown.split {τ} (r : Flown x t g val t' g' val' adj' D' ε' xv outs τ) :
    g'.nodes = g.nodes ++ g'.nodes.drop g.nodes.length := by
  obtain ⟨t, ht⟩ := r.pre.nodes
  rw [← ht, List.drop_left]

/-- after the sweep from output `k` the adjoints of the inputs are the partial derivatives -/
theorem Flown.isGrad (r : Flown x t g val t' g' val' adj' D' ε' xv outs (fun y => F (List.ofFn y)))
    (hf : ∀ nd ∈ g'.nodes, nd.Fits val') (a : Nat → ℝ)
    (hz : ∀ nd ∈ g'.nodes.drop g.nodes.length, a nd.pos = 0) (k : Nat) (hk : k < outs.length) :
    IsGradAt (fun z => (F z).getD k 0) x
      (xv.map fun v => Fz.sweep val' g'.nodes (upd a (g'.pos outs[k]) 1) (g'.pos v)) := by
  have hx := r.xlen
  refine ⟨by simp [hx], ?_⟩
  have h1 := sweep_all r.sim.inv.wf r.sim.rules hf (upd a (g'.pos outs[k]) 1)
  have ho := (r.os k hk).has
  have hD : pair (g'.nodes.map Node.pos) (upd a (g'.pos outs[k]) 1) D' = D' (g'.pos outs[k]) := by
    rw [pair_single _ r.sim.inv.wf.nodup _ _ (g'.pos outs[k]) (by
        obtain ⟨nd, h1, h2⟩ := ho.at
        rw [← h2]; exact List.mem_map_of_mem h1.mem), upd_self, one_smul]
    intro q hq hne
    rw [upd_ne _ _ hne]
    obtain ⟨nd, hnd, rfl⟩ := List.mem_map.mp hq
    rw [r.split] at hnd
    rcases List.mem_append.mp hnd with hnd | hnd
    · rw [r.dd _ (r.low nd hnd), smul_zero]
    · rw [hz nd hnd, zero_smul]
  obtain ⟨Q, hQ, hQ0⟩ := r.news
  have hsplit : g'.nodes.map Node.pos = g.nodes.map Node.pos ++ (xv.map g'.pos ++ Q) := by
    rw [← hQ, ← List.map_append, ← r.split]
  rw [hD] at h1
  have h2 := h1.trans (congrArg (fun P => pair P (Fz.sweep val' g'.nodes (upd a (g'.pos outs[k]) 1)) ε') hsplit)
  simp only [pair_append] at h2
  rw [pair_zero (g.nodes.map Node.pos) _ ε' (fun q hq => by
      obtain ⟨nd, hnd, rfl⟩ := List.mem_map.mp hq
      rw [r.ee _ (r.low nd hnd), smul_zero]), zero_add,
    pair_zero Q _ ε' (fun q hq => by rw [hQ0 q hq, smul_zero]), add_zero] at h2
  have h3 : pair (xv.map g'.pos) (Fz.sweep val' g'.nodes (upd a (g'.pos outs[k]) 1)) ε' =
      ∑ i : Fin x.length, (xv.map fun v => Fz.sweep val' g'.nodes (upd a (g'.pos outs[k]) 1) (g'.pos v)).getD i 0 •
        ContinuousLinearMap.proj (R := ℝ) (φ := fun _ => ℝ) i := by
    rw [← List.sum_ofFn]
    unfold pair
    congr 1
    apply List.ext_getElem
    · simp [hx]
    · intro n h1 h2
      have hn : n < xv.length := by simpa using h1
      simp [List.getD_eq_getElem?_getD, hn, (r.xs n hn).2]
  rw [h3] at h2
  rw [← h2]
  exact (r.os k hk).deriv

theorem Flown.vals (r : Flown x t g val t' g' val' adj' D' ε' xv outs (fun y => F (List.ofFn y))) :
    (outs.map fun v => val' (g'.pos v)) = F x := by
  have hF : F (List.ofFn fun i : Fin x.length => x[i]) = F x := by rw [ofFn_get]
  have ho := r.olen
  simp only [hF] at ho
  apply List.ext_getElem (by simpa using ho)
  intro n h1 h2
  have hn : n < outs.length := by simpa using h1
  have := (r.os n hn).value
  simp only [hF] at this
  simp [← this, List.getD_eq_getElem?_getD, h2]

/-- `begin_nested`, the independent variables, the function -/
theorem flown {τ : Type} (fl : Flow τ) (h : Shade k0 s t g val adj) (hlv : t.level + 1 < maxNestedStack) (x : List ℝ)
    {caps : List Var} (hc : ∀ v ∈ caps, g.Has v) (hcap : t.tape.head + 6 * x.length ≤ cap)
    (hok : fl.Ok (t.tape.head + 6 * x.length) (x ++ caps.map fun v => val (g.pos v))) :
    ∃ s0 xv s1 outs s2, (beginNested : M W Unit) s = .ok ((), s0) ∧ (newVars x : M W (List Var)) s0 = .ok (xv, s1) ∧
      (∀ J : Junk W ℝ, (fl.runL J (xv ++ caps) : M W (List Var)) s1 = .ok (outs, s2)) ∧
      ∃ t2 g' val' adj' D' ε', Shade k0 s2 t2 g' val' adj' ∧
        Flown x t g val t2 g' val' adj' D' ε' xv outs
          (fun y => fl.sem (List.ofFn y ++ caps.map fun v => val (g.pos v))) ∧
        t2.level = t.level + 1 ∧ t2.nestTape (t.level + 1) = t.tape.head ∧ t2.nestVari (t.level + 1) = g.nodes.length + 1 ∧
        (∀ k ≤ t.level, t2.nestTape k = t.nestTape k ∧ t2.nestVari k = t.nestVari k) ∧
        t.tape.head ≤ t2.tape.head ∧ ∀ j, t2.tape.head ≠ 12288 * 2 ^ j + 1 := by
  obtain ⟨s0, f0, A0⟩ := blind_begin _ _ _ _ h.akin (begin_ok (by omega))
  have H0 : Sim t.begun g val adj (fun _ => (0 : (Fin x.length → ℝ) →L[ℝ] ℝ)) (fun _ => 0) := sim_zero h.fine.inv.begun
  obtain ⟨xv, t1, e1, g1, val1, adj1, D1, ε1, I⟩ := inputs_step
    ((coords x.length).map fun a => (a.1 (fun i => x[i]), a.2)) H0 (by
      rw [show t.begun.tape.head = t.tape.head from rfl]
      simpa using hcap)
  rw [List.map_map] at e1
  have hco : (coords x.length).map (Prod.fst ∘ fun a => (a.1 (fun i => x[i]), a.2)) = x :=
    (coords_eval x.length (fun i => x[i])).trans (ofFn_get x)
  have e1' : (newVars x : M W (List Var)) t.begun = .ok (xv, t1) := by
    have := e1
    rw [hco] at this
    exact this
  have hlen : ((coords x.length).map fun a => (a.1 (fun i => x[i]), a.2)).length = x.length := by simp
  have hxl : xv.length = x.length := by rw [I.len, hlen]
  have hh1 := I.head
  rw [hlen] at hh1
  have hbh : t.begun.tape.head = t.tape.head := rfl
  have hf1 : ∀ nd ∈ g1.nodes, nd.Fits val1 := by
    intro nd hnd
    have hsplit : g1.nodes = g.nodes ++ g1.nodes.drop g.nodes.length := by
      obtain ⟨l, hl⟩ := I.pre.nodes
      rw [← hl, List.drop_left]
    rw [hsplit] at hnd
    rcases List.mem_append.mp hnd with hnd | hnd
    · have hlt := h.fine.inv.node_lt hnd
      refine Fits.congr (h.fine.fits nd hnd) (I.val _ hlt) fun p hp => I.val _ ?_
      have := (h.fine.inv.wf.args nd hnd p hp).1
      rw [hbh]
      omega
    · obtain ⟨o1, o2, o3, k, hk, -, hc⟩ := I.leaf nd hnd
      intro ad
      obtain ⟨l, hl⟩ := h.fine.leaf k hk (Or.inr trivial) (val1 nd.pos) (ad nd.pos)
      refine ⟨l, ?_⟩
      unfold Node.contrib
      rw [o3, o1, o2, hc]
      exact hl
  obtain ⟨s1, f1, A1⟩ := blind_newVars _ _ _ _ _ A0 e1'
  have h1 : Shade k0 s1 (scrub t1) g1 val1 adj1 := Shade.of A1 I.sim.inv hf1 (h.le.trans I.keep.vhead)
  have hx : ∀ k (hk : k < xv.length), g1.Has xv[k] ∧ t.tape.head ≤ g1.pos xv[k] ∧ val1 (g1.pos xv[k]) = x[k]'(by omega) ∧
      D1 (g1.pos xv[k]) = ContinuousLinearMap.proj (R := ℝ) (φ := fun _ => ℝ) ⟨k, by omega⟩ ∧
      ε1 (g1.pos xv[k]) = ContinuousLinearMap.proj (R := ℝ) (φ := fun _ => ℝ) ⟨k, by omega⟩ ∧ adj1 (g1.pos xv[k]) = 0 := by
    intro k hk
    obtain ⟨a1, a2, -, a4, a5, a6, a7⟩ := I.has k hk (by rw [hlen]; omega)
    refine ⟨a1, a2, ?_, ?_, ?_, a7⟩
    · rw [a4]; simp [coords]
    · rw [a5]; simp [coords]
    · rw [a6]; simp [coords]
  have tx : EnvTracks (fun i => x[i]) g1 val1 D1 xv (fun y : Fin x.length → ℝ => List.ofFn y) := by
    refine ⟨fun y => by simp [hxl], fun i hi => ?_⟩
    obtain ⟨a1, a2, a3, a4, -⟩ := hx i hi
    have hlook : lookV xv i = xv[i] := by simp [lookV, List.getD_eq_getElem?_getD, hi]
    have hfn : (fun y : Fin x.length → ℝ => look (List.ofFn y) i) = fun y => y ⟨i, by omega⟩ := by
      funext y
      simp [look, List.getD_eq_getElem?_getD, show i < x.length by omega]
    rw [hlook, hfn]
    exact ⟨a1, a3.symm, by rw [a4]; exact hasFDerivAt_apply (𝕜 := ℝ) (F' := fun _ : Fin x.length => ℝ) _ _⟩
  have tc : EnvTracks (fun i => x[i]) g1 val1 D1 caps
      (fun _ : Fin x.length → ℝ => caps.map fun v => val (g.pos v)) := by
    refine ⟨fun _ => by simp, fun i hi => ?_⟩
    have T := (envTracks_const (val := val) (x0 := fun i : Fin x.length => x[i]) hc).tr i hi
    have hlt := h.fine.inv.has_lt T.has
    have hp := I.pre.pos T.has
    exact ⟨I.pre.has T.has, by rw [hp, I.val _ hlt]; exact T.value, by rw [hp, I.dd _ hlt]; exact T.deriv⟩
  have te := tx.append tc
  have hlev : t1.level = t.level + 1 := I.keep.level
  obtain ⟨outs, s2, f2, t2, g2, val2, adj2, D2, ε2, n, h2, H2, w, hne, ho, os⟩ := flow_step fl h1
    (I.sim.move h1.fine.inv) (by rw [← hlev] at hlv; exact hlv) te (by
      simp only [ofFn_get]
      rw [show (scrub t1).tape.head = t.tape.head + 6 * x.length from hh1]
      exact hok)
  have hw1 : (scrub t1).tape.head = t.tape.head + 6 * x.length := hh1
  have hwh := w.head
  have hwl := w.level
  have hwn := w.nest
  have hnt : t1.nestTape = t.begun.nestTape := I.keep.nestTape
  have hnv : t1.nestVari = t.begun.nestVari := I.keep.nestVari
  have hs1 : (scrub t1).level = t.level + 1 := hlev
  have hvh := h.fine.inv.vhead
  refine ⟨s0, xv, s1, outs, s2, f0, f1, f2, t2, g2, val2, adj2, D2, ε2, h2, ⟨?_, H2, I.pre.trans w.pre, ?_, ?_, ?_, hxl, ho,
    ?_, ?_, ?_, os⟩, by omega, ?_, ?_, ?_, by omega, hne⟩
  · exact fun nd hnd => h.fine.inv.node_lt hnd
  · intro q hq; rw [w.val q (by omega), I.val q hq]
  · intro q hq; rw [w.dd q (by omega), I.dd q hq]
  · intro q hq; rw [w.ee q (by omega), I.ee q hq]
  · refine ⟨(g2.nodes.drop g1.nodes.length).map Node.pos, ?_, ?_⟩
    · rw [I.pre.drop w.pre, List.map_append, I.news]
      congr 1
      apply List.map_congr_left
      intro v hv
      obtain ⟨k, hk, rfl⟩ := List.getElem_of_mem hv
      exact (w.pre.pos (hx k hk).1).symm
    · intro q hq
      obtain ⟨nd, hnd, rfl⟩ := List.mem_map.mp hq
      exact (w.news nd hnd).2.2
  · intro nd hnd
    rw [I.pre.drop w.pre] at hnd
    rcases List.mem_append.mp hnd with hnd | hnd
    · have hm : nd.pos ∈ (g1.nodes.drop g.nodes.length).map Node.pos := List.mem_map_of_mem hnd
      rw [I.news] at hm
      obtain ⟨v, hv, he⟩ := List.mem_map.mp hm
      obtain ⟨k, hk, rfl⟩ := List.getElem_of_mem hv
      obtain ⟨a1, a2, -, -, -, a6⟩ := hx k hk
      rw [← he, w.adj _ (h1.fine.inv.has_lt a1)]
      exact ⟨a2, a6⟩
    · have := w.news nd hnd
      exact ⟨by omega, this.2.1⟩
  · intro k hk
    obtain ⟨a1, -, -, -, a5, -⟩ := hx k hk
    rw [w.pre.pos a1, w.ee _ (h1.fine.inv.has_lt a1)]
    exact ⟨w.pre.has a1, a5⟩
  · rw [(hwn (t.level + 1) (by omega)).1]
    show t1.nestTape (t.level + 1) = _
    rw [hnt]; simp [St.begun]
  · rw [(hwn (t.level + 1) (by omega)).2]
    show t1.nestVari (t.level + 1) = _
    rw [hnv]; simp [St.begun, hvh]
  · intro k hk
    obtain ⟨b1, b2⟩ := hwn k (by omega)
    rw [b1, b2]
    show t1.nestTape k = _ ∧ t1.nestVari k = _
    rw [hnt, hnv]
    simp [St.begun, show k ≠ t.level + 1 by omega]

/-- `end_nested` at the end -/
theorem Flown.ended {τ} (r : Flown x t g val t' g' val' adj' D' ε' xv outs τ) (h : Shade k0 s t g val adj)
    (hlv : t.level + 1 < maxNestedStack) (hl : t'.level = t.level + 1) (hnt : t'.nestTape (t.level + 1) = t.tape.head)
    (hnv : t'.nestVari (t.level + 1) = g.nodes.length + 1)
    (hn : ∀ k ≤ t.level, t'.nestTape k = t.nestTape k ∧ t'.nestVari k = t.nestVari k)
    (hh : t.tape.head ≤ t'.tape.head) (hne : ∀ j, t'.tape.head ≠ 12288 * 2 ^ j + 1) (h1 : 1 < t'.tape.head)
    {a : Nat → ℝ} {m : Nat → W} (hi : Inv (t'.withMem m) g' val' a) {s2 : St W}
    (hA : Akin (fun k => k0 ≤ k) s2 (t'.withMem m)) :
    ∃ s3 t3, (endNested : M W Unit) s2 = .ok ((), s3) ∧ Shade k0 s3 t3 g val a ∧ t3.level = t.level ∧
      t3.tape.head = t.tape.head ∧ ∀ k ≤ t.level, t3.nestTape k = t.nestTape k ∧ t3.nestVari k = t.nestVari k := by
  have hvh := h.fine.inv.vhead
  have hfull : t'.tape.head ≤ t'.tape.size := r.sim.inv.ok.not_full h1 hne
  obtain ⟨t3, e, i, a1, a2, a3, a4, a5, a6, a7⟩ := endNested_ok (lo := t.tape.head) hi r.pre h.fine.inv.wf
    h.fine.inv.ok.head_pos hh hfull (by simp only [St.withMem]; omega)
    (by simp only [St.withMem]; omega)
    (by simp only [St.withMem]; rw [hl]; exact hnt) (by simp only [St.withMem]; rw [hl]; exact hnv)
  obtain ⟨s3, f, A⟩ := blind_end _ _ _ _ hA e
  have hv : ∀ nd ∈ g.nodes, val' nd.pos = val nd.pos := fun nd hn => r.val _ (r.low nd hn)
  have i' : Inv t3 g val a := by
    exact i.congr (fun nd hn => (hv nd hn).symm) fun _ _ => rfl
  refine ⟨s3, scrub t3, f, Shade.of A i' h.fine.fits (by rw [a4, ← hvh]; exact h.le), ?_, a2, ?_⟩
  · show t3.level = _
    rw [a1]; simp only [St.withMem]; omega
  · intro k hk
    obtain ⟨b1, b2⟩ := a7 k (by simp only [St.withMem]; omega)
    obtain ⟨c1, c2⟩ := hn k hk
    exact ⟨b1.trans c1, b2.trans c2⟩

theorem Flown.pos1 {τ} (r : Flown x t g val t' g' val' adj' D' ε' xv outs τ) {v : Var} (hv : g'.Has v) :
    1 < t'.tape.head := by
  have h1 := r.sim.inv.has_lt hv
  obtain ⟨nd, h2, h3⟩ := hv.at
  have := (r.sim.inv.wf.below nd h2.mem).1
  omega

variable {τ : Type}

theorem flow_gradient (fl : Flow τ) (h : Shade k0 s t g val adj) (hlv : t.level + 1 < maxNestedStack) (x : List ℝ)
    {caps : List Var} (hc : ∀ v ∈ caps, g.Has v) (hcap : t.tape.head + 6 * x.length ≤ cap)
    (hok : fl.Ok (t.tape.head + 6 * x.length) (x ++ caps.map fun v => val (g.pos v)))
    (h0 : fl.sem (x ++ caps.map fun v => val (g.pos v)) ≠ []) :
    ∃ df s', (∀ J : Junk W ℝ, (gradientL J (fl.scalarL J caps) x : M W (ℝ × List ℝ)) s =
        .ok (((fl.sem (x ++ caps.map fun v => val (g.pos v))).getD 0 0, df), s')) ∧
      IsGradAt (fun z => (fl.sem (z ++ caps.map fun v => val (g.pos v))).getD 0 0) x df ∧
      ∃ t' a, Shade k0 s' t' g val a ∧ t'.level = t.level ∧ t'.tape.head = t.tape.head ∧
        ∀ k ≤ t.level, t'.nestTape k = t.nestTape k ∧ t'.nestVari k = t.nestVari k := by
  obtain ⟨s0, xv, s1, outs, s2, f0, f1, f2, t2, g', val', adj', D', ε', h2, r, hl, hnt, hnv, hn, hh, hne⟩ :=
    flown fl h hlv x hc hcap hok
  have hvals := Flown.vals (F := fun z => fl.sem (z ++ caps.map fun v => val (g.pos v))) r
  have ho : 0 < outs.length := by
    have := congrArg List.length hvals
    rw [List.length_map] at this
    rw [this]
    exact List.length_pos_of_ne_nil h0
  have hl0 : lookV outs 0 = outs[0] := by simp [lookV, List.getD_eq_getElem?_getD, ho]
  have hhas : g'.Has (lookV outs 0) := by rw [hl0]; exact (r.os 0 ho).has
  have hv : val' (g'.pos (lookV outs 0)) = (fl.sem (x ++ caps.map fun v => val (g.pos v))).getD 0 0 := by
    rw [← hvals, hl0]
    simp [List.getD_eq_getElem?_getD, ho]
  have ev := h2.fine.inv.varVal hhas
  rw [hv] at ev
  obtain ⟨s3, f3, A3⟩ := blind_val _ _ _ _ _ h2.akin ev
  obtain ⟨m, e4, i4⟩ := h2.fine.inv.grad_ok hhas h2.fine.fits
  obtain ⟨s4, f4, A4⟩ := gradL_mirror A3 h2.fine.inv h2.fine.fits hhas e4
  have hx : ∀ v ∈ xv, g'.Has v := fun v hv => by
    obtain ⟨k, hk, rfl⟩ := List.getElem_of_mem hv
    exact (r.xs k hk).1
  obtain ⟨s5, f5, A5⟩ := blind_adjs _ _ _ _ _ A4 (i4.varAdjs hx)
  obtain ⟨s6, t6, f6, h6, b1, b2, b3⟩ := r.ended h hlv hl hnt hnv hn hh hne (r.pos1 hhas) i4 A5
  have hg := Flown.isGrad (F := fun z => fl.sem (z ++ caps.map fun v => val (g.pos v))) r h2.fine.fits adj' (fun nd hnd => (r.zero nd hnd).2) 0 ho
  rw [← hl0] at hg
  refine ⟨_, s6, fun J => ?_, hg, t6, _, h6, b1, b2, b3⟩
  have f2' : (fl.scalarL J caps xv : M W Var) s1 = .ok (lookV outs 0, s2) := by
    unfold Flow.scalarL
    rw [bind_ok (f2 J)]; rfl
  unfold gradientL
  rw [bind_ok f0, bind_ok f1, bind_ok f2', bind_ok f3, bind_ok (f4 J), bind_ok f5, bind_ok f6]
  rfl

theorem Flown.rows (r : Flown x t g val t' g' val' adj' D' ε' xv outs (fun y => F (List.ofFn y)))
    (hf : ∀ nd ∈ g'.nodes, nd.Fits val') {T : Nat → Prop} :
    ∀ (l : List Nat) {s2 t2 : St W} {a : Nat → ℝ}, Akin T s2 t2 → Inv t2 g' val' a → 0 < t2.level →
    t2.level ≤ maxNestedStack → t2.nestVari t2.level = g.nodes.length + 1 → (∀ k ∈ l, k < outs.length) →
    ∃ rows m a' s3, (∀ J : Junk W ℝ, (jacLoopL J xv (l.map (lookV outs)) : M W (List (List ℝ))) s2 = .ok (rows, s3)) ∧
      Akin T s3 (t2.withMem m) ∧ Inv (t2.withMem m) g' val' a' ∧ rows.length = l.length ∧
      ∀ j (hj : j < l.length) (hj' : j < rows.length), IsGradAt (fun z => (F z).getD l[j] 0) x rows[j] := by
  intro l
  induction l with
  | nil =>
    intro s2 t2 a hA h _ _ _ _
    exact ⟨[], t2.tape.mem, a, s2, fun _ => rfl, hA, h, rfl, fun j hj => by simp at hj⟩
  | cons k l ih =>
    intro s2 t2 a hA h hl0 hl hn hk
    have hk0 := hk k (by simp)
    have hlk : lookV outs k = outs[k] := by simp [lookV, List.getD_eq_getElem?_getD, hk0]
    have hhas : g'.Has (lookV outs k) := by rw [hlk]; exact (r.os k hk0).has
    obtain ⟨m, a1, e1, i1, hz⟩ := zeroNested_ok h hl0 hl hn r.pre.nodes.length_le
    obtain ⟨s3, f1, A1⟩ := blind_zeroNested _ _ _ _ hA e1
    obtain ⟨m2, e2, i2⟩ := i1.grad_ok hhas hf
    obtain ⟨s4, f2, A2⟩ := gradL_mirror A1 i1 hf hhas e2
    obtain ⟨s5, f3, A3⟩ := blind_adjs _ _ _ _ _ A2 (i2.varAdjs (vs := xv) fun v hv => by
      obtain ⟨k, hk, rfl⟩ := List.getElem_of_mem hv
      exact (r.xs k hk).1)
    obtain ⟨rows, m3, a3, s6, f4, A4, i4, hr, hgr⟩ := ih (t2 := (t2.withMem m).withMem m2) A3 i2 hl0 hl hn
      (fun j hj => hk j (by simp [hj]))
    have hg := r.isGrad hf a1 hz k hk0
    rw [← hlk] at hg
    refine ⟨(xv.map fun v => Fz.sweep val' g'.nodes (upd a1 (g'.pos (lookV outs k)) 1) (g'.pos v)) :: rows, m3, a3, s6,
      fun J => ?_, A4, i4, by simp [hr], ?_⟩
    · rw [List.map_cons]
      unfold jacLoopL
      rw [bind_ok f1, bind_ok (f2 J), bind_ok f3, bind_ok (f4 J)]
      rfl
    · intro j hj hj'
      cases j with
      | zero => exact hg
      | succ j => exact hgr j (by simpa using hj) (by simpa using hj')

theorem flow_jacobian (fl : Flow τ) (h : Shade k0 s t g val adj) (hlv : t.level + 1 < maxNestedStack) (x : List ℝ)
    {caps : List Var} (hc : ∀ v ∈ caps, g.Has v) (hcap : t.tape.head + 6 * x.length ≤ cap)
    (hok : fl.Ok (t.tape.head + 6 * x.length) (x ++ caps.map fun v => val (g.pos v)))
    (h0 : fl.sem (x ++ caps.map fun v => val (g.pos v)) ≠ []) {n : Nat}
    (hn' : n = (fl.sem (x ++ caps.map fun v => val (g.pos v))).length) :
    ∃ rows s', (∀ J : Junk W ℝ, (jacobianL J (fl.vectorL J caps) n x : M W (List ℝ × List (List ℝ))) s =
        .ok ((fl.sem (x ++ caps.map fun v => val (g.pos v)), rows), s')) ∧
      rows.length = n ∧
      (∀ k (hk : k < rows.length), IsGradAt (fun z => (fl.sem (z ++ caps.map fun v => val (g.pos v))).getD k 0) x rows[k]) ∧
      ∃ t' a, Shade k0 s' t' g val a ∧ t'.level = t.level ∧ t'.tape.head = t.tape.head ∧
        ∀ k ≤ t.level, t'.nestTape k = t.nestTape k ∧ t'.nestVari k = t.nestVari k := by
  obtain ⟨s0, xv, s1, outs, s2, f0, f1, f2, t2, g', val', adj', D', ε', h2, r, hl, hnt, hnv, hn, hh, hne⟩ :=
    flown fl h hlv x hc hcap hok
  have hvals := Flown.vals (F := fun z => fl.sem (z ++ caps.map fun v => val (g.pos v))) r
  have ho : outs.length = n := by
    have := congrArg List.length hvals
    rw [List.length_map] at this
    rw [this, hn']
  have ho1 : 0 < outs.length := by rw [ho, hn']; exact List.length_pos_of_ne_nil h0
  have hhas : ∀ v ∈ outs, g'.Has v := fun v hv => by
    obtain ⟨k, hk, rfl⟩ := List.getElem_of_mem hv
    exact (r.os k hk).has
  have ev := h2.fine.inv.varVals hhas
  rw [hvals] at ev
  obtain ⟨s3, f3, A3⟩ := blind_vals _ _ _ _ _ h2.akin ev
  obtain ⟨rows, m, a, s4, f4, A4, i4, hr, hgr⟩ :=
    Flown.rows (F := fun z => fl.sem (z ++ caps.map fun v => val (g.pos v))) r h2.fine.fits (List.range outs.length) A3 h2.fine.inv (by omega)
    (by omega) (by rw [hl]; exact hnv) (fun k hk => List.mem_range.mp hk)
  rw [range_lookV] at f4
  obtain ⟨s6, t6, f6, h6, b1, b2, b3⟩ := r.ended h hlv hl hnt hnv hn hh hne
    (r.pos1 (hhas outs[0] (List.getElem_mem ho1))) i4 A4
  rw [List.length_range] at hr
  refine ⟨rows, s6, fun J => ?_, hr.trans ho, fun k hk => ?_, t6, _, h6, b1, b2, b3⟩
  · have f2' : (fl.vectorL J caps xv n : M W (List Var)) s1 = .ok (outs, s2) := f2 J
    unfold jacobianL
    rw [bind_ok f0, bind_ok f1, bind_ok f2', bind_ok (confN_ok ho _), bind_ok f3, bind_ok (f4 J), bind_ok f6]
    rfl
  · have := hgr k (by rw [List.length_range]; omega) hk
    simpa using this

end Fz
