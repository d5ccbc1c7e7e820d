import Verif.Proof.ProgStep
import Verif.Spec.Deriv

/-!
# Independent variables, the sweep and the gradient
-/

set_option linter.unusedSectionVars false

namespace Fz
open Arith Spec

variable {W : Type} [Rep W ℝ] [LawfulRep W ℝ] {lf : Prop}
variable {E : Type} [NormedAddCommGroup E] [NormedSpace ℝ E]
variable {s s' s'' : St W} {g g' g'' : Graph ℝ} {val adj val' adj' val'' adj'' : Nat → ℝ}
  {D ε D' ε' D'' ε'' : Nat → E →L[ℝ] ℝ} {x0 : E} {env : List Var} {σ : E → List ℝ}

/-- independent variables `vs` with the values and tangents of `l` have been created -/
structure Inputs (s : St W) (g : Graph ℝ) (val adj : Nat → ℝ) (D ε : Nat → E →L[ℝ] ℝ)
    (s' : St W) (g' : Graph ℝ) (val' adj' : Nat → ℝ) (D' ε' : Nat → E →L[ℝ] ℝ)
    (l : List (ℝ × (E →L[ℝ] ℝ))) (vs : List Var) : Prop where
  sim : Sim s' g' val' adj' D' ε'
  pre : g.Prefix g'
  val : ∀ p < s.tape.head, val' p = val p
  adj : ∀ p < s.tape.head, adj' p = adj p
  dd : ∀ p < s.tape.head, D' p = D p
  ee : ∀ p < s.tape.head, ε' p = ε p
  keep : Keep s s'
  head : s'.tape.head = s.tape.head + 6 * l.length
  len : vs.length = l.length
  news : (g'.nodes.drop g.nodes.length).map Node.pos = vs.map g'.pos
  has : ∀ k (h : k < vs.length) (h' : k < l.length), g'.Has vs[k] ∧ s.tape.head ≤ g'.pos vs[k] ∧
    vs[k] = ⟨s.vhead + k⟩ ∧
    val' (g'.pos vs[k]) = l[k].1 ∧ D' (g'.pos vs[k]) = l[k].2 ∧ ε' (g'.pos vs[k]) = l[k].2 ∧
    adj' (g'.pos vs[k]) = 0
  leaf : ∀ nd ∈ g'.nodes.drop g.nodes.length, nd.ops = [] ∧ nd.dops = [] ∧ nd.kind = .plain ∧
    ∃ k, s.vhead ≤ k ∧ k < s.vhead + l.length ∧ nd.chain = (s.varis k).chain

theorem inputs_step : ∀ (l : List (ℝ × (E →L[ℝ] ℝ))) {s : St W} {g : Graph ℝ} {val adj : Nat → ℝ}
    {D ε : Nat → E →L[ℝ] ℝ}, Sim s g val adj D ε → s.tape.head + 6 * l.length ≤ cap →
    ∃ vs s', (newVars (l.map Prod.fst) : M W (List Var)) s = .ok (vs, s') ∧
      ∃ g' val' adj' D' ε', Inputs s g val adj D ε s' g' val' adj' D' ε' l vs := by
  intro l
  induction l with
  | nil =>
    intro s g val adj D ε h _
    exact ⟨[], s, rfl, g, val, adj, D, ε, h, Graph.Prefix.refl g, fun _ _ => rfl, fun _ _ => rfl,
      fun _ _ => rfl, fun _ _ => rfl, Keep.refl s, by simp, rfl, by simp, fun k hk => by simp at hk,
      fun nd hn => by simp at hn⟩
  | cons a l ih =>
    intro s g val adj D ε h hcap
    simp only [List.length_cons] at hcap
    obtain ⟨s1, e1, gr⟩ := h.inv.newVar_ok a.1 (by omega)
    have hvh := h.inv.vhead
    have hsim : Sim s1 _ _ _ _ _ := h.push gr rfl a.2 a.2 (by
      intro adj' c _
      show _ = _ + zsum c [] D
      rw [zsum_nil', add_zero])
    have hh1 : s1.tape.head = s.tape.head + 6 := gr.head
    obtain ⟨vs, s2, e2, g', val', adj', D', ε', I⟩ := ih hsim (by omega)
    refine ⟨⟨s.vhead⟩ :: vs, s2, ?_, g', val', adj', D', ε', ?_⟩
    · unfold newVars at e2 ⊢
      rw [List.map_cons, List.mapM_cons, bind_ok e1, bind_ok e2]
      rfl
    · have hpos0 : g'.pos ⟨s.vhead⟩ = s.tape.head := by
        rw [I.pre.pos (by rw [hvh]; exact Graph.has_last g _), hvh, Graph.pos_last]
      have hlt : s.tape.head < s1.tape.head := by omega
      refine ⟨I.sim, ((Graph.Prefix.refl g).push _).trans I.pre, ?_, ?_, ?_, ?_,
        gr.keep.trans I.keep, ?_, ?_, ?_, ?_, ?_⟩
      · intro p hp; rw [I.val p (by omega)]; exact upd_ne _ _ (by show p ≠ s.tape.head; omega)
      · intro p hp; rw [I.adj p (by omega)]; exact upd_ne _ _ (by show p ≠ s.tape.head; omega)
      · intro p hp; rw [I.dd p (by omega)]; exact updV_ne _ _ (by show p ≠ s.tape.head; omega)
      · intro p hp; rw [I.ee p (by omega)]; exact updV_ne _ _ (by show p ≠ s.tape.head; omega)
      · rw [I.head, hh1, List.length_cons]; omega
      · simp [I.len]
      · have h1 := ((Graph.Prefix.refl g).push ⟨s.tape.head, [], [], (s.varis s.vhead).chain, .plain⟩).drop I.pre
        rw [h1, List.map_append, I.news]
        simp [Graph.push, hpos0]
      · intro k hk hk'
        cases k with
        | zero =>
          simp only [List.getElem_cons_zero]
          refine ⟨I.pre.has (by rw [hvh]; exact Graph.has_last g _), by omega, rfl, ?_⟩
          rw [hpos0, I.val _ hlt, I.dd _ hlt, I.ee _ hlt, I.adj _ hlt]
          simp [upd_self, updV_self]
        | succ k =>
          simp only [List.getElem_cons_succ]
          obtain ⟨a1, a2, a3, a4⟩ := I.has k (by simpa using hk) (by simpa using hk')
          refine ⟨a1, by omega, ?_, a4⟩
          rw [a3, gr.vhead]; congr 1; omega
      · intro nd hn
        have h1 := ((Graph.Prefix.refl g).push ⟨s.tape.head, [], [], (s.varis s.vhead).chain, .plain⟩).drop I.pre
        rw [h1] at hn
        rcases List.mem_append.mp hn with hn | hn
        · simp only [Graph.push, List.drop_left, List.mem_singleton] at hn
          subst hn
          exact ⟨rfl, rfl, rfl, s.vhead, Nat.le_refl _, by simp, rfl⟩
        · obtain ⟨b1, b2, b3, k, b4, b5, b6⟩ := I.leaf nd hn
          refine ⟨b1, b2, b3, k, ?_, ?_, ?_⟩
          · rw [gr.vhead] at b4; omega
          · rw [gr.vhead] at b5; rw [List.length_cons]; omega
          · rw [b6, gr.keep.slots k b4]

/-- a sum with one non-zero term -/
theorem pair_single {V : Type} [AddCommGroup V] [Module ℝ V] (P : List Nat) (hn : P.Nodup)
    (a : Nat → ℝ) (D : Nat → V) (q : Nat) (hq : q ∈ P) (h : ∀ p ∈ P, p ≠ q → a p • D p = 0) :
    pair P a D = a q • D q := by
  induction P with
  | nil => simp at hq
  | cons p P ih =>
    have hn' := List.nodup_cons.mp hn
    have e : pair (p :: P) a D = a p • D p + pair P a D := by simp [pair]
    rw [e]
    by_cases hpq : p = q
    · subst hpq
      have : pair P a D = 0 := by
        unfold pair
        apply List.sum_eq_zero
        intro x hx
        obtain ⟨y, hy, rfl⟩ := List.mem_map.mp hx
        exact h y (by simp [hy]) (fun he => hn'.1 (he ▸ hy))
      rw [this, add_zero]
    · rw [h p (by simp) hpq, zero_add]
      refine ih hn'.2 ?_ (fun x hx => h x (by simp [hx]))
      rcases List.mem_cons.mp hq with h | h
      · exact absurd h.symm hpq
      · exact h

theorem pair_zero {V : Type} [AddCommGroup V] [Module ℝ V] (P : List Nat) (a : Nat → ℝ) (D : Nat → V)
    (h : ∀ p ∈ P, a p • D p = 0) : pair P a D = 0 := by
  unfold pair
  apply List.sum_eq_zero
  intro x hx
  obtain ⟨y, hy, rfl⟩ := List.mem_map.mp hx
  exact h y hy

theorem Graph.WF.nodup {g : Graph ℝ} {hd : Nat} (wf : g.WF hd) : (g.nodes.map Node.pos).Nodup := by
  have : (g.nodes.map Node.pos).Pairwise (· < ·) := by
    rw [List.pairwise_map]
    exact wf.sorted.imp fun h => by simp only [Node.len] at h; omega
  exact this.imp fun h => Nat.ne_of_lt h

/-- records whose chain procedures fit obey the zero tangents -/
theorem sim_zero (h : Inv s g val adj) :
    Sim s g val adj (fun _ => (0 : E →L[ℝ] ℝ)) (fun _ => 0) :=
  ⟨h, fun nd hn adj' l _ => by rw [zsum_zero]; simp⟩

/-- The state after independent variables `xv` with tangents `es` have been created and a program
has been run on them, producing `outs`, which carry the functions `τ`. -/
structure Ran (x0 : E) (s : St W) (g : Graph ℝ) (val adj : Nat → ℝ) (D ε : Nat → E →L[ℝ] ℝ)
    (es : List (E →L[ℝ] ℝ)) (words : Nat) (s' : St W) (g' : Graph ℝ) (val' adj' : Nat → ℝ)
    (D' ε' : Nat → E →L[ℝ] ℝ) (xv outs : List Var) (τ : E → List ℝ) (lf : Prop) : Prop where
  inv0 : Inv s g val adj
  sim : Sim s' g' val' adj' D' ε'
  pre : g.Prefix g'
  val : ∀ q < s.tape.head, val' q = val q
  adj : ∀ q < s.tape.head, adj' q = adj q
  dd : ∀ q < s.tape.head, D' q = D q
  ee : ∀ q < s.tape.head, ε' q = ε q
  keep : Keep s s'
  head : s'.tape.head = s.tape.head + (6 * es.length + words)
  xlen : xv.length = es.length
  olen : outs.length = (τ x0).length
  /-- positions of the new records: the inputs, then records without sources -/
  news : ∃ Q, (g'.nodes.drop g.nodes.length).map Node.pos = xv.map g'.pos ++ Q ∧ ∀ q ∈ Q, ε' q = 0
  zero : ∀ nd ∈ g'.nodes.drop g.nodes.length, s.tape.head ≤ nd.pos ∧ adj' nd.pos = 0
  xs : ∀ k (h : k < xv.length), g'.Has xv[k] ∧ s.tape.head ≤ g'.pos xv[k] ∧ xv[k] = ⟨s.vhead + k⟩ ∧
    ε' (g'.pos xv[k]) = es[k]'(by rw [← xlen]; exact h)
  os : ∀ k (h : k < outs.length), Tracks x0 g' val' D' outs[k] (fun y => (τ y).getD k 0)
  fits : ∀ nd ∈ g'.nodes.drop g.nodes.length, nd.Fits val' ∨
    (nd.ops = [] ∧ nd.dops = [] ∧ nd.kind = .plain ∧
      ∃ k, s.vhead ≤ k ∧ (k < s.vhead + es.length ∨ lf) ∧ nd.chain = (s.varis k).chain)
  ileaf : ∀ k (h : k < xv.length), ∃ nd, g'.At xv[k] nd ∧
    ∃ k', s.vhead ≤ k' ∧ k' < s.vhead + es.length ∧ nd.chain = (s.varis k').chain

theorem ran (h : Sim s g val adj D ε) (l : List ((E → ℝ) × (E →L[ℝ] ℝ)))
    (hl : ∀ a ∈ l, HasFDerivAt a.1 a.2 x0) {caps : List Var} {γ : E → List ℝ}
    (tc : EnvTracks x0 g val D caps γ) (p : Prog)
    (hok : p.Ok (l.map (fun a => a.1 x0) ++ γ x0))
    (hcap : s.tape.head + (6 * l.length + p.cost (l.map (fun a => a.1 x0) ++ γ x0)) ≤ cap) :
    ∃ xv outs s1 s', (newVars (l.map fun a => a.1 x0) : M W (List Var)) s = .ok (xv, s1) ∧
      (p.run (xv ++ caps) : M W (List Var)) s1 = .ok (outs, s') ∧
      ∃ g' val' adj' D' ε', Ran x0 s g val adj D ε (l.map Prod.snd)
        (p.cost (l.map (fun a => a.1 x0) ++ γ x0)) s' g' val' adj' D' ε' xv outs
        (fun y => p.sem (l.map (fun a => a.1 y) ++ γ y)) p.hasConst := by
  obtain ⟨xv, s1, e1, g1, val1, adj1, D1, ε1, I⟩ := inputs_step (l.map fun a => (a.1 x0, a.2)) h
    (by rw [List.length_map]; omega)
  rw [List.map_map] at e1
  have hxl : xv.length = l.length := by rw [I.len, List.length_map]
  have hh1 := I.head
  rw [List.length_map] at hh1
  have te : EnvTracks x0 g1 val1 D1 (xv ++ caps) (fun y => l.map (fun a => a.1 y) ++ γ y) := by
    refine ⟨fun y => by simp [hxl, tc.len y], ?_⟩
    intro i hi
    by_cases hi' : i < l.length
    · have hix : i < xv.length := by omega
      obtain ⟨a1, a2, a3, a4, a5, a6, a7⟩ := I.has i hix (by rw [List.length_map]; exact hi')
      have hlook : lookV (xv ++ caps) i = xv[i] := by
        simp [lookV, List.getD_eq_getElem?_getD, List.getElem?_append_left hix, hix]
      have hfn : (fun y : E => look (l.map (fun a => a.1 y) ++ γ y) i) = l[i].1 := by
        funext y
        simp [look, List.getD_eq_getElem?_getD, List.getElem?_append_left, hi']
      simp only [List.getElem_map] at a4 a5
      rw [hlook, hfn]
      exact ⟨a1, a4.symm, by rw [a5]; exact hl _ (List.getElem_mem hi')⟩
    · obtain ⟨j, rfl⟩ : ∃ j, i = xv.length + j := ⟨i - xv.length, by omega⟩
      have hj : j < caps.length := by simpa using hi
      have t := tc.tr j hj
      have hlt := h.inv.has_lt t.has
      have hp := I.pre.pos t.has
      have hlook : lookV (xv ++ caps) (xv.length + j) = lookV caps j := by
        unfold lookV
        rw [List.getD_eq_getElem?_getD, List.getElem?_append_right (by omega)]
        simp [List.getD_eq_getElem?_getD]
      have hfn : (fun y : E => look (l.map (fun a => a.1 y) ++ γ y) (xv.length + j)) =
          fun y => look (γ y) j := by
        funext y
        unfold look
        rw [hxl, List.getD_eq_getElem?_getD, List.getElem?_append_right (by simp)]
        simp [List.getD_eq_getElem?_getD]
      rw [hlook, hfn]
      exact ⟨I.pre.has t.has, by rw [hp, I.val _ hlt]; exact t.value,
        by rw [hp, I.dd _ hlt]; exact t.deriv⟩
  obtain ⟨outs, s', e2, g', val', adj', D', ε', sim, gr, hol, tr⟩ :=
    prog_step (lf := p.hasConst) p I.sim te hok (by omega) id
  have hlt : s.tape.head ≤ s1.tape.head := by omega
  refine ⟨xv, outs, s1, s', e1, e2, g', val', adj', D', ε', h.inv, sim, I.pre.trans gr.pre, ?_, ?_,
    ?_, ?_, I.keep.trans gr.keep, by rw [gr.head, List.length_map]; omega,
    by rw [List.length_map]; exact hxl, hol, ?_, ?_, ?_, tr, ?_, ?_⟩
  · intro q hq; rw [gr.val q (by omega), I.val q hq]
  · intro q hq; rw [gr.adj q (by omega), I.adj q hq]
  · intro q hq; rw [gr.dd q (by omega), I.dd q hq]
  · intro q hq; rw [gr.ee q (by omega), I.ee q hq]
  · refine ⟨(g'.nodes.drop g1.nodes.length).map Node.pos, ?_, ?_⟩
    · rw [I.pre.drop gr.pre, List.map_append, I.news]
      congr 1
      apply List.map_congr_left
      intro v hv
      obtain ⟨k, hk, rfl⟩ := List.getElem_of_mem hv
      exact (gr.pre.pos (I.has k hk (by rw [List.length_map]; omega)).1).symm
    · intro q hq
      obtain ⟨nd, hnd, rfl⟩ := List.mem_map.mp hq
      exact (gr.news nd hnd).2.2.1
  · intro nd hnd
    rw [I.pre.drop gr.pre] at hnd
    rcases List.mem_append.mp hnd with hnd | hnd
    · have hm : nd.pos ∈ (g1.nodes.drop g.nodes.length).map Node.pos := List.mem_map_of_mem hnd
      rw [I.news] at hm
      obtain ⟨v, hv, he⟩ := List.mem_map.mp hm
      obtain ⟨k, hk, rfl⟩ := List.getElem_of_mem hv
      obtain ⟨a1, a2, a3, a4, a5, a6, a7⟩ := I.has k hk (by rw [List.length_map]; omega)
      rw [← he, gr.adj _ (I.sim.inv.has_lt a1)]
      exact ⟨a2, a7⟩
    · have := gr.news nd hnd
      exact ⟨by omega, this.2.1⟩
  · intro k hk
    obtain ⟨a1, a2, a3, a4, a5, a6, a7⟩ := I.has k hk (by rw [List.length_map]; omega)
    simp only [List.getElem_map] at a6 ⊢
    rw [gr.pre.pos a1, gr.ee _ (I.sim.inv.has_lt a1)]
    exact ⟨gr.pre.has a1, a2, a3, a6⟩
  · intro nd hnd
    rw [I.pre.drop gr.pre] at hnd
    rcases List.mem_append.mp hnd with hnd | hnd
    · obtain ⟨b1, b2, b3, k, b4, b5, b6⟩ := I.leaf nd hnd
      rw [List.length_map] at b5
      exact Or.inr ⟨b1, b2, b3, k, b4, Or.inl (by rw [List.length_map]; exact b5), b6⟩
    · refine (gr.news nd hnd).2.2.2.imp_right fun ⟨hc, b1, b2, b3, k, b4, b5⟩ =>
        ⟨b1, b2, b3, k, Nat.le_trans I.keep.vhead b4, Or.inr hc, ?_⟩
      rw [b5, I.keep.slots k b4]
  · intro k hk
    obtain ⟨a1, a2, a3, -⟩ := I.has k hk (by rw [List.length_map]; omega)
    obtain ⟨nd, h1, h2⟩ := a1.at
    refine ⟨nd, gr.pre.at h1, ?_⟩
    have hmem : nd ∈ g1.nodes.drop g.nodes.length := by
      have h3 := h1.2
      rw [a3] at h3
      have hvh := h.inv.vhead
      have : g1.nodes.drop g.nodes.length = g1.nodes.drop g.nodes.length := rfl
      apply List.mem_of_getElem? (i := k)
      rw [List.getElem?_drop, ← h3]
      congr 1
      show _ = s.vhead + k - 1
      omega
    obtain ⟨-, -, -, k', b4, b5, b6⟩ := I.leaf nd hmem
    exact ⟨k', b4, by simpa using b5, b6⟩

variable {es : List (E →L[ℝ] ℝ)} {words : Nat} {xv outs : List Var} {τ : E → List ℝ}

/-- sum of the adjoints of `vs` times `es` -/
noncomputable def comb (a : List ℝ) (es : List (E →L[ℝ] ℝ)) : E →L[ℝ] ℝ :=
  (List.zipWith (fun c e => c • e) a es).sum

theorem Ran.split (r : Ran x0 s g val adj D ε es words s' g' val' adj' D' ε' xv outs τ lf) :
    g'.nodes = g.nodes ++ g'.nodes.drop g.nodes.length := by
  obtain ⟨t, ht⟩ := r.pre.nodes
  rw [← ht, List.drop_left]

/-- the sweep from any seeds -/
theorem Ran.sweep (r : Ran x0 s g val adj D ε es words s' g' val' adj' D' ε' xv outs τ lf)
    (hf : ∀ nd ∈ g'.nodes, nd.Fits val') (a : Nat → ℝ) :
    pair (g'.nodes.map Node.pos) a D' =
      pair (g.nodes.map Node.pos) (Fz.sweep val' g'.nodes a) ε +
      comb (xv.map fun v => Fz.sweep val' g'.nodes a (g'.pos v)) es := by
  rw [sweep_all r.sim.inv.wf r.sim.rules hf a]
  obtain ⟨Q, hQ, hQ0⟩ := r.news
  have hsplit : g'.nodes.map Node.pos = g.nodes.map Node.pos ++ (xv.map g'.pos ++ Q) := by
    rw [← hQ, ← List.map_append, ← r.split]
  refine (congrArg (fun P => pair P (Fz.sweep val' g'.nodes a) ε') hsplit).trans ?_
  show pair _ _ _ = _
  rw [pair_append, pair_append]
  have z2 : pair Q (Fz.sweep val' g'.nodes a) ε' = 0 :=
    pair_zero _ _ _ fun q hq => by rw [hQ0 q hq, smul_zero]
  rw [z2, add_zero]
  congr 1
  · refine pair_congr (fun _ _ => rfl) fun q hq => ?_
    obtain ⟨nd, hnd, rfl⟩ := List.mem_map.mp hq
    exact r.ee _ (r.inv0.node_lt hnd)
  · unfold pair comb
    congr 1
    apply List.ext_getElem
    · simp [r.xlen]
    · intro n h1 h2
      have hn : n < xv.length := by simpa using h1
      have := (r.xs n hn).2.2.2
      simp only [List.getElem_map, List.getElem_zipWith]
      rw [this]

/-- the seed of `grad`: one at an output, zero at all other new records -/
theorem Ran.seed (r : Ran x0 s g val adj D ε es words s' g' val' adj' D' ε' xv outs τ lf) (a : Nat → ℝ)
    (hD : ∀ q < s.tape.head, D q = 0)
    (hz : ∀ nd ∈ g'.nodes.drop g.nodes.length, a nd.pos = 0) (k : Nat) (hk : k < outs.length) :
    pair (g'.nodes.map Node.pos) (upd a (g'.pos outs[k]) 1) D' = D' (g'.pos outs[k]) := by
  have ho := (r.os k hk).has
  rw [pair_single _ r.sim.inv.wf.nodup _ _ (g'.pos outs[k]) (by
      obtain ⟨nd, h1, h2⟩ := ho.at
      rw [← h2]; exact List.mem_map_of_mem h1.mem), upd_self, one_smul]
  intro q hq hne
  rw [upd_ne _ _ hne]
  obtain ⟨nd, hnd, rfl⟩ := List.mem_map.mp hq
  rw [r.split] at hnd
  rcases List.mem_append.mp hnd with hnd | hnd
  · have := r.inv0.node_lt hnd
    rw [r.dd _ this, hD _ this, smul_zero]
  · rw [hz nd hnd, zero_smul]

theorem ofFn_get (x : List ℝ) : List.ofFn (fun i : Fin x.length => x[i]) = x := by
  apply List.ext_getElem
  · simp
  · intro n h1 h2; simp

/-- the independent variables as coordinates -/
noncomputable def coords (n : Nat) : List (((Fin n → ℝ) → ℝ) × ((Fin n → ℝ) →L[ℝ] ℝ)) :=
  List.ofFn fun i : Fin n => (fun y => y i, ContinuousLinearMap.proj (R := ℝ) (φ := fun _ => ℝ) i)

@[simp] theorem coords_length (n : Nat) : (coords n).length = n := by simp [coords]

@[simp] theorem coords_eval (n : Nat) (y : Fin n → ℝ) : (coords n).map (fun a => a.1 y) = List.ofFn y := by
  apply List.ext_getElem <;> simp [coords]

theorem coords_deriv (n : Nat) (y : Fin n → ℝ) : ∀ a ∈ coords n, HasFDerivAt a.1 a.2 y := by
  intro a ha
  obtain ⟨i, rfl⟩ := List.mem_ofFn.mp ha
  exact hasFDerivAt_apply (𝕜 := ℝ) (F' := fun _ : Fin n => ℝ) i y

theorem comb_coords (n : Nat) (a : List ℝ) (h : a.length = n) :
    comb a ((coords n).map Prod.snd) =
      ∑ i : Fin n, a.getD i 0 • ContinuousLinearMap.proj (R := ℝ) (φ := fun _ => ℝ) i := by
  unfold comb
  rw [← List.sum_ofFn]
  congr 1
  apply List.ext_getElem
  · simp [h]
  · intro m h1 h2
    have : m < a.length := by simp at h2; omega
    simp [coords, List.getD_eq_getElem?_getD, this]

/-- all records fit, if the old ones do and the table entries used for operand-free records are
harmless -/
theorem Ran.allFits (r : Ran x0 s g val adj D ε es words s' g' val' adj' D' ε' xv outs τ lf)
    (hf : ∀ nd ∈ g.nodes, nd.Fits val)
    (hleaf : ∀ k, s.vhead ≤ k → k < s.vhead + es.length ∨ lf → LeafSafe (s.varis k).chain) :
    ∀ nd ∈ g'.nodes, nd.Fits val' := by
  intro nd hnd
  rw [r.split] at hnd
  rcases List.mem_append.mp hnd with hnd | hnd
  · have hlt := r.inv0.node_lt hnd
    refine Fits.congr (hf nd hnd) (r.val _ hlt) fun p hp => r.val _ ?_
    have := (r.inv0.wf.args nd hnd p hp).1
    omega
  · rcases r.fits nd hnd with h | ⟨b1, b2, b3, k, b4, b5, b6⟩
    · exact h
    · intro adj
      obtain ⟨l, hl⟩ := hleaf k b4 b5 (val' nd.pos) (adj nd.pos)
      refine ⟨l, ?_⟩
      unfold Node.contrib
      rw [b3, b1, b2, b6]
      exact hl

/-- constants are tracked with zero tangents -/
theorem envTracks_const {caps : List Var} (hc : ∀ v ∈ caps, g.Has v) :
    EnvTracks x0 g val (fun _ => (0 : E →L[ℝ] ℝ)) caps (fun _ => caps.map fun v => val (g.pos v)) := by
  refine ⟨fun _ => by simp, fun i hi => ?_⟩
  have hlook : lookV caps i = caps[i] := by simp [lookV, List.getD_eq_getElem?_getD, hi]
  have hl : look (caps.map fun v => val (g.pos v)) i = val (g.pos caps[i]) := by
    simp [look, List.getD_eq_getElem?_getD, hi]
  rw [hlook, hl]
  exact ⟨hc _ (List.getElem_mem hi), rfl, hasFDerivAt_const _ _⟩

/-- after the sweep from output `k` the adjoints of the inputs are the partial derivatives -/
theorem Ran.isGrad {x : List ℝ} {D ε D' ε' : Nat → (Fin x.length → ℝ) →L[ℝ] ℝ} {F : List ℝ → List ℝ}
    {words : Nat} {xv outs : List Var}
    (r : Ran (fun i => x[i]) s g val adj D ε ((coords x.length).map Prod.snd) words s' g' val' adj' D' ε'
      xv outs (fun y => F (List.ofFn y)) lf)
    (hf : ∀ nd ∈ g'.nodes, nd.Fits val')
    (hD : ∀ q < s.tape.head, D q = 0) (hε : ∀ q < s.tape.head, ε q = 0) (a : Nat → ℝ)
    (hz : ∀ nd ∈ g'.nodes.drop g.nodes.length, a nd.pos = 0) (k : Nat) (hk : k < outs.length) :
    IsGradAt (fun z => (F z).getD k 0) x
      (xv.map fun v => Fz.sweep val' g'.nodes (upd a (g'.pos outs[k]) 1) (g'.pos v)) := by
  have hx : xv.length = x.length := by rw [r.xlen]; simp
  refine ⟨by simp [hx], ?_⟩
  have h1 := r.sweep hf (upd a (g'.pos outs[k]) 1)
  rw [r.seed a hD hz k hk, pair_zero (g.nodes.map Node.pos) _ ε, zero_add,
    comb_coords _ _ (by simp [hx])] at h1
  · rw [← h1]; exact (r.os k hk).deriv
  · intro q hq
    obtain ⟨nd, hnd, rfl⟩ := List.mem_map.mp hq
    rw [hε _ (r.inv0.node_lt hnd), smul_zero]

/-- creating the independent variables `x` and running the program `p` on them and on the caller's
variables `caps` -/
theorem ran_coords (h : Inv s g val adj) (x : List ℝ)
    {caps : List Var} (hc : ∀ v ∈ caps, g.Has v) (p : Prog)
    (hok : p.Ok (x ++ caps.map fun v => val (g.pos v)))
    (hcap : s.tape.head + (6 * x.length + p.cost (x ++ caps.map fun v => val (g.pos v))) ≤ cap) :
    ∃ xv outs s1 s', (newVars x : M W (List Var)) s = .ok (xv, s1) ∧
      (p.run (xv ++ caps) : M W (List Var)) s1 = .ok (outs, s') ∧
      ∃ g' val' adj' D' ε', Ran (E := Fin x.length → ℝ) (fun i => x[i]) s g val adj (fun _ => 0)
        (fun _ => 0) ((coords x.length).map Prod.snd)
        (p.cost (x ++ caps.map fun v => val (g.pos v))) s' g' val' adj' D' ε' xv outs
        (fun y => p.sem (List.ofFn y ++ caps.map fun v => val (g.pos v))) p.hasConst := by
  have h0 : Sim s g val adj (fun _ => (0 : (Fin x.length → ℝ) →L[ℝ] ℝ)) (fun _ => 0) := sim_zero h
  have := ran (x0 := fun i : Fin x.length => x[i]) h0 (coords x.length) (coords_deriv _ _)
    (envTracks_const hc) p
  simp only [coords_eval, coords_length, ofFn_get] at this
  exact this hok hcap

end Fz
