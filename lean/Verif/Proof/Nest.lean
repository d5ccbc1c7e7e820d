import Verif.Proof.Views
import Verif.Proof.Region
import Verif.Spec.Nest

/-!
# What a nested region leaves of the outer variables
-/

set_option linter.unusedSectionVars false

namespace Fz
variable {W R : Type} [Arith R] [Rep W R] [LawfulRep W R]
open Arith Spec

/-- The state inside a region that was begun in the client `c0`, seen from the outer variable `v`.
`kv`: nothing is assigned; `ka`: `v` is not named in the region, and there are no global sweeps;
`ks`: no sweeps at all. -/
structure Above (v : Var) (kv ka ks : Prop) (c0 : Client W) (g0 : Graph R) (val0 adj0 : Nat → R)
    (c : Client W) (g : Graph R) (val adj : Nat → R) (d : Nat) : Prop where
  env : c.env.take c0.env.length = c0.env
  marks : ∃ ex, c.marks = ex ++ c0.env.length :: c0.marks ∧ ∀ m ∈ ex, c0.env.length ≤ m
  lvl : c.st.level = c0.st.level + 1 + d
  pre : g0.erase.nodes <+: g.erase.nodes
  head : c0.st.tape.head ≤ c.st.tape.head
  nest : ∀ k ≤ c0.st.level, c.st.nestTape k = c0.st.nestTape k ∧ c.st.nestVari k = c0.st.nestVari k
  base : c.st.nestTape (c0.st.level + 1) = c0.st.tape.head ∧ c.st.nestVari (c0.st.level + 1) = c0.st.vhead
  up : ∀ k, c0.st.level + 1 ≤ k → k ≤ c.st.level →
    c0.st.vhead ≤ c.st.nestVari k ∧ c0.st.tape.head ≤ c.st.nestTape k
  chain : ka → g.nodes[v.vi - 1]? = g0.nodes[v.vi - 1]?
  own : ∀ k nd, g0.nodes.length ≤ k → g.nodes[k]? = some nd → ∀ p ∈ nd.args, ka → p ≠ g0.pos v
  names : ka → ∀ i < c.env.length, (i < c0.env.length → nth c0.env i ≠ v) → g.pos (nth c.env i) ≠ g0.pos v
  valV : kv → val (g0.pos v) = val0 (g0.pos v)
  valA : ka → val (g0.pos v) = val0 (g0.pos v)
  adjA : ka → adj (g0.pos v) = adj0 (g0.pos v)
  adjS : ks → adj (g0.pos v) = adj0 (g0.pos v)

variable {v : Var} {kv ka ks : Prop} {c0 c c' : Client W} {g0 g g' : Graph R}
variable {val0 adj0 val adj val' adj' : Nat → R} {d : Nat}

theorem erase_nodes_get {k : Nat} {nd : Node R} (h : g.erase.nodes <+: g'.erase.nodes)
    (hk : g.nodes[k]? = some nd) : ∃ c, g'.nodes[k]? = some { nd with chain := c } := by
  have h' : (⟨g.nodes, []⟩ : Graph R).erase.Prefix (⟨g'.nodes, []⟩ : Graph R).erase :=
    ⟨h, List.prefix_refl _⟩
  exact h'.getErase hk

theorem erase_nodes_pos (h : g.erase.nodes <+: g'.erase.nodes) {v : Var} (hv : g.Has v) :
    g'.pos v = g.pos v := by
  have h' : (⟨g.nodes, []⟩ : Graph R).erase.Prefix (⟨g'.nodes, []⟩ : Graph R).erase :=
    ⟨h, List.prefix_refl _⟩
  exact h'.posErase hv

theorem erase_nodes_len (h : g.erase.nodes <+: g'.erase.nodes) : g.nodes.length ≤ g'.nodes.length := by
  simpa [Graph.erase] using h.length_le

namespace Above

theorem has (a : Above v kv ka ks c0 g0 val0 adj0 c g val adj d) {u : Var} (hu : g0.Has u) : g.Has u :=
  ⟨hu.1, Nat.le_trans hu.2 (erase_nodes_len a.pre)⟩

theorem pos (a : Above v kv ka ks c0 g0 val0 adj0 c g val adj d) {u : Var} (hu : g0.Has u) :
    g.pos u = g0.pos u := erase_nodes_pos a.pre hu

theorem len (a : Above v kv ka ks c0 g0 val0 adj0 c g val adj d) : c0.env.length ≤ c.env.length := by
  have := congrArg List.length a.env
  simp at this
  omega

theorem start (G : Good c0 g0 val0 adj0) (hv : kv ∨ ka ∨ ks → g0.Has v) (G' : Good c' g0 val0 adj0)
    (he : c'.env = c0.env) (hm : c'.marks = c0.env.length :: c0.marks)
    (hst : c'.st = ⟨c0.st.vhead, c0.st.nVaris, c0.st.varis, c0.st.tape,
        fun k => if k = c0.st.level + 1 then c0.st.tape.head else c0.st.nestTape k,
        fun k => if k = c0.st.level + 1 then c0.st.vhead else c0.st.nestVari k, c0.st.level + 1⟩) :
    Above v kv ka ks c0 g0 val0 adj0 c' g0 val0 adj0 0 where
  env := by rw [he, List.take_length]
  marks := ⟨[], by simp [hm], by simp⟩
  lvl := by rw [hst]
  pre := List.prefix_refl _
  head := by rw [hst]
  nest := fun k hk => by
    rw [hst]
    simp [show k ≠ c0.st.level + 1 by omega]
  base := by rw [hst]; simp
  up := fun k h1 h2 => by
    rw [hst] at h2 ⊢
    have : k = c0.st.level + 1 := by simp only at h2; omega
    simp [this]
  chain := fun _ => rfl
  own := fun k nd hk he => by
    have := (List.getElem?_eq_some_iff.mp he).1
    omega
  names := fun h i hi hne => by
    intro hp
    rw [he] at hi hp
    exact hne hi ((G.has _ (nth_mem hi)).inj (hv (.inr (.inl h))) G.inv hp)
  valV := fun _ => rfl
  valA := fun _ => rfl
  adjA := fun _ => rfl
  adjS := fun _ => rfl

/-- calls that only change values and adjoints -/
theorem mem (a : Above v kv ka ks c0 g0 val0 adj0 c g val adj d) {m : Nat → W}
    (h1 : kv → val' (g0.pos v) = val (g0.pos v)) (h2 : ka → val' (g0.pos v) = val (g0.pos v))
    (h3 : ka → adj' (g0.pos v) = adj (g0.pos v)) (h4 : ks → adj' (g0.pos v) = adj (g0.pos v)) :
    Above v kv ka ks c0 g0 val0 adj0 ⟨c.st.withMem m, c.env, c.marks⟩ g val' adj' d where
  env := a.env
  marks := a.marks
  lvl := a.lvl
  pre := a.pre
  head := a.head
  nest := a.nest
  base := a.base
  up := a.up
  chain := a.chain
  own := a.own
  names := a.names
  valV := fun h => (h1 h).trans (a.valV h)
  valA := fun h => (h2 h).trans (a.valA h)
  adjA := fun h => (h3 h).trans (a.adjA h)
  adjS := fun h => (h4 h).trans (a.adjS h)

end Above

theorem assigned_off (q : Nat) : ∀ (ps : List Nat) (ds : List R) (val : Nat → R), q ∉ ps →
    assigned val ps ds q = val q
  | [], _, _, _ => rfl
  | _ :: _, [], _, _ => rfl
  | p :: ps, d :: ds, val, h => by
    rw [assigned, assigned_off q ps ds _ fun e => h (by simp [e])]
    exact upd_ne _ _ fun e => h (by simp [e])

/-- the conditions on the calls of the region -/
structure Allowed (v : Var) (kv ka ks : Prop) (c0 : Client W) (k : Call R) : Prop where
  kv : kv → k.assigns = false
  ka : ka → k.global = false ∧ ∀ i ∈ k.args, i < c0.env.length → nth c0.env i ≠ v
  ks : ks → k.sweeps = false

/-- nesting after a call -/
def stepIn (d : Nat) : Call R → Option Nat
  | .begin => some (d + 1)
  | .done => if d = 0 then none else some (d - 1)
  | _ => some d

theorem inside_cons (d : Nat) (k : Call R) (l : List (Call R)) :
    inside d (k :: l) = (stepIn d k).bind fun d' => inside d' l := by
  cases k <;> cases d <;> rfl

theorem Above.exec (G0 : Good c0 g0 val0 adj0) (hv : kv ∨ ka ∨ ks → g0.Has v) (G : Good c g val adj)
    (a : Above v kv ka ks c0 g0 val0 adj0 c g val adj d) {k : Call R} (al : Allowed v kv ka ks c0 k)
    {d' : Nat} (hd : stepIn d k = some d') (hs : k.Sane) (hrun : k.exec c = .ok c') :
    ∃ (g' : Graph R) (val' adj' : Nat → R), Good c' g' val' adj' ∧
      Above v kv ka ks c0 g0 val0 adj0 c' g' val' adj' d' := by
  have hrun0 := hrun
  unfold Call.exec at hrun
  split at hrun
  case isFalse => cases hrun
  rename_i ha
  have hvb : kv ∨ ka ∨ ks → g0.pos v < c0.st.tape.head := by
    intro hq
    obtain ⟨nd, h1, h2⟩ := (hv hq).at
    have := (G0.inv.wf.below nd h1.mem).2
    simp only [Node.len] at this
    omega
  have off : ka → ∀ i ∈ k.args, g.pos (nth c.env i) ≠ g0.pos v := fun h i hi =>
    a.names h i (ha i hi) ((al.ka h).2 i hi)
  have offL : ka → ∀ (is : List Nat), (∀ i ∈ is, i ∈ k.args) → g0.pos v ∉ (is.map (nth c.env)).map g.pos := by
    intro h is his hm
    simp only [List.mem_map] at hm
    obtain ⟨u, ⟨i, hi, rfl⟩, e⟩ := hm
    exact off h i (his i hi) e
  cases k with
  | make m =>
    cases hd
    obtain ⟨ha', vs, s', hm, rfl⟩ := exec_make' hrun0
    obtain ⟨g', val', adj', ev, hr, gd⟩ := G.makeF (φ := fun p => ka → p ≠ g0.pos v) ha'
      (fun i hi h => off h i hi) (fun p hp h he => by have := a.head; have := hvb (.inr (.inl h)); omega) hs hm
    have hh := a.head
    have hl := a.len
    refine ⟨g', val', adj', gd, ?_⟩
    exact {
      env := by
        show (c.env ++ vs).take _ = _
        rw [List.take_append_of_le_length hl, a.env]
      marks := a.marks
      lvl := ev.keep.level.trans a.lvl
      pre := a.pre.trans ev.pre.nodes
      head := Nat.le_trans a.head ev.head
      nest := fun k hk => by
        show s'.nestTape k = _ ∧ s'.nestVari k = _
        rw [ev.keep.nestTape, ev.keep.nestVari]
        exact a.nest k hk
      base := by
        show s'.nestTape _ = _ ∧ s'.nestVari _ = _
        rw [ev.keep.nestTape, ev.keep.nestVari]
        exact a.base
      up := fun k h1 h2 => by
        show c0.st.vhead ≤ s'.nestVari k ∧ c0.st.tape.head ≤ s'.nestTape k
        rw [ev.keep.nestTape, ev.keep.nestVari]
        exact a.up k h1 (by have := ev.keep.level; simp only at h2; omega)
      chain := fun h => by
        obtain ⟨nd, h1, h2⟩ := (hv (.inr (.inl h))).at
        rw [h1.2]
        have hg := a.chain h
        rw [h1.2] at hg
        exact ev.chain _ _ hg fun hc => hc h h2
      own := fun k nd hk he p hp h => by
        by_cases hk' : g.nodes.length ≤ k
        · exact ev.own k nd hk' he p hp h
        · have hlt : k < g.nodes.length := by omega
          have e1 := List.getElem?_eq_getElem hlt
          obtain ⟨c, hc⟩ := ev.pre.getErase e1
          rw [he] at hc
          have := Option.some.inj hc
          subst this
          exact a.own k (g.nodes[k]) hk e1 p hp h
      names := fun h i hi hne => by
        by_cases hi' : i < c.env.length
        · have e : nth (c.env ++ vs) i = nth c.env i := by
            unfold nth
            simp [List.getElem?_append_left hi']
          show g'.pos (nth (c.env ++ vs) i) ≠ _
          rw [e, ev.pre.posErase (nth_has G.has hi')]
          exact a.names h i hi' hne
        · have hm : nth (c.env ++ vs) i ∈ vs := by
            simp only [List.length_append] at hi
            unfold nth
            rw [List.getD_eq_getElem?_getD, List.getElem?_append_right (by omega),
              List.getElem?_eq_getElem (by omega)]
            exact List.getElem_mem _
          exact (hr _ hm).ge h
      valV := fun h => (ev.val _ (by have := hvb (.inl h); omega)).trans (a.valV h)
      valA := fun h => (ev.val _ (by have := hvb (.inr (.inl h)); omega)).trans (a.valA h)
      adjA := fun h => (ev.adj _ (by have := hvb (.inr (.inl h)); omega)).trans (a.adjA h)
      adjS := fun h => (ev.adj _ (by have := hvb (.inr (.inr h)); omega)).trans (a.adjS h) }
  | assign i x =>
    cases hd
    obtain ⟨gd, m, rfl⟩ := G.assign (nth_mem (ha i (by simp [Call.args]))) x hrun
    exact ⟨_, _, _, gd, a.mem (fun h => absurd (al.kv h) (by simp [Call.assigns]))
      (fun h => upd_ne _ _ fun e => off h i (by simp [Call.args]) e.symm) (fun _ => rfl) fun _ => rfl⟩
  | assignArr is ds =>
    cases hd
    obtain ⟨gd, ⟨m, rfl⟩, _⟩ := G.assignArr (fun v hv => by
      simp only [List.mem_map] at hv
      obtain ⟨i, hi, rfl⟩ := hv
      exact nth_mem (ha i hi)) ds hrun
    exact ⟨_, _, _, gd, a.mem (fun h => absurd (al.kv h) (by simp [Call.assigns]))
      (fun h => assigned_off _ _ _ _ (offL h is fun i hi => hi)) (fun _ => rfl) fun _ => rfl⟩
  | assignAll is x =>
    cases hd
    obtain ⟨gd, m, rfl⟩ := G.assignAll (fun v hv => by
      simp only [List.mem_map] at hv
      obtain ⟨i, hi, rfl⟩ := hv
      exact nth_mem (ha i hi)) x hrun
    exact ⟨_, _, _, gd, a.mem (fun h => absurd (al.kv h) (by simp [Call.assigns]))
      (fun h => assigned_off _ _ _ _ (offL h is fun i hi => hi)) (fun _ => rfl) fun _ => rfl⟩
  | grad i =>
    cases hd
    obtain ⟨_, gd, m, rfl⟩ := G.grad (nth_mem (ha i (by simp [Call.args]))) hrun
    exact ⟨_, _, _, gd, a.mem (fun _ => rfl) (fun _ => rfl)
      (fun h => absurd (al.ka h).1 (by simp [Call.global])) fun h => absurd (al.ks h) (by simp [Call.sweeps])⟩
  | gradNested i =>
    cases hd
    obtain ⟨n, hl, hn, hle, _, gd, m, rfl⟩ := G.gradNested (nth_mem (ha i (by simp [Call.args]))) hrun
    refine ⟨_, _, _, gd, a.mem (fun _ => rfl) (fun _ => rfl) (fun h => ?_)
      fun h => absurd (al.ks h) (by simp [Call.sweeps])⟩
    have hu := a.up c.st.level (by have := a.lvl; omega) (Nat.le_refl _)
    have hvh := G0.inv.vhead
    rw [sweep_off]
    · exact upd_ne _ _ fun e => off h i (by simp [Call.args]) e.symm
    · intro nd hnd hp
      obtain ⟨j, hj⟩ := List.mem_iff_getElem?.mp hnd
      rw [List.getElem?_drop] at hj
      exact a.own (n + j) nd (by omega) hj _ hp h rfl
  | zeroAll =>
    cases hd
    obtain ⟨adj', gd, _, m, rfl⟩ := G.zeroAll hrun
    exact ⟨_, _, _, gd, a.mem (fun _ => rfl) (fun _ => rfl)
      (fun h => absurd (al.ka h).1 (by simp [Call.global])) fun h => absurd (al.ks h) (by simp [Call.sweeps])⟩
  | zeroNested =>
    cases hd
    obtain ⟨n, adj', hl, hn, hle, gd, _, hk, m, rfl⟩ := G.zeroNested hrun
    have hu := a.up c.st.level (by have := a.lvl; omega) (Nat.le_refl _)
    have hvh := G0.inv.vhead
    have key : kv ∨ ka ∨ ks → adj' (g0.pos v) = adj (g0.pos v) := by
      intro hq
      have hv := hv hq
      obtain ⟨nd, h1, h2⟩ := (a.has hv).at
      have := hk nd (by
        refine List.mem_iff_getElem?.mpr ⟨v.vi - 1, ?_⟩
        rw [List.getElem?_take_of_lt (by have := hv.1; have := hv.2; omega)]
        exact h1.2)
      rw [h2, a.pos hv] at this
      exact this
    exact ⟨_, _, _, gd, a.mem (fun _ => rfl) (fun _ => rfl) (fun h => key (.inr (.inl h))) fun h => key (.inr (.inr h))⟩
  | begin =>
    cases hd
    obtain ⟨gd, hl, he, hm, hst⟩ := G.begin hrun
    have hlv := a.lvl
    have hpl := erase_nodes_len a.pre
    have hv1 := G0.inv.vhead
    have hv2 := G.inv.vhead
    refine ⟨g, val, adj, gd, ?_⟩
    exact {
      env := by rw [he]; exact a.env
      marks := by
        obtain ⟨ex, h1, h2⟩ := a.marks
        refine ⟨c.env.length :: ex, by rw [hm, h1]; rfl, ?_⟩
        intro x hx
        rcases List.mem_cons.mp hx with rfl | hx
        · exact a.len
        · exact h2 x hx
      lvl := by rw [hst]; simp only; omega
      pre := a.pre
      head := by rw [hst]; exact a.head
      nest := fun k hk => by
        rw [hst]
        simp only [show k ≠ c.st.level + 1 by omega, if_false]
        exact a.nest k hk
      base := by
        rw [hst]
        simp only [show c0.st.level + 1 ≠ c.st.level + 1 by omega, if_false]
        exact a.base
      up := fun k h1 h2 => by
        rw [hst] at h2 ⊢
        simp only at h2
        by_cases hk : k = c.st.level + 1
        · simp only [hk, if_true]
          exact ⟨by omega, a.head⟩
        · simp only [hk, if_false]
          exact a.up k h1 (by omega)
      chain := a.chain
      own := a.own
      names := by rw [he]; exact a.names
      valV := a.valV
      valA := a.valA
      adjA := a.adjA
      adjS := a.adjS }
  | done =>
    have hlv := a.lvl
    have hd0 : d ≠ 0 := by
      intro h0
      simp [stepIn, h0] at hd
    have hd1 : d' = d - 1 := by
      simp [stepIn, hd0] at hd
      exact hd.symm
    rcases G.done hrun with ⟨h0, _⟩ | ⟨m, ms, n, b, q1, q2, q3, q4, q5, q5', gd, q6, q7, q8, q9, q10, q11, q12, q13, q14⟩
    · omega
    have hu := a.up c.st.level (by omega) (Nat.le_refl _)
    have hv1 := G0.inv.vhead
    have hpl := erase_nodes_len a.pre
    have hn0 : g0.nodes.length ≤ n := by omega
    obtain ⟨ex, e1, e2⟩ := a.marks
    have hlv0 := G0.lvl
    have hex : ex ≠ [] := by
      intro h0
      have e3 := e1
      rw [h0, q1] at e3
      have := congrArg List.length e3
      simp only [List.length_append, List.length_cons, List.length_nil] at this
      omega
    obtain ⟨x, xs, rfl⟩ := List.exists_cons_of_ne_nil hex
    rw [q1, List.cons_append] at e1
    injection e1 with e3 e4
    subst e3
    have hm0 : c0.env.length ≤ m := e2 m (by simp)
    have hlvl' : c'.st.level = c.st.level - 1 := by
      rw [gd.lvl, q7]
      omega
    refine ⟨_, _, _, gd, ?_⟩
    have hpre : g0.erase.nodes <+: (g.cut n b).erase.nodes := by
      obtain ⟨t, ht⟩ := a.pre
      rw [Graph.erase_cut]
      show _ <+: g.erase.nodes.take n
      rw [← ht, List.take_append]
      rw [List.take_of_length_le (by simp [Graph.erase]; omega)]
      exact List.prefix_append _ _
    exact {
      env := by
        rw [q6, List.take_take, Nat.min_eq_left hm0]
        exact a.env
      marks := ⟨xs, by rw [q7, e4], fun y hy => e2 y (by simp [hy])⟩
      lvl := by omega
      pre := hpre
      head := by rw [q12]; exact hu.2
      nest := fun k hk => by
        have := q14 k (by omega)
        rw [this.1, this.2]
        exact a.nest k hk
      base := by
        have := q14 (c0.st.level + 1) (by omega)
        rw [this.1, this.2]
        exact a.base
      up := fun k h1 h2 => by
        have := q14 k (by omega)
        rw [this.1, this.2]
        exact a.up k h1 (by omega)
      chain := fun h => by
        rw [← a.chain h]
        show (g.nodes.take n)[_]? = _
        have hv := hv (.inr (.inl h))
        rw [List.getElem?_take_of_lt (by have := hv.1; have := hv.2; omega)]
      own := fun k nd hk he => by
        refine a.own k nd hk ?_
        have he' : (g.nodes.take n)[k]? = some nd := he
        rw [List.getElem?_take] at he'
        split at he'
        · exact he'
        · cases he'
      names := fun h i hi hne => by
        rw [q6] at hi ⊢
        have hi1 : i < c.env.length := by simp at hi; omega
        have e : nth (c.env.take m) i = nth c.env i := by
          unfold nth
          simp only [List.getD_eq_getElem?_getD]
          rw [List.getElem?_take_of_lt (by simp at hi; omega)]
        rw [e]
        have hc : (g.cut n b).nodes.length = n := by simp [Graph.cut]; omega
        have hh : (g.cut n b).Has (nth c.env i) := by
          refine ⟨(nth_has G.has hi1).1, ?_⟩
          rw [hc]
          refine q5 _ ?_
          rw [← e]
          exact nth_mem hi
        have : g.pos (nth c.env i) = (g.cut n b).pos (nth c.env i) :=
          erase_nodes_pos (by rw [Graph.erase_cut]; exact List.take_prefix _ _) hh
        rw [← this]
        exact a.names h i hi1 hne
      valV := a.valV
      valA := a.valA
      adjA := a.adjA
      adjS := a.adjS }

theorem Above.run (G0 : Good c0 g0 val0 adj0) (hv : kv ∨ ka ∨ ks → g0.Has v) : ∀ (l : List (Call R)) {c c' : Client W}
    {g : Graph R} {val adj : Nat → R} {d d' : Nat}, Good c g val adj →
    Above v kv ka ks c0 g0 val0 adj0 c g val adj d → (∀ k ∈ l, Allowed v kv ka ks c0 k) →
    inside d l = some d' → (∀ k ∈ l, k.Sane) → Spec.run l c = .ok c' →
    ∃ (g' : Graph R) (val' adj' : Nat → R), Good c' g' val' adj' ∧
      Above v kv ka ks c0 g0 val0 adj0 c' g' val' adj' d' := by
  intro l
  induction l with
  | nil =>
    intro c c' g val adj d d' G a _ hd _ e
    cases e
    cases hd
    exact ⟨g, val, adj, G, a⟩
  | cons k l ih =>
    intro c c' g val adj d d' G a al hd hs e
    rw [run_cons] at e
    rw [inside_cons] at hd
    cases hk : k.exec c with
    | error x => rw [hk] at e; cases e
    | ok c1 =>
      rw [hk] at e
      cases hsd : stepIn d k with
      | none => rw [hsd] at hd; cases hd
      | some d1 =>
        rw [hsd] at hd
        obtain ⟨g1, val1, adj1, G1, a1⟩ := a.exec G0 hv G (al k (by simp)) hsd (hs k (by simp)) hk
        exact ih G1 a1 (fun x hx => al x (by simp [hx])) hd (fun x hx => hs x (by simp [hx])) e

theorem run_append : ∀ (l l' : List (Call R)) (c : Client W),
    Spec.run (l ++ l') c = Spec.run l c >>= fun c => Spec.run l' c
  | [], l', c => rfl
  | k :: l, l', c => by
    rw [List.cons_append, run_cons, run_cons]
    cases k.exec c with
    | error e => rfl
    | ok c1 => exact run_append l l' c1

/-- what is left after the region has been closed -/
structure Closed (v : Var) (kv ka ks : Prop) (c0 : Client W) (g0 : Graph R) (val0 adj0 : Nat → R)
    (c : Client W) (g : Graph R) (val adj : Nat → R) : Prop where
  good : Good c g val adj
  env : c.env = c0.env
  marks : c.marks = c0.marks
  level : c.st.level = c0.st.level
  head : c.st.tape.head = c0.st.tape.head
  vhead : c.st.vhead = c0.st.vhead
  nest : ∀ k ≤ c0.st.level, c.st.nestTape k = c0.st.nestTape k ∧ c.st.nestVari k = c0.st.nestVari k
  pre : g0.erase.nodes = g.erase.nodes
  chain : ka → g.nodes[v.vi - 1]? = g0.nodes[v.vi - 1]?
  valV : kv → val (g0.pos v) = val0 (g0.pos v)
  valA : ka → val (g0.pos v) = val0 (g0.pos v)
  adjA : ka → adj (g0.pos v) = adj0 (g0.pos v)
  adjS : ks → adj (g0.pos v) = adj0 (g0.pos v)

theorem closed (G0 : Good c0 g0 val0 adj0) (hv : kv ∨ ka ∨ ks → g0.Has v) {l : List (Call R)} (hb : Balanced l)
    (hs : ∀ k ∈ l, k.Sane) (al : ∀ k ∈ l, Allowed v kv ka ks c0 k)
    (hrun : Spec.run (Call.begin :: l ++ [Call.done]) c0 = .ok c') :
    ∃ (g' : Graph R) (val' adj' : Nat → R), Closed v kv ka ks c0 g0 val0 adj0 c' g' val' adj' := by
  rw [List.cons_append, run_cons] at hrun
  cases hk : (Call.begin : Call R).exec c0 with
  | error x => rw [hk] at hrun; cases hrun
  | ok c1 =>
    rw [hk] at hrun
    replace hrun : Spec.run (l ++ [Call.done]) c1 = .ok c' := hrun
    rw [run_append] at hrun
    have hk' : (Call.begin : Call R).step c0 = .ok c1 := by
      unfold Call.exec at hk
      rw [if_pos (by simp [Call.args])] at hk
      exact hk
    obtain ⟨G1, _, he, hm, hst⟩ := G0.begin hk'
    have a1 := Above.start (kv := kv) (ka := ka) (ks := ks) G0 hv G1 he hm hst
    cases hr : Spec.run l c1 with
    | error x => rw [hr] at hrun; cases hrun
    | ok c2 =>
      rw [hr] at hrun
      replace hrun : Spec.run [Call.done] c2 = .ok c' := hrun
      obtain ⟨g2, val2, adj2, G2, a2⟩ := Above.run G0 hv l G1 a1 al hb hs hr
      rw [run_cons] at hrun
      cases hd : (Call.done : Call R).exec c2 with
      | error x => rw [hd] at hrun; cases hrun
      | ok c3 =>
        rw [hd] at hrun
        cases hrun
        have hd' : (Call.done : Call R).step c2 = .ok c' := by
          unfold Call.exec at hd
          rw [if_pos (by simp [Call.args])] at hd
          exact hd
        have hlv := a2.lvl
        have hlv0 := G0.lvl
        rcases G2.done hd' with ⟨h0, _⟩ | ⟨m, ms, n, b, q1, q2, q3, q4, q5, q5', gd, q6, q7, q8, q9, q10, q11, q12, q13, q14⟩
        · omega
        have hb2 := a2.base
        have hlv2 : c2.st.level = c0.st.level + 1 := by omega
        have hv1 := G0.inv.vhead
        rw [hlv2] at q3 q12
        rw [hb2.1] at q12
        have hn : n = g0.nodes.length := by omega
        subst hn
        obtain ⟨ex, e1, e2⟩ := a2.marks
        have hex : ex = [] := by
          have e3 := e1
          rw [q1] at e3
          have := congrArg List.length e3
          simp only [List.length_append, List.length_cons] at this
          exact List.length_eq_zero_iff.mp (by omega)
        subst hex
        rw [q1] at e1
        injection e1 with e3 e4
        subst e3
        have hlv' := gd.lvl
        rw [q7] at hlv'
        exact ⟨_, _, _, {
          good := gd
          env := by rw [q6, a2.env]
          marks := by rw [q7]; exact e4
          level := by omega
          head := q12
          vhead := by omega
          nest := fun k hk => by
            have := q14 k (by omega)
            rw [this.1, this.2]
            exact a2.nest k hk
          pre := by
            obtain ⟨t, ht⟩ := a2.pre
            rw [Graph.erase_cut]
            show _ = g2.erase.nodes.take _
            rw [← ht, List.take_append_of_le_length (by simp [Graph.erase]), List.take_of_length_le
              (by simp [Graph.erase])]
          chain := fun h => by
            rw [← a2.chain h]
            show (g2.nodes.take _)[_]? = _
            have hv := hv (.inr (.inl h))
            rw [List.getElem?_take_of_lt (by have := hv.1; have := hv.2; omega)]
          valV := a2.valV
          valA := a2.valA
          adjA := a2.adjA
          adjS := a2.adjS }⟩

end Fz
