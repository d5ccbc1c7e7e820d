import Verif.Proof.Rules

/-!
# Overwriting the chain pointer of an existing record
-/

set_option linter.unusedSectionVars false

namespace Fz
open Arith Spec

section
variable {W R : Type} [Arith R] [Rep W R] [LawfulRep W R]
variable {s s' : St W} {g : Graph R} {val adj : Nat → R}

/-- the last record with another chain pointer -/
theorem Inv.Grown.rechain {nd : Node R} {x : R} (h : Inv s g val adj) (gr : Inv.Grown s g val adj nd x s') (c : Chain) :
    ∃ s'', (Var.setChain ⟨s.vhead⟩ c : M W Unit) s' = .ok ((), s'') ∧
      Inv.Grown s g val adj { nd with chain := c } x s'' := by
  have hvh := h.vhead
  obtain ⟨s'', e', i', hv', ht', k'⟩ := gr.inv.setChain_ok (v := ⟨s.vhead⟩) (nd := nd)
    (by rw [hvh]; exact Graph.at_last g _) c
  refine ⟨s'', e', ?_, ?_, ?_, gr.keep.trans k'⟩
  · have : s.vhead - 1 = g.nodes.length := by omega
    rw [this, setChain_last] at i'
    exact i'
  · rw [hv']; exact gr.vhead
  · rw [ht']; exact gr.head

theorem Graph.setChain_at {v w : Var} {nd : Node R} (hw : g.At w nd) (c : Chain) :
    (g.setChain (v.vi - 1) c).At w (if v.vi - 1 = w.vi - 1 then { nd with chain := c } else nd) := by
  refine ⟨hw.1, ?_⟩
  simp only [Graph.setChain, List.getElem?_modify, hw.2, Option.map_some]
  split <;> rfl

/-- nothing that can be read changes -/
theorem Inv.seen_setChain (h : Inv s g val adj) {v w : Var} {c : Chain} (i : Inv s' (g.setChain (v.vi - 1) c) val adj)
    (hw : g.Has w) : Spec.seen (R := R) s' w = Spec.seen s w := by
  obtain ⟨nd, h1, -⟩ := hw.at
  rw [h.seen h1, i.seen (Graph.setChain_at h1 c)]
  split <;> rfl

theorem mem_setChain {v : Var} {nd x : Node R} (hv : g.At v nd) {c : Chain} (hx : x ∈ (g.setChain (v.vi - 1) c).nodes) :
    x ∈ g.nodes ∨ x = { nd with chain := c } := by
  obtain ⟨i, hi⟩ := List.mem_iff_getElem?.mp hx
  simp only [Graph.setChain, List.getElem?_modify] at hi
  cases hy : g.nodes[i]? with
  | none => rw [hy] at hi; simp at hi
  | some y =>
    rw [hy] at hi
    by_cases hki : v.vi - 1 = i
    · subst hki
      rw [hv.2] at hy
      cases hy
      simp at hi
      exact Or.inr hi.symm
    · simp [hki] at hi
      subst hi
      exact Or.inl (List.mem_of_getElem? hy)

theorem setChain_mem {v : Var} {nd : Node R} (hv : g.At v nd) (c : Chain) :
    { nd with chain := c } ∈ (g.setChain (v.vi - 1) c).nodes := by
  have := (Graph.setChain_at (v := v) hv c).mem
  simpa using this

/-- the chain pointer is the one already there -/
theorem Inv.setChain_same (h : Inv s g val adj) {v : Var} {nd : Node R} (hv : g.At v nd) :
    (v.setChain nd.chain : M W Unit) s = .ok ((), s) := by
  have hg := h.getVari hv.2
  have hvi : v.vi - 1 + 1 = v.vi := by have := hv.1; omega
  have ht := h.tab _ _ hv.2
  rw [hvi] at hg ht
  have hlt : v.vi - 1 < g.nodes.length := (List.getElem?_eq_some_iff.mp hv.2).1
  have hvh := h.vhead
  have hvc := h.vcap
  unfold Var.setChain setIndexedChain
  rw [bind_ok hg]
  unfold Fz.setVari
  rw [if_pos (by omega)]
  have : (fun m => if m = v.vi then (⟨nd.pos, nd.chain⟩ : Vari) else s.varis m) = s.varis := by
    funext m
    split
    · next hm => rw [hm, ht]
    · rfl
  rw [this]

end

variable {W : Type} [Rep W ℝ] [LawfulRep W ℝ]
variable {s s' : St W} {g : Graph ℝ} {val adj : Nat → ℝ} {u : Var}

/-- a new chain pointer that leaves the tangents as they are -/
theorem Rated.rechain {D ε : Nat → ℝ →L[ℝ] ℝ} (H : Rated s g val adj D ε u) {v : Var} {nd : Node ℝ} (hv : g.At v nd)
    {c : Chain} (hrule : Rule val D ε { nd with chain := c }) (hfit : Node.Fits { nd with chain := c } val) :
    ∃ s', (v.setChain c : M W Unit) s = .ok ((), s') ∧ Gives s s' v (val nd.pos) u (D nd.pos 1) := by
  have hi := H.sim.inv
  obtain ⟨s', e, i, h2, h3, k⟩ := hi.setChain_ok hv c
  have hh : g.Has v := ⟨hv.1, by have := (List.getElem?_eq_some_iff.mp hv.2).1; have := hv.1; omega⟩
  have hp : g.pos v = nd.pos := by
    obtain ⟨nd', h1, h2⟩ := hh.at
    rw [← h2, h1.unique hv]
  have H' : Rated s' (g.setChain (v.vi - 1) c) val adj D ε u := by
    refine ⟨⟨i, fun x hx => ?_⟩, H.has.setChain _ _, fun x hx => ?_, fun x hx => ?_⟩
    · rcases mem_setChain hv hx with hx | rfl
      · exact H.sim.rules x hx
      · exact hrule
    · rw [Graph.pos_setChain]
      rcases mem_setChain hv hx with hx | rfl
      · exact H.eps x hx
      · exact H.eps nd hv.mem
    · rcases mem_setChain hv hx with hx | rfl
      · exact H.fits x hx
      · exact hfit
  refine ⟨s', e, (mem_existing i).mpr (hh.setChain _ _), ?_, ?_, fun w hw => ?_⟩
  · rw [i.varVal (hh.setChain _ _), Graph.pos_setChain, hp]
  · rw [H'.rate (hh.setChain _ _), Graph.pos_setChain, hp]
  · have hw' := (mem_existing hi).mp hw
    refine ⟨(mem_existing i).mpr (hw'.setChain _ _), hi.seen_setChain i hw', ?_⟩
    rw [H.rate hw', H'.rate (hw'.setChain _ _), Graph.pos_setChain]

end Fz
