import Verif.Proof.Outer
import Verif.Spec.Seeds

/-!
# Sweeps from arbitrary adjoints
-/

set_option linter.unusedSectionVars false

namespace Fz
open Arith Spec

/-! ## what setting and clearing adjoints touches, word by word -/

section frame
variable {W R : Type} [Arith R] [Rep W R] {s s' : St W}

/-- word `q` belongs to the adjoint of an existing variable -/
def AdjWord (s : St W) (q : Nat) : Prop :=
  ∃ k, 1 ≤ k ∧ k < s.vhead ∧ (q = (s.varis k).i + 2 ∨ q = (s.varis k).i + 3)

theorem wrSec_frame : ∀ (ws : List W) {t t' : Tape W} {i : Nat}, t.wrSec i ws = .ok t' →
    ∃ m, t' = { t with mem := m } ∧ ∀ q, (q < i ∨ i + ws.length ≤ q) → m q = t.mem q := by
  intro ws
  induction ws with
  | nil =>
    intro t t' i h
    cases h
    exact ⟨t.mem, rfl, fun _ _ => rfl⟩
  | cons w ws ih =>
    intro t t' i h
    unfold Tape.wrSec Tape.wr at h
    split at h
    · obtain ⟨m, rfl, hm⟩ := ih h
      refine ⟨m, rfl, fun q hq => ?_⟩
      rw [List.length_cons] at hq
      rw [hm q (by omega)]
      exact if_neg (by omega)
    · cases h

theorem setAdj_frame {v : Vari} {d : R} (h : (v.setAdj d : M W Unit) s = .ok ((), s')) :
    ∃ m, s' = s.withMem m ∧ ∀ q, q ≠ v.i + 2 → q ≠ v.i + 3 → m q = s.tape.mem q := by
  unfold Vari.setAdj modTape at h
  split at h
  · rename_i t e
    cases h
    obtain ⟨m, rfl, hm⟩ := wrSec_frame _ e
    refine ⟨m, rfl, fun q h1 h2 => hm q ?_⟩
    simp only [List.length_cons, List.length_nil]
    omega
  · cases h

theorem zeroAdjLoop_frame (lo : Nat) : ∀ (n : Nat) {s s' : St W}, 1 ≤ lo → lo + n ≤ s.vhead →
    (zeroAdjLoop lo n : M W Unit) s = .ok ((), s') →
    ∃ m, s' = s.withMem m ∧ ∀ q, ¬ AdjWord s q → m q = s.tape.mem q := by
  intro n
  induction n with
  | zero =>
    intro s s' _ _ h
    cases h
    exact ⟨s.tape.mem, rfl, fun _ _ => rfl⟩
  | succ n ih =>
    intro s s' h1 h2 h
    unfold zeroAdjLoop at h
    cases hg : (getVari (lo + n) : M W Vari) s with
    | error e => rw [bind_err hg] at h; cases h
    | ok p =>
      obtain ⟨v, s1⟩ := p
      rw [bind_ok hg] at h
      unfold getVari at hg
      split at hg
      · cases hg
        cases hs : ((s.varis (lo + n)).setAdj (zero : R) : M W Unit) s with
        | error e => rw [bind_err hs] at h; cases h
        | ok p =>
          obtain ⟨u, s2⟩ := p
          rw [bind_ok hs] at h
          obtain ⟨m, rfl, hm⟩ := setAdj_frame hs
          obtain ⟨m', rfl, hm'⟩ := ih h1 (by show lo + n ≤ s.vhead; omega) h
          refine ⟨m', rfl, fun q hq => ?_⟩
          rw [hm' q hq]
          exact hm q (fun e => hq ⟨lo + n, by omega, by omega, Or.inl e⟩)
            fun e => hq ⟨lo + n, by omega, by omega, Or.inr e⟩
      · cases hg

theorem setZeroAllAdj_frame (h1 : 1 ≤ s.vhead) (h : (setZeroAllAdj : M W Unit) s = .ok ((), s')) :
    ∃ m, s' = s.withMem m ∧ ∀ q, ¬ AdjWord s q → m q = s.tape.mem q := by
  unfold setZeroAllAdj at h
  rw [bind_ok (get_ok _)] at h
  exact zeroAdjLoop_frame 1 _ (by omega) (by omega) h

end frame

variable {W : Type} [Rep W ℝ] [LawfulRep W ℝ]
variable {s s' s'' t t' : St W} {g g' g'' : Graph ℝ} {val adj val' adj' val'' adj'' : Nat → ℝ}

theorem setIndexedAdj_ok (h : Inv s g val adj) {v : Var} (hv : g.Has v) (d : ℝ) :
    ∃ m, (setIndexedAdj v.vi d : M W Unit) s = .ok ((), s.withMem m) ∧
      Inv (s.withMem m) g val (upd adj (g.pos v) d) := by
  obtain ⟨nd, h1, h2⟩ := hv.at
  obtain ⟨m, e, i⟩ := h.setAdj h1.mem d
  rw [← h2]
  refine ⟨m, ?_, i⟩
  unfold setIndexedAdj
  rw [bind_ok (h.getV h1)]
  exact modTape_ok (f := fun t => t.setAdjAt nd.pos d) (s := s) e

theorem act_ok (h : Inv s g val adj) (hok : ∀ nd ∈ g.nodes, nd.ChainOK ∨ nd.Fits val) {vs : List Var}
    (hv : ∀ v ∈ vs, g.Has v) {a : Seed} (e : (a.act vs : M W Unit) s = .ok ((), s')) :
    ∃ m adj', s' = s.withMem m ∧ Inv s' g val adj' := by
  cases a with
  | set j w =>
    unfold Seed.act at e
    simp only at e
    split at e
    · rename_i hj
      obtain ⟨m, e', i⟩ := setIndexedAdj_ok h (hv vs[j] (List.getElem_mem hj)) w
      rw [e'] at e
      cases e
      exact ⟨m, _, rfl, i⟩
    · cases e
      exact ⟨s.tape.mem, adj, rfl, h⟩
  | sweep j =>
    unfold Seed.act at e
    simp only at e
    split at e
    · rename_i hj
      obtain ⟨_, m, rfl, i⟩ := grad_run h hok (hv vs[j] (List.getElem_mem hj)) e
      exact ⟨m, _, rfl, i⟩
    · cases e
      exact ⟨s.tape.mem, adj, rfl, h⟩
  | clear =>
    obtain ⟨m, a, e', i, -⟩ := h.setZeroAllAdj_ok
    replace e : (setZeroAllAdj : M W Unit) s = .ok ((), s') := e
    rw [e'] at e
    cases e
    exact ⟨m, a, rfl, i⟩

theorem acts_ok {vs : List Var} (hv : ∀ v ∈ vs, g.Has v) (hok : ∀ nd ∈ g.nodes, nd.ChainOK ∨ nd.Fits val) :
    ∀ (l : List Seed) {s s' : St W} {adj : Nat → ℝ}, Inv s g val adj →
    (Seed.acts vs l : M W Unit) s = .ok ((), s') → ∃ m adj', s' = s.withMem m ∧ Inv s' g val adj' := by
  intro l
  induction l with
  | nil => intro s s' adj h e; cases e; exact ⟨s.tape.mem, adj, rfl, h⟩
  | cons a l ih =>
    intro s s' adj h e
    unfold Seed.acts at e
    cases ha : (a.act vs : M W Unit) s with
    | error er => rw [bind_err ha] at e; cases e
    | ok p =>
      obtain ⟨u, s1⟩ := p
      rw [bind_ok ha] at e
      obtain ⟨m, a1, rfl, i⟩ := act_ok h hok hv ha
      obtain ⟨m', a2, rfl, i'⟩ := ih i e
      exact ⟨m', a2, rfl, i'⟩

/-- actions complete when all records fit -/
theorem acts_total {vs : List Var} (hv : ∀ v ∈ vs, g.Has v) (hf : ∀ nd ∈ g.nodes, nd.Fits val) :
    ∀ (l : List Seed) {s : St W} {adj : Nat → ℝ}, Inv s g val adj →
    ∃ m adj', (Seed.acts vs l : M W Unit) s = .ok ((), s.withMem m) ∧ Inv (s.withMem m) g val adj' := by
  intro l
  induction l with
  | nil => intro s adj h; exact ⟨s.tape.mem, adj, rfl, h⟩
  | cons a l ih =>
    intro s adj h
    have : ∃ s1, (a.act vs : M W Unit) s = .ok ((), s1) := by
      cases a with
      | set j w =>
        unfold Seed.act
        simp only
        split
        · rename_i hj
          obtain ⟨m, e', i⟩ := setIndexedAdj_ok h (hv vs[j] (List.getElem_mem hj)) w
          exact ⟨_, e'⟩
        · exact ⟨s, rfl⟩
      | sweep j =>
        unfold Seed.act
        simp only
        split
        · rename_i hj
          obtain ⟨m, e', i⟩ := h.grad_ok (hv vs[j] (List.getElem_mem hj)) hf
          exact ⟨_, e'⟩
        · exact ⟨s, rfl⟩
      | clear =>
        obtain ⟨m, a, e', i, -⟩ := h.setZeroAllAdj_ok
        exact ⟨_, e'⟩
    obtain ⟨s1, e1⟩ := this
    obtain ⟨m, a1, rfl, i⟩ := act_ok h (fun nd hn => Or.inr (hf nd hn)) hv e1
    obtain ⟨m', a2, e2, i'⟩ := ih i
    refine ⟨m', a2, ?_, i'⟩
    unfold Seed.acts
    rw [bind_ok e1]
    exact e2

variable {x ys : List ℝ} {p : Prog} {D' ε' : Nat → (Fin x.length → ℝ) →L[ℝ] ℝ} {xv outs : List Var}

theorem Graph.Has.pos_inj {hd : Nat} (wf : g.WF hd) {v w : Var} (hv : g.Has v) (hw : g.Has w)
    (h : g.pos v = g.pos w) : v = w := by
  obtain ⟨a, a1, a2⟩ := hv.at
  obtain ⟨b, b1, b2⟩ := hw.at
  have hab : a.pos = b.pos := by rw [a2, b2, h]
  have hn := wf.nodup
  have i1 := a1.2
  have i2 := b1.2
  have h1 := (List.getElem?_eq_some_iff.mp i1)
  have h2 := (List.getElem?_eq_some_iff.mp i2)
  obtain ⟨l1, e1⟩ := h1
  obtain ⟨l2, e2⟩ := h2
  have := hn.getElem_inj_iff (i := v.vi - 1) (j := w.vi - 1) (hi := by simpa using l1) (hj := by simpa using l2)
  simp only [List.getElem_map, e1, e2, hab, true_iff] at this
  have p1 := hv.1
  have p2 := hw.1
  cases v; cases w
  simp only at *
  congr 1
  omega

/-- a sweep started from any adjoints -/
theorem RanC.weighted (r : RanC s g val adj x ys p s' g' val' adj' D' ε' xv outs) {a : Nat → ℝ} {t t' : St W}
    (h : Inv t g' val' a) (hok : ∀ nd ∈ g.nodes, nd.ChainOK ∨ nd.Fits val) (hnd : outs.Nodup)
    (hz : ∀ v : Var, g'.Has v → s.vhead ≤ v.vi → v ∉ outs → a (g'.pos v) = 0) {k : Nat} (hk : k < outs.length)
    (e : ((lookV outs k).grad : M W Unit) t = .ok ((), t')) :
    ∃ m df, t' = t.withMem m ∧
      Inv t' g' val' (Fz.sweep val' g'.nodes (Fz.upd a (g'.pos outs[k]) 1)) ∧
      (adjs xv : M W (List ℝ)) t' = .ok (df, t') ∧
      IsGradAt (p.weighted ys k (outs.map fun v => a (g'.pos v))) x df := by
  have hl : lookV outs k = outs[k] := by simp [lookV, List.getD_eq_getElem?_getD, hk]
  have hx : xv.length = x.length := by rw [r.xlen]; simp
  rw [hl] at e
  obtain ⟨hf, m, rfl, i⟩ := grad_run h (RanC.ok r hok) (r.os k hk).has e
  refine ⟨m, _, rfl, i, i.varAdjs fun v hv => ?_, ?_⟩
  · obtain ⟨k, hk, rfl⟩ := List.getElem_of_mem hv
    exact (r.xs k hk).1
  have ho : ∀ v ∈ outs, g'.Has v := fun v hv => by
    obtain ⟨k, hk, rfl⟩ := List.getElem_of_mem hv
    exact (r.os k hk).has
  refine ⟨by simp [hx], ?_⟩
  have h1 := r.sweep hf (Fz.upd a (g'.pos outs[k]) 1)
  rw [pair_zero (g.nodes.map Node.pos) _ (fun _ => 0) (fun q _ => smul_zero _), zero_add,
    comb_coords _ _ (by simp [hx])] at h1
  change HasFDerivAt _ (∑ i : Fin x.length, ((xv.map fun v => Fz.sweep val' g'.nodes
    (Fz.upd a (g'.pos outs[k]) 1) (g'.pos v)).getD i 0) • _) _
  rw [← h1]
  have hQ : (outs.map g'.pos).Nodup := by
    refine List.Nodup.map_on ?_ hnd
    intro v hv w hw he
    exact Graph.Has.pos_inj r.sim.inv.wf (ho v hv) (ho w hw) he
  rw [pair_sub _ (outs.map g'.pos) r.sim.inv.wf.nodup hQ]
  · unfold pair Prog.weighted
    simp only [List.length_map]
    have e1 : (outs.map g'.pos).map (fun q => Fz.upd a (g'.pos outs[k]) 1 q • D' q) =
        (List.range outs.length).map fun j => (if j = k then (1 : ℝ) else
          (outs.map fun v => a (g'.pos v)).getD j 0) • D' (g'.pos (lookV outs j)) := by
      apply List.ext_getElem
      · simp
      · intro n h1 h2
        have hn : n < outs.length := by simpa using h1
        have hln : lookV outs n = outs[n] := by simp [lookV, List.getD_eq_getElem?_getD, hn]
        simp only [List.getElem_map, List.getElem_range, hln]
        by_cases hnk : n = k
        · subst hnk; rw [upd_self, if_pos rfl]
        · rw [if_neg hnk, upd_ne]
          · simp [List.getD_eq_getElem?_getD, hn]
          · intro he
            exact hnk ((hnd.getElem_inj_iff).mp
              (Graph.Has.pos_inj r.sim.inv.wf (r.os n hn).has (r.os k hk).has he))
    rw [e1]
    have key : ∀ l : List Nat, (∀ j ∈ l, j < outs.length) →
        HasFDerivAt (fun y : Fin x.length → ℝ => (l.map fun j => (if j = k then (1 : ℝ) else
          (outs.map fun v => a (g'.pos v)).getD j 0) * (p.sem (List.ofFn y ++ ys)).getD j 0).sum)
          (l.map fun j => (if j = k then (1 : ℝ) else
          (outs.map fun v => a (g'.pos v)).getD j 0) • D' (g'.pos (lookV outs j))).sum (fun i => x[i]) := by
      intro l
      induction l with
      | nil => intro _; simpa using hasFDerivAt_const (0 : ℝ) _
      | cons j l ih =>
        intro hl
        simp only [List.map_cons, List.sum_cons]
        have hj := hl j (by simp)
        have hlj : lookV outs j = outs[j] := by simp [lookV, List.getD_eq_getElem?_getD, hj]
        rw [hlj]
        exact ((r.os j hj).deriv.const_mul _).add (ih fun i hi => hl i (by simp [hi]))
    exact key _ fun j hj => List.mem_range.mp hj
  · intro q hq
    obtain ⟨v, hv, rfl⟩ := List.mem_map.mp hq
    obtain ⟨nd, h1, h2⟩ := (ho v hv).at
    rw [← h2]
    exact List.mem_map_of_mem h1.mem
  · intro q hq hn
    obtain ⟨nd, hnd, rfl⟩ := List.mem_map.mp hq
    have hne : nd.pos ≠ g'.pos outs[k] := fun he => hn (he ▸ List.mem_map_of_mem (List.getElem_mem hk))
    rw [upd_ne _ _ hne]
    rw [r.split] at hnd
    rcases List.mem_append.mp hnd with hnd | hnd
    · have := r.inv0.node_lt hnd
      rw [r.dd _ this, smul_zero]
    · obtain ⟨j, hj, rfl⟩ := List.getElem_of_mem hnd
      have hvh := r.inv0.vhead
      rw [List.length_drop] at hj
      have hh : g'.Has ⟨g.nodes.length + j + 1⟩ := ⟨by simp, by simp; omega⟩
      have hp : g'.pos ⟨g.nodes.length + j + 1⟩ = ((g'.nodes.drop g.nodes.length)[j]).pos := by
        rw [List.getElem_drop]
        refine Graph.At.pos_eq ⟨by simp, ?_⟩
        simp only [Nat.add_sub_cancel]
        exact List.getElem?_eq_getElem _
      rw [← hp, hz _ hh (by simp only; omega), zero_smul]
      intro hm
      apply hn
      rw [← hp]
      exact List.mem_map_of_mem hm

end Fz
