import Verif.Proof.GradTop

/-!
# Runs that complete

The theorems of `GradTop` speak of runs that complete.  Here: when they do.
-/

set_option linter.unusedSectionVars false

namespace Fz
open Arith Spec

variable {W : Type} [Rep W ℝ] [LawfulRep W ℝ] {lf : Prop}
variable {s s' s'' : St W} {g g' g'' : Graph ℝ} {val adj val' adj' val'' adj'' : Nat → ℝ}

/-- all chain procedures apply to their records, and the free table entries `vhead, ..., vhead+n-1`
(all free entries if `lf`) hold chain procedures that do nothing -/
structure Fine (s : St W) (g : Graph ℝ) (val adj : Nat → ℝ) (n : Nat) (lf : Prop) : Prop where
  inv : Inv s g val adj
  fits : ∀ nd ∈ g.nodes, nd.Fits val
  leaf : ∀ k, s.vhead ≤ k → k < s.vhead + n ∨ lf → LeafSafe (s.varis k).chain

theorem fine_init (n : Nat) (lf : Prop) (val adj : Nat → ℝ) :
    Fine (St.init : St W) Graph.empty val adj n lf :=
  ⟨inv_init val adj, by simp [Graph.empty], fun _ _ _ => leafSafe_dummy⟩

theorem Fine.weak {n m : Nat} {lf' : Prop} (h : Fine s g val adj n lf) (hm : m ≤ n ∨ lf) (hl : lf' → lf) :
    Fine s g val adj m lf' :=
  ⟨h.inv, h.fits, fun k hk hk' => h.leaf k hk (by
    rcases hk' with hk' | hk'
    · rcases hm with hm | hm
      · left; omega
      · exact Or.inr hm
    · exact Or.inr (hl hk'))⟩

theorem Fine.begun {n : Nat} (h : Fine s g val adj n lf) : Fine s.begun g val adj n lf :=
  ⟨h.inv.begun, h.fits, h.leaf⟩

theorem Graph.fits_append {nodes : List (Node ℝ)} (h : ∀ nd ∈ nodes, nd.Fits val) (n : Nat) :
    ∀ nd ∈ nodes.take n, nd.Fits val := fun nd hn => h nd (List.mem_of_mem_take hn)

variable {x ys : List ℝ} {p : Prog} {D' ε' : Nat → (Fin x.length → ℝ) →L[ℝ] ℝ} {xv outs : List Var}

theorem RanC.fine (r : RanC s g val adj x ys p s' g' val' adj' D' ε' xv outs)
    (h : Fine s g val adj x.length p.hasConst) : ∀ nd ∈ g'.nodes, nd.Fits val' :=
  r.allFits h.fits fun k hk hk' => h.leaf k hk (by simpa using hk')

theorem RanC.gradTotal (r : RanC s g val adj x ys p s' g' val' adj' D' ε' xv outs)
    (hf : ∀ nd ∈ g'.nodes, nd.Fits val') {a : Nat → ℝ} {t : St W} (h : Inv t g' val' a)
    {k : Nat} (hk : k < outs.length) :
    ∃ m, ((lookV outs k).grad : M W Unit) t = .ok ((), t.withMem m) := by
  have hl : lookV outs k = outs[k] := by simp [lookV, List.getD_eq_getElem?_getD, hk]
  rw [hl]
  obtain ⟨m, e, _⟩ := h.grad_ok (r.os k hk).has hf
  exact ⟨m, e⟩

/-- the free entries after a run, when all free entries before were harmless -/
theorem RanC.leafs (r : RanC s g val adj x ys p s' g' val' adj' D' ε' xv outs) {n : Nat}
    (h : Fine s g val adj n True) : ∀ k, s'.vhead ≤ k → LeafSafe (s'.varis k).chain := by
  intro k hk
  rw [r.keep.slots k hk]
  exact h.leaf k (by have := r.keep.vhead; omega) (Or.inr trivial)

/-- setting up: a run of a program on new variables -/
theorem setup_total {n : Nat} (h : Fine s g val adj n True) {env : List Var}
    (he : ∀ v ∈ env, g.Has v) (hy : ys = env.map fun v => val (g.pos v)) (hok : p.Ok (x ++ ys))
    (hroom : Room s p x ys) :
    ∃ xv outs s1 s', (newVars x : M W (List Var)) s = .ok (xv, s1) ∧
      (p.run (xv ++ env) : M W (List Var)) s1 = .ok (outs, s') ∧
      (vals outs : M W (List ℝ)) s' = .ok (p.sem (x ++ ys), s') ∧
      s'.tape.head = s.tape.head + (6 * x.length + p.cost (x ++ ys)) ∧ s'.level = s.level ∧
      ∃ g' val' adj', Fine s' g' val' adj' n True ∧ (∀ v ∈ outs, g'.Has v) := by
  obtain ⟨xv, outs, s1, s2, e1, e2, g', val', adj', D', ε', r⟩ := ranC h.inv he hy hok hroom
  refine ⟨xv, outs, s1, s2, e1, e2, r.vals r.sim.inv, by simpa using r.head, r.keep.level,
    g', val', adj', ⟨r.sim.inv, r.fine (h.weak (Or.inr trivial) fun _ => trivial),
      fun k hk _ => r.leafs h k hk⟩, ?_⟩
  intro v hv
  obtain ⟨k, hk, rfl⟩ := List.getElem_of_mem hv
  exact (r.os k hk).has

theorem derive_total {n : Nat} (h : Fine s g val adj n True) {env : List Var}
    (he : ∀ v ∈ env, g.Has v) (hy : ys = env.map fun v => val (g.pos v)) (hok : p.Ok (x ++ ys))
    (hroom : Room s p x ys) {k : Nat} (hk : k < (p.sem (x ++ ys)).length) :
    ∃ o df s', derive p env x k s = .ok ((o, df), s') ∧
      s'.tape.head = s.tape.head + (6 * x.length + p.cost (x ++ ys)) ∧ s'.level = s.level ∧
      ∃ g' val' adj', Fine s' g' val' adj' n True := by
  obtain ⟨xv, outs, s1, s2, e1, e2, g', val', adj', D', ε', r⟩ := ranC h.inv he hy hok hroom
  have hk' : k < outs.length := by rw [r.len]; exact hk
  have hf := r.fine (h.weak (Or.inr trivial) fun _ => trivial)
  obtain ⟨m, e3⟩ := r.gradTotal hf r.sim.inv hk'
  have hl : lookV outs k = outs[k] := by simp [lookV, List.getD_eq_getElem?_getD, hk']
  have e3' := e3
  rw [hl] at e3'
  obtain ⟨-, m', e4, i⟩ := grad_run r.sim.inv (fun nd hn => Or.inr (hf nd hn)) (r.os k hk').has e3'
  obtain ⟨df, ea⟩ : ∃ df, (adjs xv : M W (List ℝ)) (s2.withMem m) = .ok (df, s2.withMem m) :=
    ⟨_, i.varAdjs (vs := xv) fun v hv => by
      obtain ⟨k, hk, rfl⟩ := List.getElem_of_mem hv
      exact (r.xs k hk).1⟩
  refine ⟨p.sem (x ++ ys), df, s2.withMem m, ?_, by simpa [St.withMem] using r.head, r.keep.level, g', val', _, i, hf,
    fun k hk _ => r.leafs h k hk⟩
  unfold derive
  rw [bind_ok e1, bind_ok e2, bind_ok (r.vals r.sim.inv), bind_ok e3, bind_ok ea]
  rfl

/-- the tape does not end up exactly full, counting `words` more words -/
def NotFull (s : St W) (words : Nat) : Prop :=
  1 < s.tape.head + words ∧ ∀ j, s.tape.head + words ≠ 12288 * 2 ^ j + 1

theorem RanC.endNested (r : RanC s.begun g val adj x ys p s' g' val' adj' D' ε' xv outs)
    (h : Fine s g val adj x.length p.hasConst) (hl : s.level < maxNestedStack)
    (hn : NotFull s (6 * x.length + p.cost (x ++ ys))) {a : Nat → ℝ} {m : Nat → W}
    (hi : Inv (s'.withMem m) g' val' a) :
    ∃ t, (Fz.endNested : M W Unit) (s'.withMem m) = .ok ((), t) ∧ Fine t g val' a x.length False ∧
      t.level = s.level ∧ t.tape.head = s.tape.head ∧ t.vhead = s.vhead ∧
      ∀ k ≤ s.level, t.nestTape k = s.nestTape k ∧ t.nestVari k = s.nestVari k := by
  have hlev := r.keep.level
  have hnv := r.keep.nestVari
  have hnt := r.keep.nestTape
  have hh := r.head
  have hvh := h.inv.vhead
  simp only [St.begun, List.length_map, coords_length] at hlev hnv hnt hh
  have hfull : s'.tape.head ≤ s'.tape.size :=
    r.sim.inv.ok.not_full (by rw [hh]; exact hn.1) (fun k => by rw [hh]; exact hn.2 k)
  obtain ⟨t, e, i, a1, a2, a3, a4, a5, a6, a7⟩ := endNested_ok (lo := s.tape.head) hi r.pre h.inv.wf
    h.inv.ok.head_pos (by simp [St.withMem]; omega) hfull (by simp [St.withMem]; omega)
    (by simp only [St.withMem, maxNestedStack] at *; omega)
    (by simp only [St.withMem]; rw [hnt, hlev]; simp) (by simp only [St.withMem]; rw [hnv, hlev]; simp [hvh])
  refine ⟨t, e, ⟨i, ?_, ?_⟩, ?_, a2, by rw [a4, hvh], fun k hk => ?_⟩
  · intro nd hnd
    have hlt := h.inv.node_lt hnd
    refine Fits.congr (h.fits nd hnd) (r.val _ hlt) fun p hp => r.val _ ?_
    have := (h.inv.wf.args nd hnd p hp).1
    show p < s.tape.head
    omega
  · intro k hk hk'
    rcases hk' with hk' | hk'
    · rw [a4, ← hvh] at hk hk'
      have hx : xv.length = x.length := by rw [r.xlen]; simp
      obtain ⟨j, rfl⟩ : ∃ j, k = s.vhead + j := ⟨k - s.vhead, by omega⟩
      obtain ⟨nd, hat, k', b1, b2, b3⟩ := r.ileaf j (by omega)
      have hxj := (r.xs j (by omega)).2.2.1
      rw [hxj] at hat
      have ht := r.sim.inv.tab _ nd hat.2
      have h1 : ({ vi := s.begun.vhead + j } : Var).vi - 1 + 1 = s.vhead + j := by
        show s.vhead + j - 1 + 1 = _
        omega
      rw [h1] at ht
      rw [a6]
      show LeafSafe (s'.varis (s.vhead + j)).chain
      rw [ht]
      show LeafSafe nd.chain
      rw [b3]
      exact h.leaf k' b1 (Or.inl (by simpa [St.begun] using b2))
    · exact hk'.elim
  · rw [a1]
    show s'.level - 1 = _
    omega
  · have hne : k ≠ s'.level := by omega
    have hne' : k ≠ s.level + 1 := by omega
    obtain ⟨b1, b2⟩ := a7 k hne
    rw [b1, b2]
    simp only [St.withMem]
    rw [hnt, hnv]
    simp [hne']

theorem gradient_total (h : Fine s g val adj x.length p.hasConst) (hl : s.level < maxNestedStack)
    {env : List Var} (he : ∀ v ∈ env, g.Has v) (hy : ys = env.map fun v => val (g.pos v))
    (hok : p.Ok (x ++ ys)) (hroom : Room s p x ys) (hk : p.sem (x ++ ys) ≠ [])
    (hn : NotFull s (6 * x.length + p.cost (x ++ ys))) :
    ∃ y df s', gradient (p.scalarFn env) x s = .ok ((y, df), s') ∧
      s'.level = s.level ∧ s'.tape.head = s.tape.head ∧ s'.vhead = s.vhead ∧
      ∃ val' a, Fine s' g val' a x.length False ∧ ∀ q < s.tape.head, val' q = val q := by
  obtain ⟨xv, outs, s1, s2, e1, e2, g', val', adj', D', ε', r⟩ := ranC h.inv.begun he hy hok hroom
  have ho : 0 < outs.length := by rw [r.len]; exact List.length_pos_of_ne_nil hk
  have e2' : (p.scalarFn env xv : M W Var) s1 = .ok (lookV outs 0, s2) := by
    unfold Prog.scalarFn
    rw [bind_ok e2]; rfl
  have hl0 : lookV outs 0 = outs[0] := by simp [lookV, List.getD_eq_getElem?_getD, ho]
  have hv : ((lookV outs 0).val : M W ℝ) s2 = .ok (val' (g'.pos outs[0]), s2) := by
    rw [hl0]; exact r.sim.inv.varVal (r.os 0 ho).has
  have hf := r.fine h.begun
  obtain ⟨m, e3⟩ := r.gradTotal hf r.sim.inv ho
  have e3' := e3
  rw [hl0] at e3'
  obtain ⟨-, m', e4, i⟩ := grad_run r.sim.inv (fun nd hn => Or.inr (hf nd hn)) (r.os 0 ho).has e3'
  obtain ⟨df, ea⟩ : ∃ df, (adjs xv : M W (List ℝ)) (s2.withMem m) = .ok (df, s2.withMem m) :=
    ⟨_, i.varAdjs (vs := xv) fun v hv => by
      obtain ⟨k, hk, rfl⟩ := List.getElem_of_mem hv
      exact (r.xs k hk).1⟩
  obtain ⟨t, e5, hfine, a1, a2, a3, -⟩ := r.endNested h hl hn i
  refine ⟨val' (g'.pos outs[0]), df, t, ?_, a1, a2, a3, val', _, hfine, r.val⟩
  unfold gradient
  rw [bind_ok (begin_ok hl), bind_ok e1, bind_ok e2', bind_ok hv, bind_ok e3, bind_ok ea, bind_ok e5]
  rfl

theorem RanC.jacTotal (r : RanC s g val adj x ys p s' g' val' adj' D' ε' xv outs)
    (hf : ∀ nd ∈ g'.nodes, nd.Fits val') : ∀ (l : List Nat) {t : St W} {a : Nat → ℝ},
    Inv t g' val' a → 0 < t.level → t.level ≤ maxNestedStack → t.nestVari t.level = g.nodes.length + 1 →
    (∀ k ∈ l, k < outs.length) →
    ∃ rows m a', (jacLoop xv (l.map (lookV outs)) : M W (List (List ℝ))) t = .ok (rows, t.withMem m) ∧
      Inv (t.withMem m) g' val' a' := by
  intro l
  induction l with
  | nil =>
    intro t a h _ _ _ _
    exact ⟨[], t.tape.mem, a, rfl, h⟩
  | cons k l ih =>
    intro t a h hl0 hl hn hk
    obtain ⟨m, a1, e1, i1, hz⟩ := zeroNested_ok h hl0 hl hn r.pre.nodes.length_le
    have hk0 := hk k (by simp)
    obtain ⟨m2, e2⟩ := r.gradTotal hf i1 hk0
    have e2' := e2
    have hl' : lookV outs k = outs[k] := by simp [lookV, List.getD_eq_getElem?_getD, hk0]
    rw [hl'] at e2'
    obtain ⟨-, m', e4, i⟩ := grad_run i1 (fun nd hn => Or.inr (hf nd hn)) (r.os k hk0).has e2'
    obtain ⟨df, ea⟩ : ∃ df, (adjs xv : M W (List ℝ)) ((t.withMem m).withMem m2) =
        .ok (df, (t.withMem m).withMem m2) :=
      ⟨_, i.varAdjs (vs := xv) fun v hv => by
        obtain ⟨k, hk, rfl⟩ := List.getElem_of_mem hv
        exact (r.xs k hk).1⟩
    obtain ⟨rows, m3, a3, e3, i3⟩ := ih (t := (t.withMem m).withMem m2) i hl0 hl hn
      (fun j hj => hk j (by simp [hj]))
    refine ⟨df :: rows, m3, a3, ?_, i3⟩
    rw [List.map_cons]
    unfold jacLoop
    rw [bind_ok e1, bind_ok e2, bind_ok ea, bind_ok e3]
    rfl

theorem jacobian_total (h : Fine s g val adj x.length p.hasConst) (hl : s.level < maxNestedStack)
    {env : List Var} (he : ∀ v ∈ env, g.Has v) (hy : ys = env.map fun v => val (g.pos v))
    (hok : p.Ok (x ++ ys)) (hroom : Room s p x ys)
    (hn : NotFull s (6 * x.length + p.cost (x ++ ys))) :
    ∃ o rows s', jacobian (p.vectorFn env) (p.sem (x ++ ys)).length x s = .ok ((o, rows), s') ∧
      s'.level = s.level ∧ s'.tape.head = s.tape.head ∧ s'.vhead = s.vhead ∧
      ∃ val' a, Fine s' g val' a x.length False ∧ ∀ q < s.tape.head, val' q = val q := by
  obtain ⟨xv, outs, s1, s2, e1, e2, g', val', adj', D', ε', r⟩ := ranC h.inv.begun he hy hok hroom
  have e2' : (p.vectorFn env xv (p.sem (x ++ ys)).length : M W (List Var)) s1 = .ok (outs, s2) := e2
  have e3 : (confN (p.sem (x ++ ys)).length outs : M W (List Var)) s2 = .ok (outs, s2) := by
    unfold confN; rw [if_pos r.len]; rfl
  have hlist : outs = (List.range outs.length).map (lookV outs) := by
    apply List.ext_getElem
    · simp
    · intro i h1 h2
      simp [lookV, List.getD_eq_getElem?_getD, h1]
  have hlev := r.keep.level
  have hnv := r.keep.nestVari
  have hvh := h.inv.vhead
  simp only [St.begun] at hlev hnv
  obtain ⟨rows, m, a', e4, i⟩ := r.jacTotal (r.fine h.begun) (List.range outs.length) r.sim.inv (by omega)
    (by simp only [maxNestedStack] at *; omega)
    (by rw [hnv, hlev]; simp [hvh]) (fun k hk => List.mem_range.mp hk)
  rw [← hlist] at e4
  obtain ⟨t, e5, hfine, a1, a2, a3, -⟩ := r.endNested h hl hn i
  refine ⟨p.sem (x ++ ys), rows, t, ?_, a1, a2, a3, val', _, hfine, r.val⟩
  unfold jacobian
  rw [bind_ok (begin_ok hl), bind_ok e1, bind_ok e2', bind_ok e3, bind_ok (r.vals r.sim.inv), bind_ok e4,
    bind_ok e5]
  rfl

end Fz
