import Verif.Proof.Nest
import Verif.Props.Storage

/-!
# C11, C12, C33, C36: nested regions

A region is `begin_nested`, the calls of its content, `end_nested`.  The content is any list of API calls
that closes every region it opens and nothing else (`Balanced`, `Spec/Nest.lean`).
-/

set_option linter.unusedSectionVars false

namespace Props
open Fz Spec

section generic
variable {W R : Type} [Arith R] [Rep W R] [LawfulRep W R]
variable {h : List (Call R)} {c c' : Client W} {l : List (Call R)}

/-! ## C11 -/

theorem closed_seen {v : Var} {kv ka ks : Prop} {c0 : Client W} {g0 g : Graph R} {val0 adj0 val adj : Nat → R}
    (G0 : Good c0 g0 val0 adj0) (hv : g0.Has v) (cl : Closed v kv ka ks c0 g0 val0 adj0 c g val adj) :
    ∃ w w' : View R, seen c0.st v = .ok w ∧ seen c.st v = .ok w' ∧ w'.ops = w.ops ∧ w'.data = w.data ∧
      w.val = val0 (g0.pos v) ∧ w'.val = val (g0.pos v) ∧ w.adj = adj0 (g0.pos v) ∧ w'.adj = adj (g0.pos v) := by
  obtain ⟨nd, h1, h2⟩ := hv.at
  obtain ⟨ch, hch⟩ := erase_nodes_get (g := g0) (g' := g) (by rw [cl.pre]) h1.2
  refine ⟨_, _, G0.inv.seen h1, cl.good.inv.seen ⟨h1.1, hch⟩, rfl, rfl, ?_, ?_, ?_, ?_⟩ <;>
    simp [Node.view, h2]

/-- **C11**: whatever happens inside, after the region the tape position, the number of variables, the
nesting level, the positions saved for the outer regions and the client's variables are as at
`begin_nested`; all storage from the tape position on is zero again; the operands and data of the outer
variables are the same. -/
theorem C11_restores (hr : Reach h c) (hs : ∀ k ∈ l, k.Sane) (hb : Balanced l)
    (hx : run (Call.begin :: l ++ [Call.done]) c = .ok c') :
    c'.st.tape.head = c.st.tape.head ∧ existing c'.st = existing c.st ∧ c'.env = c.env ∧
    c'.st.level = c.st.level ∧
    (∀ k ≤ c.st.level, c'.st.nestTape k = c.st.nestTape k ∧ c'.st.nestVari k = c.st.nestVari k) ∧
    (∀ p, c.st.tape.head ≤ p → c'.st.tape.mem p = Rep.ofNat 0) ∧
    ∀ v ∈ existing c.st, ∃ w w' : View R, seen c.st v = .ok w ∧ seen c'.st v = .ok w' ∧
      w'.ops = w.ops ∧ w'.data = w.data := by
  obtain ⟨g, val, adj, G⟩ := hr.good
  obtain ⟨g', val', adj', cl⟩ := closed (v := ⟨0⟩) (kv := False) (ka := False) (ks := False) G (by simp) hb hs
    (fun k _ => ⟨False.elim, False.elim, False.elim⟩) hx
  refine ⟨cl.head, ?_, cl.env, cl.level, cl.nest, ?_, ?_⟩
  · unfold existing
    rw [cl.vhead]
  · intro p hp
    exact cl.good.inv.ok.zero p (Or.inr (by rw [cl.head]; exact hp))
  · intro v hv
    have hv' := (mem_existing G.inv).mp hv
    obtain ⟨g', val', adj', cl⟩ := closed (v := v) (kv := False) (ka := False) (ks := False) G (by simp) hb hs
      (fun k _ => ⟨False.elim, False.elim, False.elim⟩) hx
    obtain ⟨w, w', a1, a2, a3, a4, -⟩ := closed_seen G hv' cl
    exact ⟨w, w', a1, a2, a3, a4⟩

/-- **C11**: an outer variable that the region does not name keeps everything that can be read about it,
its adjoint too, and its propagation rule, provided the region runs `grad_nested` and
`set_zero_nested_adj` only, not their variants over all variables. -/
theorem C11_untouched (hr : Reach h c) (hs : ∀ k ∈ l, k.Sane) (hb : Balanced l)
    (hx : run (Call.begin :: l ++ [Call.done]) c = .ok c') (hg : ∀ k ∈ l, k.global = false)
    {v : Var} (hv : v ∈ existing c.st)
    (hn : ∀ k ∈ l, ∀ i ∈ k.args, i < c.env.length → nth c.env i ≠ v) :
    seen (R := R) c'.st v = seen c.st v ∧ c'.st.varis v.vi = c.st.varis v.vi := by
  obtain ⟨g, val, adj, G⟩ := hr.good
  have hv' := (mem_existing G.inv).mp hv
  obtain ⟨g', val', adj', cl⟩ := closed (kv := False) (ka := True) (ks := False) G (fun _ => hv') hb hs
    (fun k hk => ⟨False.elim, fun _ => ⟨hg k hk, hn k hk⟩, False.elim⟩) hx
  obtain ⟨w, w', a1, a2, a3, a4, a5, a6, a7, a8⟩ := closed_seen G hv' cl
  constructor
  · rw [a1, a2]
    rw [cl.valA trivial, ← a5] at a6
    rw [cl.adjA trivial, ← a7] at a8
    cases w; cases w'
    simp_all
  · obtain ⟨nd, h1, -⟩ := hv'.at
    have e := cl.chain trivial
    rw [h1.2] at e
    have t1 := G.inv.tab _ _ h1.2
    have t2 := cl.good.inv.tab _ _ e
    rw [Nat.sub_add_cancel h1.1] at t1 t2
    rw [t1, t2]

/-- **C11**: a region in which nothing is assigned keeps the values of all outer variables, whatever it
computes from them. -/
theorem C11_values (hr : Reach h c) (hs : ∀ k ∈ l, k.Sane) (hb : Balanced l)
    (hx : run (Call.begin :: l ++ [Call.done]) c = .ok c') (ha : ∀ k ∈ l, k.assigns = false)
    {v : Var} (hv : v ∈ existing c.st) :
    ∃ w w' : View R, seen c.st v = .ok w ∧ seen c'.st v = .ok w' ∧ w'.val = w.val := by
  obtain ⟨g, val, adj, G⟩ := hr.good
  have hv' := (mem_existing G.inv).mp hv
  obtain ⟨g', val', adj', cl⟩ := closed (kv := True) (ka := False) (ks := False) G (fun _ => hv') hb hs
    (fun k hk => ⟨fun _ => ha k hk, False.elim, False.elim⟩) hx
  obtain ⟨w, w', a1, a2, a3, a4, a5, a6, a7, a8⟩ := closed_seen G hv' cl
  exact ⟨w, w', a1, a2, by rw [a6, a5, cl.valV trivial]⟩

/-- **C11**: a region without derivative sweeps keeps the adjoints of all outer variables. -/
theorem C11_adjoints (hr : Reach h c) (hs : ∀ k ∈ l, k.Sane) (hb : Balanced l)
    (hx : run (Call.begin :: l ++ [Call.done]) c = .ok c') (ha : ∀ k ∈ l, k.sweeps = false)
    {v : Var} (hv : v ∈ existing c.st) :
    ∃ w w' : View R, seen c.st v = .ok w ∧ seen c'.st v = .ok w' ∧ w'.adj = w.adj := by
  obtain ⟨g, val, adj, G⟩ := hr.good
  have hv' := (mem_existing G.inv).mp hv
  obtain ⟨g', val', adj', cl⟩ := closed (kv := False) (ka := False) (ks := True) G (fun _ => hv') hb hs
    (fun k hk => ⟨False.elim, False.elim, fun _ => ha k hk⟩) hx
  obtain ⟨w, w', a1, a2, a3, a4, a5, a6, a7, a8⟩ := closed_seen G hv' cl
  exact ⟨w, w', a1, a2, by rw [a8, a7, cl.adjS trivial]⟩

/-- **C11**: `end_nested` without open region does nothing -/
theorem C11_noop (hr : Reach h c) (hl : c.st.level = 0) : (Call.done : Call R).exec c = .ok c := by
  obtain ⟨g, val, adj, G⟩ := hr.good
  have : (endNested : M W Unit) c.st = .ok ((), c.st) := by
    unfold endNested
    rw [bind_ok (get_ok _), if_neg (by omega)]
    rfl
  have hm : c.marks = [] := by
    have := G.lvl
    exact List.length_eq_zero_iff.mp (by omega)
  unfold Call.exec
  rw [if_pos (by simp [Call.args])]
  unfold Call.step
  simp only [this, hm]
  cases c
  simp_all

/-! ## C12 -/

theorem exec_level {g : Graph R} {val adj : Nat → R} (G : Good c g val adj) {k : Call R} (hs : k.Sane)
    (hrun : k.exec c = .ok c') : c'.st.level = depth c.st.level [k] := by
  have hrun0 := hrun
  unfold Call.exec at hrun
  split at hrun
  case isFalse => cases hrun
  rename_i ha
  cases k with
  | make m =>
    obtain ⟨ha', vs, s', hm, rfl⟩ := exec_make' hrun0
    obtain ⟨g', val', adj', ev, _⟩ := G.make ha' hs hm
    exact ev.keep.level
  | begin =>
    obtain ⟨_, _, _, _, hst⟩ := G.begin hrun
    rw [hst]
    rfl
  | done =>
    rcases G.done hrun with ⟨h0, rfl⟩ | ⟨m, ms, n, b, q1, q2, q3, q4, q5, q5', gd, q6, q7, -⟩
    · simp [depth, h0]
    · rw [gd.lvl, q7]
      simp only [depth]
      omega
  | assign i x =>
    obtain ⟨_, m, rfl⟩ := G.assign (nth_mem (ha i (by simp [Call.args]))) x hrun
    rfl
  | assignArr is ds =>
    obtain ⟨_, ⟨m, rfl⟩, _⟩ := G.assignArr (fun v hv => by
      simp only [List.mem_map] at hv
      obtain ⟨i, hi, rfl⟩ := hv
      exact nth_mem (ha i hi)) ds hrun
    rfl
  | assignAll is x =>
    obtain ⟨_, m, rfl⟩ := G.assignAll (fun v hv => by
      simp only [List.mem_map] at hv
      obtain ⟨i, hi, rfl⟩ := hv
      exact nth_mem (ha i hi)) x hrun
    rfl
  | grad i =>
    obtain ⟨_, _, m, rfl⟩ := G.grad (nth_mem (ha i (by simp [Call.args]))) hrun
    rfl
  | gradNested i =>
    obtain ⟨n, _, _, _, _, _, m, rfl⟩ := G.gradNested (nth_mem (ha i (by simp [Call.args]))) hrun
    rfl
  | zeroAll =>
    obtain ⟨_, _, _, m, rfl⟩ := G.zeroAll hrun
    rfl
  | zeroNested =>
    obtain ⟨_, _, _, _, _, _, _, _, m, rfl⟩ := G.zeroNested hrun
    rfl

theorem exec_slot {g : Graph R} {val adj : Nat → R} (G : Good c g val adj) {k : Call R} (hs : k.Sane)
    (hrun : k.exec c = .ok c') {i : Nat} (hi : c'.st.vhead ≤ i) : c'.st.varis i = c.st.varis i := by
  have hrun0 := hrun
  unfold Call.exec at hrun
  split at hrun
  case isFalse => cases hrun
  rename_i ha
  cases k with
  | make m =>
    obtain ⟨ha', vs, s', hm, rfl⟩ := exec_make' hrun0
    obtain ⟨g', val', adj', ev, _⟩ := G.make ha' hs hm
    exact ev.keep.slots i hi
  | begin =>
    obtain ⟨_, _, _, _, hst⟩ := G.begin hrun
    rw [hst]
  | done =>
    rcases G.done hrun with ⟨h0, rfl⟩ | ⟨m, ms, n, b, q1, q2, q3, q4, q5, q5', gd, q6, q7, q8, q9, q10, q11, -⟩
    · rfl
    · rw [q11]
  | assign i x =>
    obtain ⟨_, m, rfl⟩ := G.assign (nth_mem (ha i (by simp [Call.args]))) x hrun
    rfl
  | assignArr is ds =>
    obtain ⟨_, ⟨m, rfl⟩, _⟩ := G.assignArr (fun v hv => by
      simp only [List.mem_map] at hv
      obtain ⟨i, hi, rfl⟩ := hv
      exact nth_mem (ha i hi)) ds hrun
    rfl
  | assignAll is x =>
    obtain ⟨_, m, rfl⟩ := G.assignAll (fun v hv => by
      simp only [List.mem_map] at hv
      obtain ⟨i, hi, rfl⟩ := hv
      exact nth_mem (ha i hi)) x hrun
    rfl
  | grad i =>
    obtain ⟨_, _, m, rfl⟩ := G.grad (nth_mem (ha i (by simp [Call.args]))) hrun
    rfl
  | gradNested i =>
    obtain ⟨n, _, _, _, _, _, m, rfl⟩ := G.gradNested (nth_mem (ha i (by simp [Call.args]))) hrun
    rfl
  | zeroAll =>
    obtain ⟨_, _, _, m, rfl⟩ := G.zeroAll hrun
    rfl
  | zeroNested =>
    obtain ⟨_, _, _, _, _, _, _, _, m, rfl⟩ := G.zeroNested hrun
    rfl

theorem depth_cons (d : Nat) (k : Call R) (l : List (Call R)) : depth d (k :: l) = depth (depth d [k]) l := by
  cases k <;> rfl

theorem run_level : ∀ (l : List (Call R)) {c c' : Client W} {g : Graph R} {val adj : Nat → R},
    Good c g val adj → (∀ k ∈ l, k.Sane) → run l c = .ok c' → c'.st.level = depth c.st.level l := by
  intro l
  induction l with
  | nil => intro c c' g val adj _ _ e; cases e; rfl
  | cons k l ih =>
    intro c c' g val adj G hs e
    rw [run_cons] at e
    cases hk : k.exec c with
    | error x => rw [hk] at e; cases e
    | ok c1 =>
      rw [hk] at e
      obtain ⟨g1, val1, adj1, G1⟩ := G.exec (hs k (by simp)) hk
      rw [ih G1 (fun x hx => hs x (by simp [hx])) e, exec_level G (hs k (by simp)) hk, ← depth_cons]

/-- **C12**: the nesting level is the number of regions that the history has opened and not closed, and it
is at most ten -/
theorem C12_level (hr : Reach h c) : c.st.level = depth 0 h ∧ depth 0 h ≤ 10 := by
  obtain ⟨g, val, adj, G⟩ := hr.good
  have e := run_level h (good_init (fun _ => Arith.zero) (fun _ => Arith.zero)) hr.1 hr.2
  have e' : c.st.level = depth 0 h := e
  exact ⟨e', e' ▸ G.max⟩

/-- **C12**: with fewer than ten open regions another one can be opened -/
theorem C12_ten (hr : Reach h c) (hd : depth 0 h < 10) : ∃ c', (Call.begin : Call R).exec c = .ok c' := by
  have e := (C12_level hr).1
  unfold Call.exec
  rw [if_pos (by simp [Call.args])]
  unfold Call.step
  simp only [beginNested_ok c.st (show c.st.level < maxNestedStack by rw [e]; exact hd)]
  exact ⟨_, rfl⟩

/-- **C12**: with ten open regions `begin_nested` indexes its bookkeeping arrays out of bounds -/
theorem C12_eleventh (hr : Reach h c) (hd : depth 0 h = 10) :
    (Call.begin : Call R).exec c = .error .oob := by
  have e := (C12_level hr).1
  have : (beginNested : M W Unit) c.st = .error .oob := by
    unfold beginNested
    simp only
    rw [if_neg (by simp only [maxNestedStack]; omega)]
  unfold Call.exec
  rw [if_pos (by simp [Call.args])]
  unfold Call.step
  simp only [this]

/-! ## C36 -/

/-- **C36**, exactly when it holds: `end_nested` succeeds if and only if the word at the tape position
exists, that is, the storage in use does not end exactly at the end of the allocated storage; otherwise it
writes behind the allocated storage. -/
theorem C36_end_nested_partial (hr : Reach h c) (hl : 0 < c.st.level) :
    (c.st.tape.head ≤ c.st.tape.size → ∃ c', (Call.done : Call R).exec c = .ok c') ∧
    (c.st.tape.head = c.st.tape.size + 1 → (Call.done : Call R).exec c = .error .oob) := by
  obtain ⟨g, val, adj, G⟩ := hr.good
  have hmax := G.max
  constructor
  · intro hfull
    obtain ⟨m, ms, n, b, hm, hlv, r1, r2, r3, r4, r5, r6, r7, r8, r9⟩ := G.region hl
    have hcut : (g.cut n b).nodes.length = n := by simp [Graph.cut]; omega
    obtain ⟨s', e, -⟩ := endNested_ok G.inv (g.cut_prefix n b) r4 r5 r6 hfull hl
      hmax rfl (by rw [hcut]; exact r1)
    unfold Call.exec
    rw [if_pos (by simp [Call.args])]
    unfold Call.step
    simp only [e]
    exact ⟨_, rfl⟩
  · intro hfull
    obtain ⟨m, ms, n, b, hm, hlv, r1, r2, r3, r4, r5, r6, r7, r8, r9⟩ := G.region hl
    have : (endNested : M W Unit) c.st = .error .oob := by
      unfold endNested
      rw [bind_ok (get_ok _), if_pos hl]
      have q1 : (rdNest c.st.nestTape c.st.level : M W Nat) c.st =
          .ok (c.st.nestTape c.st.level, c.st) := by
        unfold rdNest; rw [if_pos ⟨hl, hmax⟩]; rfl
      have q2 : (rdNest c.st.nestVari c.st.level : M W Nat) c.st =
          .ok (c.st.nestVari c.st.level, c.st) := by
        unfold rdNest; rw [if_pos ⟨hl, hmax⟩]; rfl
      rw [bind_ok q1, bind_ok q2]
      have q3 : (modTape fun t => t.zeroLoop (c.st.nestTape c.st.level)
          (t.head + 1 - c.st.nestTape c.st.level) : M W Unit) c.st = .error .oob := by
        have : c.st.tape.head + 1 - c.st.nestTape c.st.level =
            (c.st.tape.head - c.st.nestTape c.st.level) + 1 := by omega
        simp only [modTape, this]
        unfold Tape.zeroLoop Tape.wr
        rw [if_neg (by omega)]
        rfl
      exact bind_err q3
    unfold Call.exec
    rw [if_pos (by simp [Call.args])]
    unfold Call.step
    simp only [this]

/-! ## C33 -/

/-- slots of the variable table that no earlier state used still are as initialised -/
theorem run_slot (k : Nat) : ∀ (l : List (Call R)) {c c' : Client W} {g : Graph R} {val adj : Nat → R},
    Good c g val adj → (∀ k ∈ l, k.Sane) → run l c = .ok c' →
    (∀ l1 c1, l1 <+: l → run l1 c = .ok c1 → c1.st.vhead ≤ k) → c.st.varis k = {} → c'.st.varis k = {} := by
  intro l
  induction l with
  | nil => intro c c' g val adj _ _ e _ hk; cases e; exact hk
  | cons x l ih =>
    intro c c' g val adj G hs e hp hk
    rw [run_cons] at e
    cases hx : x.exec c with
    | error y => rw [hx] at e; cases e
    | ok c1 =>
      rw [hx] at e
      obtain ⟨g1, val1, adj1, G1⟩ := G.exec (hs x (by simp)) hx
      refine ih G1 (fun y hy => hs y (by simp [hy])) e ?_ ?_
      · intro l1 c2 hl hr
        refine hp (x :: l1) c2 ?_ ?_
        · obtain ⟨t, ht⟩ := hl
          exact ⟨t, by rw [List.cons_append, ht]⟩
        · rw [run_cons, hx]
          exact hr
      · have hv := hp [x] c1 ⟨l, rfl⟩ (by rw [run_cons, hx]; rfl)
        rw [← hk]
        exact exec_slot G (hs x (by simp)) hx hv

/-- **C33**, while no slot of the variable table is used again: if no earlier state had more variables than
there are now, the step of a new variable `var(d)` in derivative sweeps changes nothing, in any state.
Missing: variables that take the place of variables of a closed region, see `C33_refuted`. -/
theorem C33_fresh_partial (hr : Reach h c)
    (hp : ∀ h1 (c1 : Client W), h1 <+: h → Reach h1 c1 → (existing c1.st).length ≤ (existing c.st).length) (d : R)
    (room : c.st.tape.head + 6 ≤ tapeLimit) :
    ∃ v s' e, (newVar d : M W Var) c.st = .ok (v, s') ∧ (getVari v.vi : M W Vari) s' = .ok (e, s') ∧
      ∀ t : St W, (runChain e : M W Unit) t = .ok ((), t) := by
  obtain ⟨g, val, adj, G⟩ := hr.good
  obtain ⟨s', e, gr⟩ := G.inv.newVar_ok d room
  have hvh := G.inv.vhead
  have hat : (g.push ⟨c.st.tape.head, [], [], (c.st.varis c.st.vhead).chain, .plain⟩).At ⟨c.st.vhead⟩
      ⟨c.st.tape.head, [], [], (c.st.varis c.st.vhead).chain, .plain⟩ := by
    have := g.at_last ⟨c.st.tape.head, [], [], (c.st.varis c.st.vhead).chain, .plain⟩
    rwa [← hvh] at this
  refine ⟨⟨c.st.vhead⟩, s', _, e, gr.inv.getV hat, ?_⟩
  have hs : c.st.varis c.st.vhead = {} := by
    refine run_slot c.st.vhead h (good_init (fun _ => Arith.zero) (fun _ => Arith.zero)) hr.1 hr.2 ?_ rfl
    intro l1 c1 hl hr1
    have hr1' : Reach l1 c1 := ⟨fun k hk => hr.1 k (hl.subset hk), hr1⟩
    have := hp l1 c1 hl hr1'
    obtain ⟨g1, val1, adj1, G1⟩ := hr1'.good
    have := G1.inv.vhead
    have h2 := hp l1 c1 hl hr1'
    simp [existing] at h2
    omega
  intro t
  rw [hs]
  rfl

end generic

/-! ## concrete cases and counterexamples -/

section concrete
variable {W : Type} [Rep W ℝ] [LawfulRep W ℝ]

theorem exec_begin {c : Client W} {s : St W} (h : (beginNested : M W Unit) c.st = .ok ((), s)) :
    (Call.begin : Call ℝ).exec c = .ok ⟨s, c.env, c.env.length :: c.marks⟩ := by
  unfold Call.exec
  rw [if_pos (by simp [Call.args])]
  unfold Call.step
  simp only [h]

theorem exec_done {c : Client W} {s : St W} {m : Nat} {ms : List Nat} (h : (endNested : M W Unit) c.st = .ok ((), s))
    (hm : c.marks = m :: ms) : (Call.done : Call ℝ).exec c = .ok ⟨s, c.env.take m, ms⟩ := by
  unfold Call.exec
  rw [if_pos (by simp [Call.args])]
  unfold Call.step
  simp only [h, hm, List.tail_cons]

theorem size_big {s : St W} {g : Graph ℝ} {val adj : Nat → ℝ} (h : Inv s g val adj) (h1 : 1 < s.tape.head) :
    12288 ≤ s.tape.size := by
  have := h.ok.head_le
  rcases h.ok.form with h0 | ⟨k, hk⟩
  · omega
  · have : 1 ≤ 2 ^ k := Nat.one_le_two_pow
    have hi : initTapeSize = 12288 := rfl
    rw [hk, hi]
    omega

/-- `a = var(5); b = a*x; call b%grad_nested()`, where `x` is the client's first variable -/
noncomputable def inner : List (Call ℝ) := [.make (.new 5), .make (.bin .mul 3 0), .gradNested 4]

/-- C11: a region after `demo` that uses the outer variable `x` -/
theorem inner_runs : ∃ c c' : Client W, Reach demo c ∧ (∀ k ∈ inner, k.Sane) ∧ Balanced inner ∧
    run (Call.begin :: inner ++ [Call.done]) c = .ok c' ∧ c.env = [⟨1⟩, ⟨2⟩, ⟨3⟩] ∧
    existing c.st = [⟨1⟩, ⟨2⟩, ⟨3⟩] := by
  obtain ⟨c, hr, he, hm, H⟩ := demo_here (W := W)
  obtain ⟨e0, H0⟩ := H.begin (by simp [maxNestedStack])
  obtain ⟨s1, e1, H1⟩ := H0.newVar 5 (by simp [cap])
  obtain ⟨s2, e2, H2⟩ := H1.binary (v := ⟨4⟩) (w := ⟨1⟩) (by simp [Graph.Has, demoG, Graph.push])
    (by simp [Graph.Has, demoG, Graph.push]) (Arith.mul (R := ℝ)) .mulVV (by simp [cap])
  have H3 : Here s2 ⟨demoG.nodes ++ [⟨21, [], [], .dummy, .plain⟩, ⟨27, [21, 1], [], .mulVV, .plain⟩], []⟩
      (fun p => if p = 1 then 2 else if p = 7 then 3 else if p = 13 then 6 else if p = 21 then 5 else 10)
      (fun p => if p = 1 then 3 else if p = 7 then 2 else if p = 13 then 1 else 0) 35 [(21, 4)] unused := by
    refine H2.congr ?_ ?_
    · simp [Graph.push, Graph.pos, demoG, demoV, upd, Arith.mul]
      norm_num
    · simp [Graph.push, Graph.pos, demoG, demoA, upd, Arith.zero]
  obtain ⟨hl, ht, hv⟩ := H3.inner (l := [])
  obtain ⟨m, e3⟩ := gradNested_total H3.inv (v := ⟨5⟩) (by simp [Graph.Has, demoG]) (by omega)
    (by rw [hl]; simp [maxNestedStack]) (n := 3) hv (by simp [demoG]) (by
      intro nd hn
      simp only [demoG, List.cons_append, List.nil_append, List.drop_succ_cons, List.drop_zero, List.mem_cons,
        List.not_mem_nil, or_false] at hn
      rcases hn with rfl | rfl <;> intro a
      · exact ⟨[], rfl⟩
      · exact ⟨_, rfl⟩)
  have hr4 : Reach (demo ++ [.begin] ++ [.make (.new 5)] ++ [.make (.bin .mul 3 0)] ++ [.gradNested 4])
      (⟨s2.withMem m, [⟨1⟩, ⟨2⟩, ⟨3⟩, ⟨4⟩, ⟨5⟩], [3]⟩ : Client W) ∧
      run (Call.begin :: inner ++ [Call.done]) c = run [Call.done] (⟨s2.withMem m, [⟨1⟩, ⟨2⟩, ⟨3⟩, ⟨4⟩, ⟨5⟩], [3]⟩ : Client W) := by
    have k0 : (Call.begin : Call ℝ).exec c = .ok ⟨c.st.begun, [⟨1⟩, ⟨2⟩, ⟨3⟩], [3]⟩ := by
      have := exec_begin e0
      rw [he, hm] at this
      exact this
    have k1 : (Call.make (R := ℝ) (.new 5)).exec (⟨c.st.begun, [⟨1⟩, ⟨2⟩, ⟨3⟩], [3]⟩ : Client W) =
        .ok ⟨s1, [⟨1⟩, ⟨2⟩, ⟨3⟩, ⟨4⟩], [3]⟩ :=
      exec_make (c := ⟨c.st.begun, [⟨1⟩, ⟨2⟩, ⟨3⟩], [3]⟩) (vs := [⟨4⟩]) (by simp [Make.args])
        (bind_ok (f := fun v => pure [v]) e1)
    have k2 : (Call.make (R := ℝ) (.bin .mul 3 0)).exec (⟨s1, [⟨1⟩, ⟨2⟩, ⟨3⟩, ⟨4⟩], [3]⟩ : Client W) =
        .ok ⟨s2, [⟨1⟩, ⟨2⟩, ⟨3⟩, ⟨4⟩, ⟨5⟩], [3]⟩ :=
      exec_make (c := ⟨s1, [⟨1⟩, ⟨2⟩, ⟨3⟩, ⟨4⟩], [3]⟩) (vs := [⟨5⟩]) (by simp [Make.args])
        (bind_ok (f := fun v => pure [v]) e2)
    have k3 : (Call.gradNested (R := ℝ) 4).exec (⟨s2, [⟨1⟩, ⟨2⟩, ⟨3⟩, ⟨4⟩, ⟨5⟩], [3]⟩ : Client W) =
        .ok ⟨s2.withMem m, [⟨1⟩, ⟨2⟩, ⟨3⟩, ⟨4⟩, ⟨5⟩], [3]⟩ :=
      exec_keep (c := ⟨s2, [⟨1⟩, ⟨2⟩, ⟨3⟩, ⟨4⟩, ⟨5⟩], [3]⟩) (by simp [Call.args]) rfl e3
    refine ⟨Reach.snoc (Reach.snoc (Reach.snoc (Reach.snoc hr (k := .begin) trivial k0) (k := .make (.new 5)) trivial k1)
      (k := .make (.bin .mul 3 0)) trivial k2) (k := .gradNested 4) trivial k3, ?_⟩
    unfold inner
    simp only [List.cons_append, List.nil_append]
    rw [run_one k0, run_one k1, run_one k2, run_one k3]
  have hlev : s2.level = 1 := hl
  obtain ⟨c', hc'⟩ := (C36_end_nested_partial hr4.1 (show 0 < s2.level by omega)).1 (by
    have := size_big H3.inv (by rw [H3.head]; omega)
    show s2.tape.head ≤ s2.tape.size
    rw [H3.head]
    omega)
  refine ⟨c, c', hr, by simp [inner, Call.Sane, Make.Sane], rfl, ?_, he, ?_⟩
  · rw [hr4.2, run_one hc']
    rfl
  · simp [existing, H.inv.vhead, demoG, List.range_succ]

/-- C11: the hypotheses of `C11_restores`, `C11_values` and, for the variable `y`, of `C11_untouched` -/
example : ∃ c c' : Client ℝ, Reach demo c ∧ (∀ k ∈ inner, k.Sane) ∧ Balanced inner ∧
    run (Call.begin :: inner ++ [Call.done]) c = .ok c' ∧ (∀ k ∈ inner, k.global = false ∧ k.assigns = false) ∧
    (⟨2⟩ : Var) ∈ existing c.st ∧ ∀ k ∈ inner, ∀ i ∈ k.args, i < c.env.length → nth c.env i ≠ ⟨2⟩ := by
  obtain ⟨c, c', hr, h1, h2, h3, he, hx⟩ := inner_runs (W := ℝ)
  refine ⟨c, c', hr, h1, h2, h3, by simp [inner, Call.global, Call.assigns], by simp [hx], ?_⟩
  rw [he]
  simp [inner, Call.args, Make.args, nth]

/-- C12: ten regions can be opened from the start of the program, and then no eleventh -/
example : ∃ c : Client ℝ, Reach (List.replicate 10 (Call.begin : Call ℝ)) c ∧ depth 0 (List.replicate 10 (Call.begin : Call ℝ)) = 10 := by
  have key : ∀ n ≤ 10, ∃ c : Client ℝ, Reach (List.replicate n (Call.begin : Call ℝ)) c := by
    intro n
    induction n with
    | zero => intro _; exact ⟨Client.init, by simp, rfl⟩
    | succ n ih =>
      intro hn
      obtain ⟨c, hr⟩ := ih (by omega)
      have hd : ∀ n d, depth d (List.replicate n (Call.begin : Call ℝ)) = d + n := by
        intro n
        induction n with
        | zero => intro d; rfl
        | succ n ih => intro d; rw [List.replicate_succ, depth, ih]; omega
      obtain ⟨c', e⟩ := C12_ten hr (by rw [hd]; omega)
      exact ⟨c', by rw [List.replicate_succ']; exact Reach.snoc hr trivial e⟩
  obtain ⟨c, hr⟩ := key 10 (by omega)
  exact ⟨c, hr, rfl⟩

/-- **C36 fails** at the start of the program: an empty region writes to the storage before it is allocated. -/
theorem C36_refuted : ∃ c : Client W, Reach [(Call.begin : Call ℝ)] c ∧ (Call.done : Call ℝ).exec c = .error .oob := by
  have hr0 : Reach [] (Client.init : Client W) := ⟨by simp, (rfl : run ([] : List (Call ℝ)) _ = _)⟩
  obtain ⟨c, e⟩ := C12_ten (R := ℝ) hr0 (by simp [depth])
  have hr : Reach [Call.begin] c := Reach.snoc hr0 trivial e
  obtain ⟨-, -, -, -, hst⟩ := (good_init (W := W) (fun _ => (0 : ℝ)) fun _ => 0).begin (by
    unfold Call.exec at e
    rw [if_pos (by simp [Call.args])] at e
    exact e)
  refine ⟨c, hr, (C36_end_nested_partial hr ?_).2 ?_⟩
  · rw [hst]; simp [Client.init, St.init]
  · rw [hst]; rfl

/-- **C36 fails** when the tape is exactly full: 2048 variables fill the initial storage of 12288 words, and
closing the region they were made in writes one word behind it. -/
theorem C36_full_refuted : ∃ c : Client W, Reach [Call.begin, Call.make (Make.newArr (R := ℝ) 2048)] c ∧
    c.st.tape.size = 12288 ∧ (Call.done : Call ℝ).exec c = .error .oob := by
  have hr0 : Reach [] (Client.init : Client W) := ⟨by simp, (rfl : run ([] : List (Call ℝ)) _ = _)⟩
  obtain ⟨c, e⟩ := C12_ten (R := ℝ) hr0 (by simp [depth])
  have hr : Reach [Call.begin] c := Reach.snoc hr0 trivial e
  obtain ⟨-, -, henv, -, hst⟩ := (good_init (W := W) (fun _ => (0 : ℝ)) fun _ => 0).begin (by
    unfold Call.exec at e
    rw [if_pos (by simp [Call.args])] at e
    exact e)
  obtain ⟨g, val, adj, G⟩ := hr.good
  obtain ⟨vs, s', g', val', adj', e1, ev, -, -, hh, -⟩ := newVars_ok (List.replicate 2048 (0 : ℝ)) G.inv (by
    rw [List.length_replicate, hst]
    show 1 + 6 * 2048 ≤ tapeLimit
    simp only [tapeLimit]
    omega)
  rw [show (0 : ℝ) = Arith.zero from rfl, ← newVar1d_eq] at e1
  have k1 : (Call.make (R := ℝ) (.newArr 2048)).exec c = .ok ⟨s', c.env ++ vs, c.marks⟩ :=
    exec_make (by simp [Make.args]) e1
  have hr2 : Reach [Call.begin, Call.make (.newArr 2048)] _ := Reach.snoc hr trivial k1
  have h1 : c.st.tape.head = 1 := by rw [hst]; rfl
  have h2 : c.st.tape.size = 0 := by rw [hst]; rfl
  have hhead : s'.tape.head = 12289 := by rw [hh, h1, List.length_replicate]
  have hsize : s'.tape.size = 12288 := by
    have hle := ev.inv.ok.head_le
    have hi : initTapeSize = 12288 := rfl
    have hsn := ev.keep.snug
    rw [hi] at hsn
    rcases hsn with h | h | h
    · omega
    · exact h
    · rcases ev.inv.ok.form with h0 | ⟨k, hk⟩
      · omega
      · rw [hi] at hk
        cases k with
        | zero => simpa using hk
        | succ k =>
          have : 1 ≤ 2 ^ k := Nat.one_le_two_pow
          rw [Nat.pow_succ] at hk
          omega
  refine ⟨_, hr2, hsize, (C36_end_nested_partial hr2 ?_).2 ?_⟩
  · show 0 < s'.level
    rw [ev.keep.level, hst]
    simp [Client.init, St.init]
  · show s'.tape.head = s'.tape.size + 1
    omega

/-- the history of `C33_refuted`: a region with a product, then two independent variables -/
noncomputable def stale : List (Call ℝ) :=
  [.begin, .make (.new 2), .make (.bin .mul 0 0), .done, .make (.new 1), .make (.new 1)]

/-- **C33 fails** after a region has been closed: the second of two new independent variables takes the
place of the product of the region and keeps its propagation rule, and a sweep from the first one, which
depends on nothing, does not complete: the rule asks for two operands that the record does not have. -/
theorem C33_refuted : ∃ c : Client W, Reach stale c ∧ existing c.st = [⟨1⟩, ⟨2⟩] ∧
    (seen c.st ⟨1⟩ = .ok (⟨1, 0, [], []⟩ : View ℝ)) ∧ (seen c.st ⟨2⟩ = .ok (⟨1, 0, [], []⟩ : View ℝ)) ∧
    ∃ e, (Call.grad (R := ℝ) 0).exec c = .error e := by
  have hr0 : Reach [] (Client.init : Client W) := ⟨by simp, (rfl : run ([] : List (Call ℝ)) _ = _)⟩
  have H := Here.init (W := W) (fun _ => (0 : ℝ)) fun _ => 0
  obtain ⟨e0, H0⟩ := H.begin (by simp [maxNestedStack])
  obtain ⟨s1, e1, H1⟩ := H0.newVar 2 (by simp [cap])
  obtain ⟨s2, e2, H2⟩ := H1.binary (v := ⟨1⟩) (w := ⟨1⟩) (by simp [Graph.Has, Graph.empty, Graph.push])
    (by simp [Graph.Has, Graph.empty, Graph.push]) (Arith.mul (R := ℝ)) .mulVV (by simp [cap])
  obtain ⟨s3, e3, -, H3⟩ := H2.done (g0 := Graph.empty) (l := []) (by simp [maxNestedStack])
    ⟨by simp [Graph.empty], by simp [Graph.empty, Graph.push]⟩ H.inv.wf (by omega) (by omega) (by
      have := size_big H2.inv (by rw [H2.head]; omega)
      omega)
  obtain ⟨s4, e4, H4⟩ := H3.newVar 1 (by simp [cap])
  obtain ⟨s5, e5, H5⟩ := H4.newVar 1 (by simp [cap])
  have k0 : (Call.begin : Call ℝ).exec (Client.init : Client W) = .ok ⟨St.init.begun, [], [0]⟩ := exec_begin e0
  have k1 : (Call.make (R := ℝ) (.new 2)).exec (⟨St.init.begun, [], [0]⟩ : Client W) = .ok ⟨s1, [⟨1⟩], [0]⟩ :=
    exec_make (c := ⟨St.init.begun, [], [0]⟩) (vs := [⟨1⟩]) (by simp [Make.args]) (bind_ok (f := fun v => pure [v]) e1)
  have k2 : (Call.make (R := ℝ) (.bin .mul 0 0)).exec (⟨s1, [⟨1⟩], [0]⟩ : Client W) = .ok ⟨s2, [⟨1⟩, ⟨2⟩], [0]⟩ :=
    exec_make (c := ⟨s1, [⟨1⟩], [0]⟩) (vs := [⟨2⟩]) (by simp [Make.args]) (bind_ok (f := fun v => pure [v]) e2)
  have k3 : (Call.done : Call ℝ).exec (⟨s2, [⟨1⟩, ⟨2⟩], [0]⟩ : Client W) = .ok ⟨s3, [], []⟩ := exec_done (c := ⟨s2, [⟨1⟩, ⟨2⟩], [0]⟩) e3 rfl
  have k4 : (Call.make (R := ℝ) (.new 1)).exec (⟨s3, [], []⟩ : Client W) = .ok ⟨s4, [⟨1⟩], []⟩ :=
    exec_make (c := ⟨s3, [], []⟩) (vs := [⟨1⟩]) (by simp [Make.args]) (bind_ok (f := fun v => pure [v]) e4)
  have k5 : (Call.make (R := ℝ) (.new 1)).exec (⟨s4, [⟨1⟩], []⟩ : Client W) = .ok ⟨s5, [⟨1⟩, ⟨2⟩], []⟩ :=
    exec_make (c := ⟨s4, [⟨1⟩], []⟩) (vs := [⟨2⟩]) (by simp [Make.args]) (bind_ok (f := fun v => pure [v]) e5)
  have H6 : Here s5 ⟨[⟨1, [], [], .dummy, .plain⟩, ⟨7, [], [], .mulVV, .plain⟩], []⟩ (fun _ => 1) (fun _ => 0) 13 []
      (fun k => if h : k - 1 < 2 then ([Chain.dummy, .mulVV][k - 1]'h) else .dummy) := by
    refine ⟨?_, H5.head, ?_, H5.marks⟩
    · have := H5.inv
      simp [Graph.push, Graph.empty, unused] at this
      exact this.congr (by simp [upd]) (by simp [upd, Arith.zero])
    · intro k hk
      rw [H5.free k hk]
      have := H5.inv.vhead
      simp [Graph.push, Graph.empty] at this
      rw [dif_neg (by simp [Graph.push, Graph.empty]; omega), dif_neg (by omega)]
      rfl
  refine ⟨⟨s5, [⟨1⟩, ⟨2⟩], []⟩, ⟨by simp [stale, Call.Sane, Make.Sane], ?_⟩, ?_, ?_, ?_, ?_⟩
  · unfold stale
    rw [run_one k0, run_one k1, run_one k2, run_one k3, run_one k4, run_one k5]
    rfl
  · have := H6.inv.vhead
    simp [existing, this, List.range_succ]
  · exact H6.inv.seen (v := ⟨1⟩) (nd := ⟨1, [], [], .dummy, .plain⟩) ⟨by simp, rfl⟩
  · exact H6.inv.seen (v := ⟨2⟩) (nd := ⟨7, [], [], .mulVV, .plain⟩) ⟨by simp, rfl⟩
  · cases hx : (Call.grad (R := ℝ) 0).exec (⟨s5, [⟨1⟩, ⟨2⟩], []⟩ : Client W) with
    | error e => exact ⟨e, rfl⟩
    | ok c' =>
      exfalso
      unfold Call.exec at hx
      rw [if_pos (by simp [Call.args])] at hx
      obtain ⟨s', e, -⟩ := keep_ok (m := Var.grad ⟨1⟩) hx
      have hf := (grad_run H6.inv (fun nd hn => Or.inl (by
        simp only [List.mem_cons, List.not_mem_nil, or_false] at hn
        rcases hn with rfl | rfl
        · intro _; rfl
        · intro _; rfl)) (v := ⟨1⟩) (by simp [Graph.Has]) e).1
      obtain ⟨l, hl⟩ := hf ⟨7, [], [], .mulVV, .plain⟩ (by simp) fun _ => 0
      cases hl

/-- C33: the hypotheses of `C33_fresh_partial` at the start of the program -/
example : ∃ c : Client ℝ, Reach ([] : List (Call ℝ)) c ∧ c.st.tape.head + 6 ≤ tapeLimit ∧
    ∀ h1 (c1 : Client ℝ), h1 <+: [] → Reach (R := ℝ) h1 c1 → (existing c1.st).length ≤ (existing c.st).length := by
  refine ⟨Client.init, ⟨by simp, rfl⟩, by simp [Client.init, St.init, Tape.init, tapeLimit], ?_⟩
  intro h1 c1 hp hr
  have : h1 = [] := List.prefix_nil.mp hp
  subst this
  have : (Client.init : Client ℝ) = c1 := by
    have := hr.2
    cases this
    rfl
  rw [this]

end concrete
end Props
