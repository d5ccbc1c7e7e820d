import Verif.Proof.DeepSeal

/-!
# Functions that call `gradient` and `jacobian` themselves: the tape records the steps of the book
-/

set_option linter.unusedSectionVars false

namespace Fz
variable {W R : Type} [Arith R] [Rep W R] [LawfulRep W R]
open Arith Spec
variable {Z : Prop} {n0 : Nat} {T : List (Step R)}
variable {s s' s'' : St W} {g g' g'' : Graph R} {val adj val' adj' val'' adj'' : Nat → R}
variable {c c' : Client W}

/-- records were added, the open regions are as before -/
structure Adds (s : St W) (g : Graph R) (val : Nat → R) (s' : St W) (g' : Graph R) (val' : Nat → R) : Prop where
  nodes : g.nodes <+: g'.nodes
  val : ∀ p < s.tape.head, val' p = val p
  head : s.tape.head ≤ s'.tape.head
  steady : Steady s s'

theorem Adds.refl : Adds s g val s g val := ⟨List.prefix_refl _, fun _ _ => rfl, Nat.le_refl _, Steady.refl s⟩

theorem Adds.trans (a : Adds s g val s' g' val') (b : Adds s' g' val' s'' g'' val'') : Adds s g val s'' g'' val'' :=
  ⟨a.nodes.trans b.nodes, fun p hp => by rw [b.val p (Nat.lt_of_lt_of_le hp a.head), a.val p hp],
    Nat.le_trans a.head b.head, a.steady.trans b.steady⟩

theorem Ext.adds (e : Ext s g val s' g' val') : Adds s g val s' g' val' := ⟨e.nodes, e.val, e.head, e.keep.steady⟩

theorem NumAt.adds {x : Num R} {v : Var} (hv : NumAt n0 x v g val) (h : Inv s g val adj) (e : Adds s g val s' g' val') :
    NumAt n0 x v g' val' := by
  have hh : g'.Has v := ⟨hv.valR.has.1, Nat.le_trans hv.valR.has.2 e.nodes.length_le⟩
  have hp : g'.pos v = g.pos v := by
    obtain ⟨nd, h1, h2⟩ := hv.valR.has.at
    have : g'.At v nd := ⟨h1.1, prefix_get e.nodes h1.2⟩
    rw [this.pos_eq, h2]
  exact ⟨⟨hh, by rw [hp, e.val _ (Graph.pos_below h hv.valR.has)]; exact hv.valR.eq⟩, hv.ref⟩

theorem NumsAt.adds {xs : List (Num R)} {vs : List Var} (hv : NumsAt n0 xs vs g val) (h : Inv s g val adj)
    (e : Adds s g val s' g' val') : NumsAt n0 xs vs g' val' := hv.imp fun _ _ q => q.adds h e

theorem ValL.adds {ys : List R} {vs : List Var} (hv : ValL ys vs g val) (h : Inv s g val adj)
    (e : Adds s g val s' g' val') : ValL ys vs g' val' := by
  refine hv.imp fun y v q => ?_
  have hh : g'.Has v := ⟨q.has.1, Nat.le_trans q.has.2 e.nodes.length_le⟩
  have hp : g'.pos v = g.pos v := by
    obtain ⟨nd, h1, h2⟩ := q.has.at
    have : g'.At v nd := ⟨h1.1, prefix_get e.nodes h1.2⟩
    rw [this.pos_eq, h2]
  exact ⟨hh, by rw [hp, e.val _ (Graph.pos_below h q.has)]; exact q.eq⟩

theorem erase_prefix (h1 : g.nodes <+: g'.nodes) (h2 : g.blocks <+: g'.blocks) : g.erase.Prefix g'.erase :=
  ⟨h1.map _, h2⟩

/-- a client whose tape has been extended -/
theorem Good.ofExt (h : Good c g val adj) {s' : St W} (ev : Ext c.st g val s' g' val') (i : Inv s' g' val' adj')
    (ck : ∀ nd ∈ g'.nodes, nd.ChainOK) {vs : List Var} (hr : ∀ v ∈ vs, g'.Has v) :
    Good ⟨s', c.env ++ vs, c.marks⟩ g' val' adj' := by
  refine ⟨i, ck, ?_, ev.keep.level.trans h.lvl, ?_, ?_⟩
  · intro v hv
    rcases List.mem_append.mp hv with hv | hv
    · exact ev.has (h.has v hv)
    · exact hr v hv
  · have := ev.keep.level
    have := h.max
    simp only; omega
  · show NestOK s'.nestVari s'.nestTape _ _ _ _
    rw [ev.keep.nestVari, ev.keep.nestTape]
    exact h.nest.mono (erase_prefix ev.nodes ev.blocks) ev.head vs

/-- the records are still the steps `T` when only adjoints have changed -/
theorem Booked.again (h : Booked Z n0 T s g val adj) (hi : Inv s' g' val' adj') (hn : g'.nodes = g.nodes)
    (hv : ∀ p < s.tape.head, val' p = val p)
    (hz : Z → ∀ (k : Nat) nd, g'.nodes[n0 + k]? = some nd → adj' nd.pos = (Arith.zero : R)) : Booked Z n0 T s' g' val' adj' := by
  refine ⟨hi, by rw [hn]; exact h.cok, by rw [hn]; exact h.len, ?_, hz⟩
  intro k nd c he hc
  rw [hn] at he
  have hs := h.rel k nd c he hc
  have hm := List.mem_of_getElem? he
  have hb : nd.pos < s.tape.head := by
    have := (h.inv.wf.below nd hm).2
    simp only [Node.len] at this
    omega
  have href : ∀ {r p}, RefAt n0 g r p → RefAt n0 g' r p := by
    intro r p hr
    unfold RefAt at hr ⊢
    rw [hn]
    exact hr
  refine ⟨hs.src.imp fun _ _ q => href q, hs.pass.imp id fun q f l hl => q f l ?_⟩
  rw [← hl]
  refine (contrib_vals (hv _ hb) (fun p hp => hv p ?_) f).symm
  have := (h.inv.wf.args nd hm p hp).1
  omega

/-- the program writes its steps -/
def Records (f : Deep R) (W : Type) [Rep W R] [LawfulRep W R] (inner : Prop) : Prop :=
  ∀ {Z : Prop} {n0 : Nat} {T : List (Step R)} {c : Client W} {g : Graph R} {val adj : Nat → R} {env : List Var}
    {xs : List (Num R)} {outs : List Var} {s' : St W},
    Good c g val adj → Booked Z n0 T c.st g val adj → (∀ v ∈ env, v ∈ c.env) → NumsAt n0 xs env g val →
    (Z → f.Apart inner) → (f.run env : M W (List Var)) c.st = .ok (outs, s') →
    ∃ vs g' val' adj', Adds c.st g val s' g' val' ∧ Good ⟨s', c.env ++ vs, c.marks⟩ g' val' adj' ∧
      Booked Z n0 (f.write xs T).2 s' g' val' adj' ∧ NumsAt n0 (f.write xs T).1 outs g' val'

/-- a region with the steps of the program -/
theorem deep_steps {inner : Prop} {f : Deep R} (hf : Records f W inner) (hz : Z → f.Apart inner)
    (G : Good c g val adj) {s1 s2 s3 : St W} {x ys : List R} {xv es outs : List Var} (he : ∀ v ∈ es, v ∈ c.env)
    (hy : ValL ys es g val) (e1 : (beginNested : M W Unit) c.st = .ok ((), s1))
    (e2 : (newVars x : M W (List Var)) s1 = .ok (xv, s2)) (e3 : (f.run (xv ++ es) : M W (List Var)) s2 = .ok (outs, s3)) :
    ∃ vs g' val' adj', g.nodes <+: g'.nodes ∧ (∀ p < c.st.tape.head, val' p = val p) ∧
      Good ⟨s3, c.env ++ (xv ++ vs), c.env.length :: c.marks⟩ g' val' adj' ∧
      Booked Z g.nodes.length (stepsOf f.write ys x).2 s3 g' val' adj' ∧
      NumsAt g.nodes.length (stepsOf f.write ys x).1 outs g' val' ∧
      (∃ xs, NumsAt g.nodes.length xs xv g' val' ∧ xs.map Num.ref = (List.range x.length).map some) ∧
      TopAt s3 g.nodes.length ∧ s3.level = c.st.level + 1 ∧ s3.nestTape s3.level = c.st.tape.head ∧
      (∀ k ≤ c.st.level, s3.nestVari k = c.st.nestVari k ∧ s3.nestTape k = c.st.nestTape k) := by
  obtain ⟨G1, ht, hta, hl, hn, ho⟩ := G.opened e1
  obtain ⟨b1, -⟩ := booked_start (Z := Z) G e1
  obtain ⟨g2, val2, adj2, x2, b2, q2⟩ := writes_newVars b1 x xv s2 e2
  have G2 := G1.ofExt x2 b2.inv b2.cok q2.valL.has
  simp only at G2
  obtain ⟨vs, g3, val3, adj3, A3, G3, b3, q3⟩ := hf (env := xv ++ es) G2 b2 (fun v hv => by
    rcases List.mem_append.mp hv with hv | hv
    · exact List.mem_append_right _ hv
    · exact List.mem_append_left _ (he v hv)) (List.rel_append q2 (NumsAt.later (env_nums hy) b1.inv x2)) hz e3
  simp only at G3 A3
  have A := x2.adds.trans A3
  refine ⟨vs, g3, val3, adj3, A.nodes, fun p hp => A.val p (by rw [hta]; exact hp), by rw [← List.append_assoc]; exact G3,
    b3, q3, ⟨_, NumsAt.adds q2 b2.inv A3, ?_⟩, ht.steady A.steady, by rw [A.steady.level, hl], ?_, fun k hk => ?_⟩
  · rw [input_refs, List.range_eq_range']; rfl
  · rw [A.steady.level, A.steady.nt _ (Nat.le_refl _), hn]
  · rw [A.steady.nv k (by omega), A.steady.nt k (by omega)]
    exact ho k hk

/-- what an inner call of `gradient` or `jacobian` leaves behind -/
structure Left (c : Client W) (g : Graph R) (val : Nat → R) (s' : St W) (g' : Graph R) (val' adj' : Nat → R) : Prop where
  good : Good ⟨s', c.env, c.marks⟩ g' val' adj'
  nodes : g'.nodes = g.nodes
  adds : Adds c.st g val s' g' val'

theorem left_of {s5 s6 : St W} {g5 : Graph R} {val5 adj5 : Nat → R} {vs : List Var}
    (hp : g.nodes <+: g5.nodes) (hv : ∀ p < c.st.tape.head, val5 p = val p)
    (G5 : Good ⟨s5, c.env ++ vs, c.env.length :: c.marks⟩ g5 val5 adj5) (ht : TopAt s5 g.nodes.length)
    (hl : s5.level = c.st.level + 1) (hh : s5.nestTape s5.level = c.st.tape.head)
    (hn : ∀ k ≤ c.st.level, s5.nestVari k = c.st.nestVari k ∧ s5.nestTape k = c.st.nestTape k)
    (e : (endNested : M W Unit) s5 = .ok ((), s6)) : ∃ g', Left c g val s6 g' val5 adj5 := by
  obtain ⟨b, hle, G6, hd, st⟩ := G5.closed (c := c) ht hl hn hh e
  have hN : (g5.cut g.nodes.length b).nodes = g.nodes := by
    obtain ⟨l, hl⟩ := hp
    show g5.nodes.take _ = _
    simp only [← hl, List.take_left]
  exact ⟨_, G6, hN, by rw [hN], hv, by rw [hd], st⟩

/-- an inner call of `gradient` -/
theorem deep_gradient {inner : Prop} {f : Deep R} (hf : Records f W inner) (ha : f.Apart inner) (hc : Commutes R)
    (G : Good c g val adj) {x ys : List R} {es : List Var} (he : ∀ v ∈ es, v ∈ c.env) (hy : ValL ys es g val)
    {r : R × List R}
    (e : Fz.gradient (fun xv => do let outs ← (f.run (xv ++ es) : M W (List Var)); firstOf outs) x c.st = .ok (r, s')) :
    gradientOf f.write ys x = some r ∧ ∃ g' val' adj', Left c g val s' g' val' adj' := by
  unfold Fz.gradient at e
  obtain ⟨_, s1, e1, e⟩ := bind_inv e
  obtain ⟨xv, s2, e2, e⟩ := bind_inv e
  obtain ⟨fv, s3, e3, e⟩ := bind_inv e
  obtain ⟨y, s4, e4, e⟩ := bind_inv e
  obtain ⟨_, s5, e5, e⟩ := bind_inv e
  obtain ⟨df, s6, e6, e⟩ := bind_inv e
  obtain ⟨_, s7, e7, e⟩ := bind_inv e
  cases e
  obtain ⟨outs, s8, e8, e9⟩ := bind_inv e3
  obtain ⟨rfl, os, rfl⟩ := firstOf_ok e9
  obtain ⟨vs, g', val', adj', hp, hv, G3, b3, ho, ⟨xs, hx, hn⟩, ht, hl, hh, hns⟩ :=
    deep_steps (Z := True) hf (fun _ => ha) G he hy e1 e2 e8
  unfold gradientOf
  generalize stepsOf f.write ys x = rr at b3 ho
  obtain ⟨os', T⟩ := rr
  cases ho with
  | @cons o _ os'' _ ho _ =>
    rw [ho.valR.read b3.inv] at e4
    cases e4
    obtain ⟨m, adj2, rfl, i2, r2⟩ := b3.row b3.inv (b3.zero trivial) ho e5
    rw [i2.varAdjs hx.valL.has] at e6
    cases e6
    refine ⟨by rw [hx.adjs r2 hn]; rfl, ?_⟩
    obtain ⟨g6, L⟩ := left_of hp hv (G3.upd i2) (ht.mem m) hl hh hns e7
    exact ⟨g6, _, _, L⟩

theorem jacLoop_inv (ck : ∀ nd ∈ g.nodes, nd.ChainOK) {xv : List Var} (hx : ∀ v ∈ xv, g.Has v) {k : Nat}
    (hk : k ≤ g.nodes.length) : ∀ (fv : List Var) {s s' : St W} {adj : Nat → R} {J : List (List R)},
    Inv s g val adj → TopAt s k → (∀ v ∈ fv, g.Has v) → (jacLoop xv fv : M W (List (List R))) s = .ok (J, s') →
    ∃ m adj', s' = s.withMem m ∧ Inv s' g val adj' := by
  intro fv
  induction fv with
  | nil =>
    intro s s' adj J hi _ _ e
    cases e
    exact ⟨_, adj, (St.withMem_self _).symm, hi⟩
  | cons v fv ih =>
    intro s s' adj J hi ht hf e
    unfold jacLoop at e
    obtain ⟨_, s3, e3, e⟩ := bind_inv e
    obtain ⟨_, s4, e4, e⟩ := bind_inv e
    obtain ⟨row, s5, e5, e⟩ := bind_inv e
    obtain ⟨rows, s6, e6, e⟩ := bind_inv e
    cases e
    obtain ⟨m, adj3, rfl, i3, -, -⟩ := TopAt.zero_inv hi ht hk e3
    obtain ⟨-, m4, rfl, i4⟩ := grad_run i3 (fun nd hn => Or.inl (ck nd hn)) (hf v (by simp)) e4
    rw [i4.varAdjs hx] at e5
    cases e5
    obtain ⟨m6, adj6, rfl, i6⟩ := ih i4 ((ht.mem _).mem _) (fun w hw => hf w (by simp [hw])) e6
    exact ⟨m6, adj6, rfl, i6⟩

/-- an inner call of `jacobian` -/
theorem deep_jacobian {inner : Prop} {f : Deep R} (hf : Records f W inner) (hc : Commutes R)
    (G : Good c g val adj) {x ys : List R} {es : List Var} (he : ∀ v ∈ es, v ∈ c.env) (hy : ValL ys es g val) {n : Nat}
    {r : List R × List (List R)}
    (e : Fz.jacobian (fun xv _ => (f.run (xv ++ es) : M W (List Var))) n x c.st = .ok (r, s')) :
    jacobianOf f.write ys x = r ∧ ∃ g' val' adj', Left c g val s' g' val' adj' := by
  unfold Fz.jacobian at e
  obtain ⟨_, s1, e1, e⟩ := bind_inv e
  obtain ⟨xv, s2, e2, e⟩ := bind_inv e
  obtain ⟨outs, s3, e3, e⟩ := bind_inv e
  obtain ⟨fv, s4, e4, e⟩ := bind_inv e
  obtain ⟨zs, s5, e5, e⟩ := bind_inv e
  obtain ⟨rows, s6, e6, e⟩ := bind_inv e
  obtain ⟨_, s7, e7, e⟩ := bind_inv e
  cases e
  have : fv = outs ∧ s4 = s3 := by
    unfold confN at e4
    split at e4
    · cases e4; exact ⟨rfl, rfl⟩
    · cases e4
  obtain ⟨rfl, rfl⟩ := this
  obtain ⟨vs, g', val', adj', hp, hv, G3, b3, ho, ⟨xs, hx, hn⟩, ht, hl, hh, hns⟩ :=
    deep_steps (Z := False) hf False.elim G he hy e1 e2 e3
  rw [ho.valL.read b3.inv] at e5
  cases e5
  have hJ := book_jacLoop b3 hx hn ho b3.inv ht e6
  obtain ⟨m, adj6, rfl, i6⟩ := jacLoop_inv b3.cok hx.valL.has hp.length_le fv b3.inv ht ho.valL.has e6
  refine ⟨by unfold jacobianOf; rw [hJ], ?_⟩
  obtain ⟨g6, L⟩ := left_of hp hv (G3.upd i6) (ht.mem m) hl hh hns e7
  exact ⟨g6, _, _, L⟩

/-- the records before an inner call are sealed off when the inner function uses none of them -/
theorem Booked.sealed (b : Booked Z n0 T c.st g val adj) (hz : Z) (G : Good c g val adj) :
    Sealed n0 g.nodes.length c.st.tape.head c [] g val adj := by
  refine ⟨G, Nat.le_refl _, Nat.le_refl _, ?_, ?_, ?_, by simp⟩
  · intro k nd _ he
    have := (G.inv.wf.below nd (List.mem_of_getElem? he)).2
    simp only [Node.len] at this
    omega
  · intro k nd hk he
    have := (List.getElem?_eq_some_iff.mp he).1
    omega
  · intro k nd hk _ he
    exact b.zero hz (k - n0) nd (by rw [show n0 + (k - n0) = k by omega]; exact he)

theorem Booked.after (b : Booked Z n0 T c.st g val adj) (L : Left c g val s' g' val' adj')
    (hz : Z → ∃ g3 val3 adj3, Sealed n0 g.nodes.length c.st.tape.head ⟨s', c.env, c.marks⟩ [] g3 val3 adj3) :
    Booked Z n0 T s' g' val' adj' := by
  refine b.again L.good.inv L.nodes L.adds.val fun z k nd he => ?_
  obtain ⟨g3, val3, adj3, S⟩ := hz z
  have hlt := (List.getElem?_eq_some_iff.mp he).1
  rw [L.nodes] at hlt
  have h3 : n0 + k < g3.nodes.length := Nat.lt_of_lt_of_le hlt S.len
  have hh : g'.Has ⟨n0 + k + 1⟩ := ⟨by simp, by rw [L.nodes]; simp only; omega⟩
  have hh3 : g3.Has ⟨n0 + k + 1⟩ := ⟨by simp, by simp only; omega⟩
  have r1 := L.good.inv.varAdj hh
  have r3 := S.good.inv.varAdj hh3
  simp only at r1 r3
  rw [r1] at r3
  have p1 : g'.pos ⟨n0 + k + 1⟩ = nd.pos := Graph.At.pos_eq ⟨by simp, by simpa using he⟩
  have p3 : g3.pos ⟨n0 + k + 1⟩ = (g3.nodes[n0 + k]).pos :=
    Graph.At.pos_eq ⟨by simp, by simpa using List.getElem?_eq_getElem h3⟩
  rw [p1, p3] at r3
  have := (Prod.mk.inj (Except.ok.inj r3)).1
  rw [this]
  exact S.zero (n0 + k) _ (by omega) hlt (List.getElem?_eq_getElem h3)

theorem NumsAt.vals_of {xs : List (Num R)} {env : List Var} (h : NumsAt n0 xs env g val) {is : List Nat}
    (hi : ∀ i ∈ is, i < env.length) : ValL (is.map fun i => (opd xs i).val) (is.map (nth env)) g val := by
  have := (h.nths hi).valL
  rw [List.map_map] at this
  exact this

theorem deep_records (hc : Commutes R) {inner : Prop} (hq : inner → Quiet R) (f : Deep R) : f.Tidy → f.Careful inner →
    Records f W inner := by
  have sane : ∀ f : Deep R, f.Tidy → f.All Make.Sane := by
    intro f
    induction f with
    | ret _ => intro _; trivial
    | make m k ih => intro h; exact ⟨h.1.1, ih h.2⟩
    | look i k ih => intro h x; exact ih x (h x)
    | gradient f x is k ih1 ih2 => intro h; exact ⟨ih1 h.1, fun y df => ih2 y df (h.2 y df)⟩
    | jacobian f n x is k ih1 ih2 => intro h; exact ⟨ih1 h.1, fun y df => ih2 y df (h.2 y df)⟩
  induction f with
  | ret is =>
    intro _ _ Z n0 T c g val adj env xs outs s' G b he hy _ e
    unfold Deep.run at e
    split at e
    · rename_i hi
      cases e
      exact ⟨[], g, val, adj, Adds.refl, by rw [List.append_nil]; exact G, b, hy.nths hi⟩
    · cases e
  | make m k ih =>
    intro ht hk Z n0 T c g val adj env xs outs s' G b he hy hz e
    unfold Deep.run at e
    split at e
    · rename_i hi
      obtain ⟨vs, s1, e1, e⟩ := bind_inv e
      obtain ⟨g1, val1, adj1, x1, b1, q1⟩ := make_writes hc b hy m hi ht.1.1 ht.1.2.1 ht.1.2.2 vs s1 e1
      have G1 := G.ofExt x1 b1.inv b1.cok q1.valL.has
      obtain ⟨ws, g2, val2, adj2, A2, G2, b2, q2⟩ := ih ht.2 hk (env := env ++ vs) G1 b1 (fun v hv => by
        rcases List.mem_append.mp hv with hv | hv
        · exact List.mem_append_left _ (he v hv)
        · exact List.mem_append_right _ hv) (List.rel_append (NumsAt.later hy b.inv x1) q1) hz e
      exact ⟨vs ++ ws, g2, val2, adj2, x1.adds.trans A2, by rw [← List.append_assoc]; exact G2, b2, q2⟩
    · cases e
  | look i k ih =>
    intro ht hk Z n0 T c g val adj env xs outs s' G b he hy hz e
    unfold Deep.run at e
    split at e
    · rename_i hi
      rw [bind_ok ((hy.entry hi).valR.read b.inv)] at e
      exact ih _ (ht _) (hk _) G b he hy (fun z => hz z _) e
    · cases e
  | gradient f x is k ihf ihk =>
    intro ht hk Z n0 T c g val adj env xs outs s' G b he hy hz e
    unfold Deep.run at e
    split at e
    · rename_i hi
      obtain ⟨r, s1, e1, e⟩ := bind_inv e
      have hes : ∀ v ∈ is.map (nth env), v ∈ c.env := by
        intro v hv
        obtain ⟨i, h1, rfl⟩ := List.mem_map.mp hv
        exact he _ (nth_mem (hi i h1))
      obtain ⟨hb, g1, val1, adj1, L⟩ := deep_gradient (ihf ht.1 hk.2.1) hk.1 hc G hes (hy.vals_of hi) e1
      have b1 := b.after L fun z => by
        obtain ⟨z1, z2, -⟩ := hz z
        subst z2
        obtain ⟨g3, val3, adj3, S3, -⟩ := (b.sealed z G).gradient (hq z1) (deep_seals (hq z1) f (sane f ht.1))
          (by simp) e1
        exact ⟨g3, val3, adj3, S3⟩
      obtain ⟨ws, g2, val2, adj2, A2, G2, b2, q2⟩ := ihk r.1 r.2 (ht.2 _ _) (hk.2.2 _ _) L.good b1 he
        (NumsAt.adds hy b.inv L.adds) (fun z => (hz z).2.2 _ _) e
      refine ⟨ws, g2, val2, adj2, L.adds.trans A2, G2, ?_, ?_⟩
      · simp only [Deep.write]
        rw [hb]
        exact b2
      · simp only [Deep.write]
        rw [hb]
        exact q2
    · cases e
  | jacobian f m x is k ihf ihk =>
    intro ht hk Z n0 T c g val adj env xs outs s' G b he hy hz e
    unfold Deep.run at e
    split at e
    · rename_i hi
      obtain ⟨r, s1, e1, e⟩ := bind_inv e
      have hes : ∀ v ∈ is.map (nth env), v ∈ c.env := by
        intro v hv
        obtain ⟨i, h1, rfl⟩ := List.mem_map.mp hv
        exact he _ (nth_mem (hi i h1))
      obtain ⟨hb, g1, val1, adj1, L⟩ := deep_jacobian (ihf ht.1 hk.1) hc G hes (hy.vals_of hi) e1
      have b1 := b.after L fun z => by
        obtain ⟨z1, z2, -⟩ := hz z
        subst z2
        obtain ⟨g3, val3, adj3, S3, -⟩ := (b.sealed z G).jacobian (hq z1) (deep_seals (hq z1) f (sane f ht.1))
          (by simp) e1
        exact ⟨g3, val3, adj3, S3⟩
      obtain ⟨ws, g2, val2, adj2, A2, G2, b2, q2⟩ := ihk r.1 r.2 (ht.2 _ _) (hk.2 _ _) L.good b1 he
        (NumsAt.adds hy b.inv L.adds) (fun z => (hz z).2.2 _ _) e
      refine ⟨ws, g2, val2, adj2, L.adds.trans A2, G2, ?_, ?_⟩
      · simp only [Deep.write]
        rw [hb]
        exact b2
      · simp only [Deep.write]
        rw [hb]
        exact q2
    · cases e

end Fz
