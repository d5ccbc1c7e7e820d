import Verif.Proof.Seeds

/-!
# `grad_nested`, and what `gradient` and `jacobian` leave behind
-/

set_option linter.unusedSectionVars false

namespace Fz
open Arith Spec

section generic
variable {W R : Type} [Arith R] [Rep W R] [LawfulRep W R]
variable {s s' : St W} {g : Graph R} {val adj : Nat → R}

/-- a completed `grad_nested` inside a region -/
theorem gradNested_run (h : Inv s g val adj) (hok : ∀ nd ∈ g.nodes, nd.ChainOK ∨ nd.Fits val) {v : Var}
    (hv : g.Has v) (hl0 : 0 < s.level) (hl : s.level ≤ maxNestedStack) {n : Nat}
    (hn : s.nestVari s.level = n + 1) (hle : n ≤ g.nodes.length)
    (e : (v.gradNested : M W Unit) s = .ok ((), s')) :
    (∀ nd ∈ g.nodes.drop n, nd.Fits val) ∧ ∃ m, s' = s.withMem m ∧
      Inv s' g val (sweep val (g.nodes.drop n) (Fz.upd adj (g.pos v) one)) := by
  obtain ⟨nd, h1, h2⟩ := hv.at
  obtain ⟨m, e1, i1⟩ := initDependent_ok h h1
  unfold Var.gradNested currNestedVariHead at e
  rw [bind_ok (h.getV h1), bind_ok e1] at e
  have e2 : (do let s ← get
                if 0 < s.level then rdNest s.nestVari s.level else Pure.pure 0 : M W Nat) (s.withMem m) =
      .ok (n + 1, s.withMem m) := by
    rw [bind_ok (get_ok _)]
    show (if 0 < s.level then rdNest s.nestVari s.level else Pure.pure 0 : M W Nat) _ = _
    rw [if_pos hl0]
    unfold rdNest
    rw [if_pos ⟨hl0, hl⟩, hn]
    rfl
  rw [bind_ok e2, bind_ok (get_ok _)] at e
  obtain ⟨hf, m', rfl, i⟩ := sweep_from i1 hok hle e
  rw [h2] at i
  exact ⟨hf, m', rfl, i⟩

/-- and it completes when the records of the region fit -/
theorem gradNested_total (h : Inv s g val adj) {v : Var}
    (hv : g.Has v) (hl0 : 0 < s.level) (hl : s.level ≤ maxNestedStack) {n : Nat}
    (hn : s.nestVari s.level = n + 1) (hle : n ≤ g.nodes.length) (hf : ∀ nd ∈ g.nodes.drop n, nd.Fits val) :
    ∃ m, (v.gradNested : M W Unit) s = .ok ((), s.withMem m) := by
  obtain ⟨nd, h1, h2⟩ := hv.at
  obtain ⟨m, e1, i1⟩ := initDependent_ok h h1
  have hvh := h.vhead
  obtain ⟨m', e', i'⟩ := Inv.chainLoop_ok n (g.nodes.length - n) i1 (by omega) (by
    intro x hx; exact hf x (List.mem_of_mem_take hx))
  refine ⟨m', ?_⟩
  unfold Var.gradNested currNestedVariHead
  rw [bind_ok (h.getV h1), bind_ok e1]
  have e2 : (do let s ← get
                if 0 < s.level then rdNest s.nestVari s.level else Pure.pure 0 : M W Nat) (s.withMem m) =
      .ok (n + 1, s.withMem m) := by
    rw [bind_ok (get_ok _)]
    show (if 0 < s.level then rdNest s.nestVari s.level else Pure.pure 0 : M W Nat) _ = _
    rw [if_pos hl0]
    unfold rdNest
    rw [if_pos ⟨hl0, hl⟩, hn]
    rfl
  rw [bind_ok e2, bind_ok (get_ok _)]
  have : (s.withMem m).vhead - (n + 1) = g.nodes.length - n := by
    show s.vhead - _ = _; omega
  rw [this]
  exact e'

theorem addAll_off (q : Nat) : ∀ (ps : List Nat) (cs : List R) (adj : Nat → R), q ∉ ps →
    addAll adj ps cs q = adj q
  | [], cs, adj, _ => by cases cs <;> rfl
  | p :: ps, [], adj, _ => rfl
  | p :: ps, c :: cs, adj, h => by
    have h1 : q ≠ p := fun e => h (by simp [e])
    have h2 : q ∉ ps := fun e => h (by simp [e])
    rw [addAll, addAll_off q ps cs _ h2, upd_ne _ _ h1]

theorem sweep_off (val : Nat → R) (q : Nat) : ∀ (l : List (Node R)) (adj : Nat → R),
    (∀ nd ∈ l, q ∉ nd.args) → sweep val l adj q = adj q := by
  intro l
  induction l with
  | nil => intros; rfl
  | cons nd l ih =>
    intro adj h
    show addAll (sweep val l adj) nd.args _ q = _
    rw [addAll_off _ _ _ _ (h nd (by simp)), ih adj fun x hx => h x (by simp [hx])]

/-- a full sweep and a sweep over the records from the `n`-th on agree there -/
theorem sweep_drop {hd : Nat} (wf : g.WF hd) (n : Nat) (a : Nat → R) {nd : Node R} (hn : nd ∈ g.nodes.drop n) :
    sweep val g.nodes a nd.pos = sweep val (g.nodes.drop n) a nd.pos := by
  have hs := wf.sorted
  rw [← List.take_append_drop n g.nodes, List.pairwise_append] at hs
  conv_lhs => rw [← List.take_append_drop n g.nodes, sweep_append]
  refine sweep_off val _ _ _ fun x hx hp => ?_
  have h1 := (wf.args x (List.mem_of_mem_take hx) _ hp).1
  have h2 := hs.2.2 x hx nd hn
  simp only [Node.len] at h2
  omega

end generic

variable {W : Type} [Rep W ℝ] [LawfulRep W ℝ] {lf : Prop}
variable {s s' s'' : St W} {g g' g'' : Graph ℝ} {val adj val' adj' val'' adj'' : Nat → ℝ}
variable {E : Type} [NormedAddCommGroup E] [NormedSpace ℝ E]
variable {D ε D' ε' : Nat → E →L[ℝ] ℝ} {x0 : E}
variable {es : List (E →L[ℝ] ℝ)} {words : Nat} {xv outs : List Var} {τ : E → List ℝ}

/-- the sweep over the new records only, from any seeds -/
theorem Ran.sweepNew (r : Ran x0 s g val adj D ε es words s' g' val' adj' D' ε' xv outs τ lf)
    (hf : ∀ nd ∈ g'.nodes.drop g.nodes.length, nd.Fits val') (a : Nat → ℝ) :
    pair (g'.nodes.map Node.pos) a D' =
      pair (g.nodes.map Node.pos) (Fz.sweep val' (g'.nodes.drop g.nodes.length) a) D +
      comb (xv.map fun v => Fz.sweep val' (g'.nodes.drop g.nodes.length) a (g'.pos v)) es := by
  have hwf := r.sim.inv.wf
  have hsp := r.split
  have key := sweep_pair val' D' ε' g.nodes (g'.nodes.drop g.nodes.length) a
    (fun nd hn => r.sim.rules nd (List.mem_of_mem_drop hn)) hf
    (by rw [← hsp]; exact hwf.sorted.imp fun h => by simp only [Node.len] at h; omega)
    (by rw [← hsp]; exact hwf.args)
  rw [← pair_append, ← List.map_append, ← hsp] at key
  rw [key]
  congr 1
  · refine pair_congr (fun _ _ => rfl) fun q hq => ?_
    obtain ⟨nd, hnd, rfl⟩ := List.mem_map.mp hq
    exact r.dd _ (r.inv0.node_lt hnd)
  · obtain ⟨Q, hQ, hQ0⟩ := r.news
    rw [hQ, pair_append]
    have z2 : pair Q (Fz.sweep val' (g'.nodes.drop g.nodes.length) a) ε' = 0 :=
      pair_zero _ _ _ fun q hq => by rw [hQ0 q hq, smul_zero]
    rw [z2, add_zero]
    unfold pair comb
    congr 1
    apply List.ext_getElem
    · simp [r.xlen]
    · intro n h1 h2
      have hn : n < xv.length := by simpa using h1
      have := (r.xs n hn).2.2.2
      simp only [List.getElem_map, List.getElem_zipWith]
      rw [this]

/-! ## `gradient` and `jacobian`: what is left behind -/

variable {x ys : List ℝ} {p : Prog}

/-- a completed `gradient` whose function may use the caller's variables: what it leaves -/
theorem gradient_keeps (h : Inv s g val adj) (hcok : ∀ nd ∈ g.nodes, nd.ChainOK ∨ nd.Fits val) {env : List Var}
    (he : ∀ v ∈ env, g.Has v) (hy : ys = env.map fun v => val (g.pos v)) (hok : p.Ok (x ++ ys))
    (hroom : Room s p x ys) (hk : p.sem (x ++ ys) ≠ []) {y : ℝ} {df : List ℝ}
    (hrun : gradient (p.scalarFn env) x s = .ok ((y, df), s')) :
    s'.level = s.level ∧ s'.tape.head = s.tape.head ∧ s'.vhead = s.vhead ∧ ∃ a, Inv s' g val a := by
  unfold gradient at hrun
  cases hb : (beginNested : M W Unit) s with
  | error e => rw [bind_err hb] at hrun; cases hrun
  | ok q =>
    obtain ⟨u, s0⟩ := q
    obtain ⟨hl, rfl⟩ := begin_run hb
    rw [bind_ok hb] at hrun
    obtain ⟨xv, outs, s1, s2, e1, e2, g', val', adj', D', ε', r⟩ := ranC h.begun he hy hok hroom
    have ho : 0 < outs.length := by rw [r.len]; exact List.length_pos_of_ne_nil hk
    have hl0 : lookV outs 0 = outs[0] := by simp [lookV, List.getD_eq_getElem?_getD, ho]
    have e2' : (p.scalarFn env xv : M W Var) s1 = .ok (lookV outs 0, s2) := by
      unfold Prog.scalarFn
      rw [bind_ok e2]; rfl
    have hv : ((lookV outs 0).val : M W ℝ) s2 = .ok (val' (g'.pos outs[0]), s2) := by
      rw [hl0]; exact r.sim.inv.varVal (r.os 0 ho).has
    rw [bind_ok e1, bind_ok e2', bind_ok hv] at hrun
    cases hg : ((lookV outs 0).grad : M W Unit) s2 with
    | error e => rw [bind_err hg] at hrun; cases hrun
    | ok q =>
      obtain ⟨u, s3⟩ := q
      have hg' := hg
      rw [hl0] at hg'
      obtain ⟨hf, m, rfl, i⟩ := grad_run r.sim.inv (RanC.ok r hcok) (r.os 0 ho).has hg'
      obtain ⟨df, ea⟩ : ∃ df, (adjs xv : M W (List ℝ)) (s2.withMem m) = .ok (df, s2.withMem m) :=
        ⟨_, i.varAdjs (vs := xv) fun v hv => by
          obtain ⟨k, hk, rfl⟩ := List.getElem_of_mem hv
          exact (r.xs k hk).1⟩
      rw [bind_ok hg, bind_ok ea] at hrun
      cases hen : (endNested : M W Unit) (s2.withMem m) with
      | error e => rw [bind_err hen] at hrun; cases hrun
      | ok q =>
        obtain ⟨u, s4⟩ := q
        rw [bind_ok hen] at hrun
        cases hrun
        obtain ⟨j, a1, a2, a3⟩ := Ran.close r hl i hen
        exact ⟨a1, a2, a3, _, j.congr (fun nd hn => (r.val _ (h.node_lt hn)).symm) fun _ _ => rfl⟩

/-- a completed `jacobian` whose function may use the caller's variables: what it leaves -/
theorem jacobian_keeps (h : Inv s g val adj) (hcok : ∀ nd ∈ g.nodes, nd.ChainOK ∨ nd.Fits val) {env : List Var}
    (he : ∀ v ∈ env, g.Has v) (hy : ys = env.map fun v => val (g.pos v)) (hok : p.Ok (x ++ ys))
    (hroom : Room s p x ys) {n : Nat} {o : List ℝ} {rows : List (List ℝ)}
    (hrun : jacobian (p.vectorFn env) n x s = .ok ((o, rows), s')) :
    s'.level = s.level ∧ s'.tape.head = s.tape.head ∧ s'.vhead = s.vhead ∧ ∃ a, Inv s' g val a := by
  unfold jacobian at hrun
  cases hb : (beginNested : M W Unit) s with
  | error e => rw [bind_err hb] at hrun; cases hrun
  | ok q =>
    obtain ⟨u, s0⟩ := q
    obtain ⟨hl, rfl⟩ := begin_run hb
    rw [bind_ok hb] at hrun
    obtain ⟨xv, outs, s1, s2, e1, e2, g', val', adj', D', ε', r⟩ := ranC h.begun he hy hok hroom
    have e2' : (p.vectorFn env xv n : M W (List Var)) s1 = .ok (outs, s2) := e2
    rw [bind_ok e1, bind_ok e2'] at hrun
    by_cases hn : outs.length = n
    · have e3 : (confN n outs : M W (List Var)) s2 = .ok (outs, s2) := by
        unfold confN; rw [if_pos hn]; rfl
      rw [bind_ok e3, bind_ok (RanC.vals r r.sim.inv)] at hrun
      have hlist : outs = (List.range n).map (lookV outs) := by
        apply List.ext_getElem
        · simp [hn]
        · intro i h1 h2
          simp [lookV, List.getD_eq_getElem?_getD, h1]
      cases hj : (jacLoop xv outs : M W (List (List ℝ))) s2 with
      | error e => rw [bind_err hj] at hrun; cases hrun
      | ok q =>
        obtain ⟨rs, s3⟩ := q
        rw [bind_ok hj] at hrun
        cases hen : (endNested : M W Unit) s3 with
        | error e => rw [bind_err hen] at hrun; cases hrun
        | ok q =>
          obtain ⟨u, s4⟩ := q
          rw [bind_ok hen] at hrun
          cases hrun
          have hlev := r.keep.level
          have hnv := r.keep.nestVari
          have hvh := h.vhead
          simp only [St.begun] at hlev hnv
          rw [hlist] at hj
          obtain ⟨-, m, a', rfl, i⟩ := RanC.jac r hcok (List.range n) r.sim.inv (by omega) (by simp only [maxNestedStack] at *; omega)
            (by rw [hnv, hlev]; simp [hvh]) (fun k hk => by rw [hn]; exact List.mem_range.mp hk) hj
          obtain ⟨j, a1, a2, a3⟩ := Ran.close r hl i hen
          exact ⟨a1, a2, a3, _, j.congr (fun nd hn => (r.val _ (h.node_lt hn)).symm) fun _ _ => rfl⟩
    · have e3 : ∃ e, (confN n outs : M W (List Var)) s2 = .error e := by
        unfold confN; rw [if_neg hn]; exact ⟨_, rfl⟩
      obtain ⟨e, e3⟩ := e3
      rw [bind_err e3] at hrun
      cases hrun

/-- the rows of `jacobian`, seen from the caller's records -/
theorem Ran.jacOuter {D D' ε' : Nat → (Fin g.nodes.length → ℝ) →L[ℝ] ℝ} {x0 : Fin g.nodes.length → ℝ}
    {es : List ((Fin g.nodes.length → ℝ) →L[ℝ] ℝ)} {τ : (Fin g.nodes.length → ℝ) → List ℝ}
    (r : Ran x0 s g val adj D (dual g) es words s' g' val' adj' D' ε' xv outs τ lf)
    (hD : ∀ nd ∈ g.nodes, Rule val D (dual g) nd) (hes : ∀ e ∈ es, e = 0) {c : List ℝ} (hτ : ∀ y, τ y = c)
    (hok : ∀ nd ∈ g.nodes, nd.ChainOK ∨ nd.Fits val) :
    ∀ (l : List Nat) {t t' : St W} {a b : Nat → ℝ} {rows : List (List ℝ)},
    Inv t g' val' a → (∀ nd ∈ g.nodes, a nd.pos = b nd.pos) →
    0 < t.level → t.level ≤ maxNestedStack → t.nestVari t.level = g.nodes.length + 1 →
    (∀ k ∈ l, k < outs.length) →
    (jacLoop xv (l.map (lookV outs)) : M W (List (List ℝ))) t = .ok (rows, t') →
    ∃ m a', t' = t.withMem m ∧ Inv t' g' val' a' ∧
      ∀ nd ∈ g.nodes, a' nd.pos = ((Fz.sweep val g.nodes)^[l.length] b) nd.pos := by
  intro l
  induction l with
  | nil =>
    intro t t' a b rows h hab _ _ _ _ e
    cases e
    exact ⟨t.tape.mem, a, rfl, h, hab⟩
  | cons k l ih =>
    intro t t' a b rows h hab hl0 hl hn hk e
    rw [List.map_cons] at e
    unfold jacLoop at e
    have hvh := h.vhead
    have hle := r.pre.nodes.length_le
    cases hz0 : (setZeroNestedAdj (W := W)) t with
    | error e' => rw [bind_err hz0] at e; cases e
    | ok q =>
      obtain ⟨u, t1⟩ := q
      rw [bind_ok hz0] at e
      have hz1 := hz0
      unfold setZeroNestedAdj at hz1
      have e2 : (rdNest t.nestVari t.level : M W Nat) t = .ok (g.nodes.length + 1, t) := by
        unfold rdNest; rw [if_pos ⟨hl0, hl⟩, hn]; rfl
      have hx : t.vhead - (g.nodes.length + 1) = g'.nodes.length - g.nodes.length := by omega
      rw [bind_ok (get_ok _), bind_ok e2, hx] at hz1
      obtain ⟨m, a1, e3, i1, hz, hkp⟩ := Inv.zeroAdjLoop_ok g.nodes.length (g'.nodes.length - g.nodes.length) h (by omega)
      rw [e3] at hz1
      cases hz1
      have ht : (g'.nodes.drop g.nodes.length).take (g'.nodes.length - g.nodes.length) =
          g'.nodes.drop g.nodes.length := List.take_of_length_le (by simp)
      rw [ht] at hz hkp
      have hab1 : ∀ nd ∈ g.nodes, a1 nd.pos = b nd.pos := by
        intro nd hnd
        rw [← hab nd hnd]
        refine hkp _ fun x hx he => ?_
        have := (r.zero x hx).1
        have := r.inv0.node_lt hnd
        omega
      cases hg : ((lookV outs k).grad : M W Unit) (t.withMem m) with
      | error e' => rw [bind_err hg] at e; cases e
      | ok q =>
        obtain ⟨u, s3⟩ := q
        have hko := hk k (by simp)
        have hlk : lookV outs k = outs[k] := by simp [lookV, List.getD_eq_getElem?_getD, hko]
        rw [hlk] at hg
        obtain ⟨hf, m', rfl, i⟩ := grad_run i1 (r.ok hok) (r.os k hko).has hg
        have ho := r.outer hD hes hτ hf a1 b hab1 hz hko
        obtain ⟨df, ea⟩ : ∃ df, (adjs xv : M W (List ℝ)) ((t.withMem m).withMem m') = .ok (df, (t.withMem m).withMem m') :=
          ⟨_, i.varAdjs (vs := xv) fun v hv => by
            obtain ⟨k, hk, rfl⟩ := List.getElem_of_mem hv
            exact (r.xs k hk).1⟩
        rw [← hlk] at hg
        rw [bind_ok hg, bind_ok ea] at e
        cases hj : (jacLoop xv (l.map (lookV outs)) : M W (List (List ℝ))) ((t.withMem m).withMem m') with
        | error e' => rw [bind_err hj] at e; cases e
        | ok q =>
          obtain ⟨rs, s4⟩ := q
          rw [bind_ok hj] at e
          cases e
          obtain ⟨m'', a'', rfl, i'', ha⟩ := ih i ho hl0 hl hn (fun j hj => hk j (by simp [hj])) hj
          exact ⟨m'', a'', rfl, i'', ha⟩

/-- `jacobian` of a program that uses no variable of the caller: the caller's adjoints become what one
reverse sweep without seed for every row makes of them -/
theorem jacobian_outer (h : Inv s g val adj) (hcok : ∀ nd ∈ g.nodes, nd.ChainOK ∨ nd.Fits val)
    (hok : p.Ok x) (hroom : Room s p x []) {n : Nat} {o : List ℝ} {rows : List (List ℝ)}
    (hrun : jacobian (p.vectorFn []) n x s = .ok ((o, rows), s')) :
    s'.level = s.level ∧ s'.tape.head = s.tape.head ∧ s'.vhead = s.vhead ∧
      Inv s' g val ((Fz.sweep val g.nodes)^[n] adj) := by
  unfold jacobian at hrun
  cases hb : (beginNested : M W Unit) s with
  | error e => rw [bind_err hb] at hrun; cases hrun
  | ok q =>
    obtain ⟨u, s0⟩ := q
    obtain ⟨hl, rfl⟩ := begin_run hb
    rw [bind_ok hb] at hrun
    obtain ⟨xv, outs, s1, s2, e1, e2, D, g', val', adj', D', ε', hD, r⟩ := ran_closed h.begun x p hok hroom
    have e2' : (p.vectorFn [] xv n : M W (List Var)) s1 = .ok (outs, s2) := e2
    rw [bind_ok e1, bind_ok e2'] at hrun
    by_cases hn : outs.length = n
    · have e3 : (confN n outs : M W (List Var)) s2 = .ok (outs, s2) := by
        unfold confN; rw [if_pos hn]; rfl
      obtain ⟨ov, ev⟩ : ∃ ov, (vals outs : M W (List ℝ)) s2 = .ok (ov, s2) :=
        ⟨_, r.sim.inv.varVals (vs := outs) fun v hv => by
          obtain ⟨k, hk, rfl⟩ := List.getElem_of_mem hv
          exact (r.os k hk).has⟩
      rw [bind_ok e3, bind_ok ev] at hrun
      have hlist : outs = (List.range n).map (lookV outs) := by
        apply List.ext_getElem
        · simp [hn]
        · intro i h1 h2
          simp [lookV, List.getD_eq_getElem?_getD, h1]
      cases hj : (jacLoop xv outs : M W (List (List ℝ))) s2 with
      | error e => rw [bind_err hj] at hrun; cases hrun
      | ok q =>
        obtain ⟨rs, s3⟩ := q
        rw [bind_ok hj] at hrun
        cases hen : (endNested : M W Unit) s3 with
        | error e => rw [bind_err hen] at hrun; cases hrun
        | ok q =>
          obtain ⟨u, s4⟩ := q
          rw [bind_ok hen] at hrun
          cases hrun
          have hlev := r.keep.level
          have hnv := r.keep.nestVari
          have hvh := h.vhead
          simp only [St.begun] at hlev hnv
          rw [hlist] at hj
          obtain ⟨m, a', rfl, i, ha⟩ := r.jacOuter hD (by simp) (fun _ => rfl) hcok (List.range n) (b := adj)
            r.sim.inv (fun nd hn => r.adj _ (h.node_lt hn)) (by omega) (by simp only [maxNestedStack] at *; omega)
            (by rw [hnv, hlev]; simp [hvh]) (fun k hk => by rw [hn]; exact List.mem_range.mp hk) hj
          rw [List.length_range] at ha
          obtain ⟨j, a1, a2, a3⟩ := r.close hl i hen
          exact ⟨a1, a2, a3, j.congr (fun nd hn => (r.val _ (h.node_lt hn)).symm) fun nd hn => (ha nd hn).symm⟩
    · have e3 : ∃ e, (confN n outs : M W (List Var)) s2 = .error e := by
        unfold confN; rw [if_neg hn]; exact ⟨_, rfl⟩
      obtain ⟨e, e3⟩ := e3
      rw [bind_err e3] at hrun
      cases hrun

end Fz
