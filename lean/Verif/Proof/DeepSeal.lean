import Verif.Proof.LiveRun
import Verif.Proof.Outer
import Verif.Proof.Replay
import Verif.Spec.Deep

/-!
# Regions that take nothing from the variables before them leave zero adjoints zero
-/

set_option linter.unusedSectionVars false

namespace Fz
variable {W R : Type} [Arith R] [Rep W R] [LawfulRep W R]
open Arith Spec
variable {s s' s'' : St W} {g g' g'' : Graph R} {val adj val' adj' val'' adj'' : Nat → R}
variable {c c' : Client W}

/-- a record with adjoint zero passes on nothing -/
def Quiet (R : Type) [Arith R] : Prop :=
  ∀ (nd : Node R) (val f : Nat → R), f nd.pos = zero → ∀ d ∈ nd.cl val f, (zero : R) +. d = zero

theorem quiet_real : Quiet ℝ := by
  intro nd val f h d hd
  obtain ⟨cs, hcs⟩ := contrib_linear nd val
  unfold Node.cl at hd
  cases hc : nd.contrib val f with
  | none => rw [hc] at hd; simp at hd
  | some l =>
    rw [hc, hcs f l hc] at hd
    simp only [Option.getD_some, List.mem_map] at hd
    obtain ⟨k, _, rfl⟩ := hd
    rw [h]
    show (0 : ℝ) + 0 * k = 0
    simp

theorem addAll_quiet {q : Nat} : ∀ (ps : List Nat) (ds : List R) {f : Nat → R}, f q = zero →
    (∀ d ∈ ds, (zero : R) +. d = zero) → addAll f ps ds q = zero
  | [], ds, f, h, _ => by cases ds <;> exact h
  | p :: ps, [], f, h, _ => h
  | p :: ps, d :: ds, f, h, hd => by
    rw [addAll]
    refine addAll_quiet ps ds ?_ fun d' h' => hd d' (by simp [h'])
    by_cases e : q = p
    · subst e
      rw [upd_self, h]
      exact hd d (by simp)
    · rw [upd_ne _ _ e]; exact h

/-- the open regions are as before -/
structure Steady (s s' : St W) : Prop where
  level : s'.level = s.level
  nv : ∀ k ≤ s.level, s'.nestVari k = s.nestVari k
  nt : ∀ k ≤ s.level, s'.nestTape k = s.nestTape k

theorem Steady.refl (s : St W) : Steady s s := ⟨rfl, fun _ _ => rfl, fun _ _ => rfl⟩

theorem Steady.trans (a : Steady s s') (b : Steady s' s'') : Steady s s'' :=
  ⟨b.level.trans a.level, fun k hk => (b.nv k (by rw [a.level]; exact hk)).trans (a.nv k hk),
    fun k hk => (b.nt k (by rw [a.level]; exact hk)).trans (a.nt k hk)⟩

theorem Keep.steady (k : Keep s s') : Steady s s' :=
  ⟨k.level, fun _ _ => by rw [k.nestVari], fun _ _ => by rw [k.nestTape]⟩

theorem Steady.mem (s : St W) (m : Nat → W) : Steady s (s.withMem m) := ⟨rfl, fun _ _ => rfl, fun _ _ => rfl⟩

theorem TopAt.steady {n : Nat} (h : TopAt s n) (k : Steady s s') : TopAt s' n := by
  unfold TopAt
  rw [k.level, k.nv _ (Nat.le_refl _)]
  exact h

theorem Good.ofEvoF {φ : Nat → Prop} (h : Good c g val adj) {s' : St W} (ev : Evo φ c.st g val adj s' g' val' adj')
    {vs : List Var} (hr : ∀ v ∈ vs, g'.Has v) : Good ⟨s', c.env ++ vs, c.marks⟩ g' val' adj' := by
  refine ⟨ev.inv, ev.cok h.cok, ?_, ev.keep.level.trans h.lvl, ?_, ?_⟩
  · intro v hv
    rcases List.mem_append.mp hv with hv | hv
    · exact ev.hasV (h.has v hv)
    · exact hr v hv
  · have := ev.keep.level
    have := h.max
    simp only; omega
  · show NestOK s'.nestVari s'.nestTape _ _ _ _
    rw [ev.keep.nestVari, ev.keep.nestTape]
    exact h.nest.mono ev.pre ev.head vs

/-- a region has begun -/
theorem Good.opened (G : Good c g val adj) {s1 : St W} (e : (beginNested : M W Unit) c.st = .ok ((), s1)) :
    Good ⟨s1, c.env, c.env.length :: c.marks⟩ g val adj ∧ TopAt s1 g.nodes.length ∧ s1.tape = c.st.tape ∧
      s1.level = c.st.level + 1 ∧ s1.nestTape s1.level = c.st.tape.head ∧
      (∀ k ≤ c.st.level, s1.nestVari k = c.st.nestVari k ∧ s1.nestTape k = c.st.nestTape k) := by
  obtain ⟨G', hl, -, -, hst⟩ := G.begin (c' := ⟨s1, c.env, c.env.length :: c.marks⟩) (by simp only [Call.step, e])
  have hv := G.inv.vhead
  simp only at hst
  subst hst
  refine ⟨G', ⟨by simp, hl, by simp [hv]⟩, rfl, rfl, by simp, fun k hk => ?_⟩
  have : k ≠ c.st.level + 1 := by omega
  simp [this]

/-- the region has been closed -/
theorem Good.closed {s5 s6 : St W} {n : Nat} {vs : List Var}
    (G : Good ⟨s5, c.env ++ vs, c.env.length :: c.marks⟩ g val adj) (ht : TopAt s5 n) (hl : s5.level = c.st.level + 1)
    (hn : ∀ k ≤ c.st.level, s5.nestVari k = c.st.nestVari k ∧ s5.nestTape k = c.st.nestTape k)
    (hh : s5.nestTape s5.level = c.st.tape.head)
    (e : (endNested : M W Unit) s5 = .ok ((), s6)) :
    ∃ b, n ≤ g.nodes.length ∧ Good ⟨s6, c.env, c.marks⟩ (g.cut n b) val adj ∧ s6.tape.head = c.st.tape.head ∧
      Steady c.st s6 := by
  obtain ⟨c1, e1⟩ : ∃ c1, (Call.done : Call R).step (⟨s5, c.env ++ vs, c.env.length :: c.marks⟩ : Client W) = .ok c1 := by
    simp only [Call.step, e]
    exact ⟨_, rfl⟩
  have hst : c1.st = s6 := by
    simp only [Call.step, e] at e1
    cases e1
    rfl
  rcases G.done e1 with ⟨h0, -⟩ | ⟨mk, ms, k, b, hm, hlv, hv, hle, -, -, G', h2, h3, -, -, -, -, h7, -, h8⟩
  · exact absurd h0 (by have := ht.1; simp only; omega)
  · simp only at hm hlv hv h2 h7 h8
    obtain ⟨rfl, rfl⟩ := List.cons.inj hm
    have hk : k = n := by have := ht.2.2; omega
    subst hk
    rw [List.take_left] at h2
    obtain ⟨t, ce, cm⟩ := c1
    simp only at hst h2 h3 h7 h8
    subst hst h2 h3
    have hl6 := G'.lvl
    simp only at hl6
    refine ⟨b, hle, G', by rw [h7, hh], by omega, fun j hj => ?_, fun j hj => ?_⟩
    · rw [(h8 j (by omega)).2, (hn j hj).1]
    · rw [(h8 j (by omega)).1, (hn j hj).2]

/-- the records from number `n` on, which lie behind position `h`, take nothing from the records before; those from
number `a` to number `n` have adjoint zero -/
structure Sealed (a n h : Nat) (c : Client W) (env : List Var) (g : Graph R) (val adj : Nat → R) : Prop where
  good : Good c g val adj
  len : n ≤ g.nodes.length
  head : h ≤ c.st.tape.head
  low : ∀ k nd, k < n → g.nodes[k]? = some nd → nd.pos < h
  own : ∀ k nd, n ≤ k → g.nodes[k]? = some nd → h ≤ nd.pos ∧ ∀ p ∈ nd.args, h ≤ p
  zero : ∀ k nd, a ≤ k → k < n → g.nodes[k]? = some nd → adj nd.pos = zero
  env : ∀ v ∈ env, v ∈ c.env ∧ n < v.vi

variable {a n h : Nat} {env : List Var}

theorem Sealed.hasF (S : Sealed a n h c env g val adj) {v : Var} (hv : v ∈ env) : g.HasF (h ≤ ·) v := by
  obtain ⟨h1, h2⟩ := S.env v hv
  have hh := S.good.has v h1
  obtain ⟨nd, h3, h4⟩ := hh.at
  refine ⟨hh, ?_⟩
  rw [← h4]
  have := hh.1
  exact (S.own _ nd (by omega) h3.2).1

theorem Sealed.make (S : Sealed a n h c env g val adj) {m : Make R} (ha : ∀ i ∈ m.args, i < env.length) (hs : m.Sane)
    {vs : List Var} {s' : St W} (e : m.call env c.st = .ok (vs, s')) :
    ∃ g' val' adj', Sealed a n h ⟨s', c.env ++ vs, c.marks⟩ (env ++ vs) g' val' adj' ∧ Steady c.st s' := by
  obtain ⟨g', val', adj', ev, hr⟩ := make_safe (φ := (h ≤ ·)) S.good.inv m (fun i hi => S.hasF (nth_mem (ha i hi))) hs
    (fun p hp => Nat.le_trans S.head hp) vs s' e
  have old : ∀ k nd, k < g.nodes.length → g'.nodes[k]? = some nd →
      ∃ nd0, g.nodes[k]? = some nd0 ∧ nd.pos = nd0.pos ∧ nd.args = nd0.args := by
    intro k nd hk he
    have e1 := List.getElem?_eq_getElem hk
    obtain ⟨x, hx⟩ := ev.pre.getErase e1
    rw [he] at hx
    cases hx
    exact ⟨_, e1, rfl, rfl⟩
  have hlen := ev.pre.lenErase
  have low' : ∀ k nd, k < n → g'.nodes[k]? = some nd → nd.pos < h := by
    intro k nd hk he
    obtain ⟨nd0, h1, h2, -⟩ := old k nd (by have := S.len; omega) he
    rw [h2]
    exact S.low k nd0 hk h1
  refine ⟨g', val', adj', ⟨S.good.ofEvoF ev fun v hv => (hr v hv).has, Nat.le_trans S.len hlen, Nat.le_trans S.head ev.head,
    low', ?_, ?_, ?_⟩, ev.keep.steady⟩
  · intro k nd hk he
    by_cases hk' : k < g.nodes.length
    · obtain ⟨nd0, h1, h2, h3⟩ := old k nd hk' he
      rw [h2, h3]
      exact S.own k nd0 hk h1
    · exact ⟨Nat.le_trans S.head (ev.news k nd (by omega) he).1, ev.own k nd (by omega) he⟩
  · intro k nd hak hk he
    obtain ⟨nd0, h1, h2, -⟩ := old k nd (by have := S.len; omega) he
    rw [h2, ev.adj _ (by have := S.low k nd0 hk h1; have := S.head; omega)]
    exact S.zero k nd0 hak hk h1
  · intro v hv
    rcases List.mem_append.mp hv with hv | hv
    · exact ⟨List.mem_append_left _ (S.env v hv).1, (S.env v hv).2⟩
    · refine ⟨List.mem_append_right _ hv, ?_⟩
      obtain ⟨h1, h2⟩ := hr v hv
      obtain ⟨nd, h3, h4⟩ := h1.at
      rw [← h4] at h2
      by_contra hlt
      have := low' (v.vi - 1) nd (by have := h1.1; omega) h3.2
      omega

theorem node_lt {hd : Nat} (wf : g.WF hd) {i j : Nat} {x y : Node R} (hi : g.nodes[i]? = some x)
    (hj : g.nodes[j]? = some y) (hlt : i < j) : x.pos < y.pos := by
  obtain ⟨h1, rfl⟩ := List.getElem?_eq_some_iff.mp hi
  obtain ⟨h2, rfl⟩ := List.getElem?_eq_some_iff.mp hj
  have := List.pairwise_iff_getElem.mp wf.sorted i j h1 h2 hlt
  simp only [Node.len] at this
  omega

theorem Sealed.swept (hq : Quiet R) (S : Sealed a n h c env g val adj) {f : Nat → R}
    (hz : ∀ k nd, a ≤ k → k < n → g.nodes[k]? = some nd → f nd.pos = Arith.zero) :
    ∀ (m j : Nat), j + m = g.nodes.length → ∀ k nd, a ≤ k → k < n → g.nodes[k]? = some nd →
      sweep val (g.nodes.drop j) f nd.pos = Arith.zero := by
  intro m
  induction m with
  | zero =>
    intro j hj
    rw [List.drop_eq_nil_of_le (by omega)]
    exact hz
  | succ m ih =>
    intro j hj k nd hak hk he
    have h1 : j < g.nodes.length := by omega
    have e1 : g.nodes[j]? = some g.nodes[j] := List.getElem?_eq_getElem h1
    rw [List.drop_eq_getElem_cons h1]
    show addAll (sweep val (g.nodes.drop (j + 1)) f) (g.nodes[j]).args
      ((g.nodes[j]).cl val (sweep val (g.nodes.drop (j + 1)) f)) nd.pos = _
    have key := ih (j + 1) (by omega)
    have h0 := key k nd hak hk he
    by_cases hj1 : n ≤ j
    · rw [addAll_off _ _ _ _ fun hm => ?_]
      · exact h0
      · have := (S.own j _ hj1 e1).2 _ hm
        have := S.low k nd hk he
        omega
    · by_cases hj2 : a ≤ j
      · exact addAll_quiet _ _ h0 (hq _ val _ (key j _ hj2 (by omega) e1))
      · rw [addAll_off _ _ _ _ fun hm => ?_]
        · exact h0
        · have h2 := (S.good.inv.wf.args _ (List.mem_of_getElem? e1) _ hm).1
          have h3 := node_lt S.good.inv.wf e1 he (by omega)
          omega

theorem Sealed.grad (hq : Quiet R) (S : Sealed a n h c env g val adj) {v : Var} (hv : v ∈ env)
    (e : (v.grad : M W Unit) c.st = .ok ((), s')) :
    ∃ m adj', s' = c.st.withMem m ∧ Sealed a n h ⟨s', c.env, c.marks⟩ env g val adj' := by
  obtain ⟨h1, h2⟩ := S.hasF hv
  obtain ⟨-, m, rfl, i⟩ := grad_run S.good.inv (fun nd hn => Or.inl (S.good.cok nd hn)) h1 e
  refine ⟨m, _, rfl, ⟨S.good.upd i, S.len, S.head, S.low, S.own, ?_, S.env⟩⟩
  refine S.swept hq (f := upd adj (g.pos v) one) (fun k nd hak hk he => ?_) g.nodes.length 0 (by omega)
  rw [upd_ne _ _ (by have := S.low k nd hk he; omega)]
  exact S.zero k nd hak hk he

theorem Sealed.zeroed (S : Sealed a n h c env g val adj) {k : Nat} (ht : TopAt c.st k) (hk : k ≤ g.nodes.length)
    (hn : n ≤ k) (e : (setZeroNestedAdj : M W Unit) c.st = .ok ((), s')) :
    ∃ m adj', s' = c.st.withMem m ∧ Sealed a n h ⟨s', c.env, c.marks⟩ env g val adj' := by
  obtain ⟨m, adj', rfl, i, -, ha⟩ := TopAt.zero_inv S.good.inv ht hk e
  refine ⟨m, adj', rfl, ⟨S.good.upd i, S.len, S.head, S.low, S.own, ?_, S.env⟩⟩
  intro j nd haj hj he
  rw [ha _ fun x hx => ?_]
  · exact S.zero j nd haj hj he
  · obtain ⟨l, hl⟩ := mem_drop_iff.mp hx
    have := node_lt S.good.inv.wf he hl (by omega)
    omega

theorem Sealed.rows (hq : Quiet R) {k : Nat} {xv : List Var} : ∀ (fv : List Var) {c : Client W} {adj : Nat → R}
    {J : List (List R)} {s' : St W},
    Sealed a n h c env g val adj → TopAt c.st k → k ≤ g.nodes.length → n ≤ k → (∀ v ∈ fv, v ∈ env) →
    (∀ v ∈ xv, v ∈ c.env) →
    (jacLoop xv fv : M W (List (List R))) c.st = .ok (J, s') →
    ∃ m adj', s' = c.st.withMem m ∧ Sealed a n h ⟨s', c.env, c.marks⟩ env g val adj' := by
  intro fv
  induction fv with
  | nil =>
    intro c adj J s' S _ _ _ _ _ e
    cases e
    exact ⟨_, adj, (St.withMem_self _).symm, S⟩
  | cons v fv ih =>
    intro c adj J s' S ht hk hn hf hx e
    unfold jacLoop at e
    obtain ⟨_, s3, e3, e⟩ := bind_inv e
    obtain ⟨_, s4, e4, e⟩ := bind_inv e
    obtain ⟨row, s5, e5, e⟩ := bind_inv e
    obtain ⟨rows, s6, e6, e⟩ := bind_inv e
    cases e
    obtain ⟨m3, adj3, rfl, S3⟩ := S.zeroed ht hk hn e3
    obtain ⟨m4, adj4, rfl, S4⟩ := S3.grad hq (hf v (by simp)) e4
    rw [S4.good.inv.varAdjs fun w hw => S4.good.has w (hx w hw)] at e5
    cases e5
    obtain ⟨m5, adj5, rfl, S5⟩ := ih S4 ((ht.mem _).mem _) hk hn (fun w hw => hf w (by simp [hw])) hx e6
    exact ⟨m5, adj5, rfl, S5⟩

/-- the program keeps the seal -/
def Seals (f : Deep R) (W : Type) [Rep W R] [LawfulRep W R] : Prop :=
  ∀ {a n h : Nat} {c : Client W} {env : List Var} {g : Graph R} {val adj : Nat → R} {outs : List Var} {s' : St W},
    Sealed a n h c env g val adj → (f.run env : M W (List Var)) c.st = .ok (outs, s') →
    ∃ vs g' val' adj', Sealed a n h ⟨s', c.env ++ vs, c.marks⟩ outs g' val' adj' ∧ Steady c.st s'

theorem Sealed.sub (S : Sealed a n h c env g val adj) {env' : List Var} (hs : ∀ v ∈ env', v ∈ env) :
    Sealed a n h c env' g val adj :=
  ⟨S.good, S.len, S.head, S.low, S.own, S.zero, fun v hv => S.env v (hs v hv)⟩

/-- begin a region and make the inputs -/
theorem Sealed.opened (S : Sealed a n h c env g val adj) {s1 s2 : St W} {x : List R} {xv : List Var}
    (e1 : (beginNested : M W Unit) c.st = .ok ((), s1)) (e2 : (newVars x : M W (List Var)) s1 = .ok (xv, s2)) :
    ∃ g' val' adj', Sealed a n h ⟨s2, c.env ++ xv, c.env.length :: c.marks⟩ (env ++ xv) g' val' adj' ∧
      TopAt s2 g.nodes.length ∧ s2.level = c.st.level + 1 ∧ s2.nestTape s2.level = c.st.tape.head ∧
      (∀ k ≤ c.st.level, s2.nestVari k = c.st.nestVari k ∧ s2.nestTape k = c.st.nestTape k) := by
  obtain ⟨G, ht, hta, hl, hn, ho⟩ := S.good.opened e1
  have S1 : Sealed a n h ⟨s1, c.env, c.env.length :: c.marks⟩ env g val adj :=
    ⟨G, S.len, by rw [hta]; exact S.head, S.low, S.own, S.zero, S.env⟩
  obtain ⟨g', val', adj', S2, st⟩ := S1.make (m := .newVals x) (by simp [Make.args]) trivial e2
  simp only at S2 st
  refine ⟨g', val', adj', S2, ht.steady st, by rw [st.level, hl], ?_, fun k hk => ?_⟩
  · rw [st.level, st.nt _ (Nat.le_refl _), hn]
  · rw [st.nv k (by omega), st.nt k (by omega)]
    exact ho k hk

/-- the region has been closed -/
theorem Sealed.closed (S : Sealed a n h c env g val adj) {s5 s6 : St W} {k : Nat} {vs env' : List Var}
    (S5 : Sealed a n h ⟨s5, c.env ++ vs, c.env.length :: c.marks⟩ env' g' val' adj') (hk : n ≤ k) (ht : TopAt s5 k)
    (hl : s5.level = c.st.level + 1) (hh : s5.nestTape s5.level = c.st.tape.head)
    (hn : ∀ k ≤ c.st.level, s5.nestVari k = c.st.nestVari k ∧ s5.nestTape k = c.st.nestTape k)
    (e : (endNested : M W Unit) s5 = .ok ((), s6)) :
    ∃ g6, Sealed a n h ⟨s6, c.env, c.marks⟩ env g6 val' adj' ∧ Steady c.st s6 := by
  obtain ⟨b, hle, G, hd, st⟩ := S5.good.closed (c := c) ht hl hn hh e
  have cut : ∀ (j : Nat) (nd : Node R), (g'.cut k b).nodes[j]? = some nd → g'.nodes[j]? = some nd := by
    intro j nd hj
    have := (List.getElem?_eq_some_iff.mp hj).1
    simp only [Graph.cut, List.length_take] at this hj
    rw [List.getElem?_take_of_lt (by omega)] at hj
    exact hj
  refine ⟨_, ⟨G, by simp [Graph.cut]; omega, by simp only; rw [hd]; exact S.head, fun j nd h1 h2 => S5.low j nd h1 (cut j nd h2),
    fun j nd h1 h2 => S5.own j nd h1 (cut j nd h2), fun j nd h1 h2 h3 => S5.zero j nd h1 h2 (cut j nd h3), S.env⟩, st⟩

theorem firstOf_ok {outs : List Var} {v : Var} (e : (firstOf outs : M W Var) s = .ok (v, s')) :
    s' = s ∧ ∃ os, outs = v :: os := by
  cases outs with
  | nil => cases e
  | cons w os => cases e; exact ⟨rfl, os, rfl⟩

theorem Sealed.gradient (hq : Quiet R) {f : Deep R} (hf : Seals f W) (S : Sealed a n h c env g val adj) {es : List Var}
    (he : ∀ v ∈ es, v ∈ env) {x : List R} {r : R × List R}
    (e : Fz.gradient (fun xv => do let outs ← (f.run (xv ++ es) : M W (List Var)); firstOf outs) x c.st = .ok (r, s')) :
    ∃ g' val' adj', Sealed a n h ⟨s', c.env, c.marks⟩ env g' val' adj' ∧ Steady c.st s' := by
  unfold Fz.gradient at e
  obtain ⟨_, s1, e1, e⟩ := bind_inv e
  obtain ⟨xv, s2, e2, e⟩ := bind_inv e
  obtain ⟨fv, s3, e3, e⟩ := bind_inv e
  obtain ⟨y, s4, e4, e⟩ := bind_inv e
  obtain ⟨_, s5, e5, e⟩ := bind_inv e
  obtain ⟨df, s6, e6, e⟩ := bind_inv e
  obtain ⟨_, s7, e7, e⟩ := bind_inv e
  cases e
  obtain ⟨outs, s8, e8, e9⟩ := bind_inv e3
  obtain ⟨rfl, os, rfl⟩ := firstOf_ok e9
  obtain ⟨g2, val2, adj2, S2, ht, hl, hh, hn⟩ := S.opened e1 e2
  obtain ⟨vs, g3, val3, adj3, S3, st⟩ := hf (S2.sub fun v hv => by
    rcases List.mem_append.mp hv with hv | hv
    · exact List.mem_append_right _ hv
    · exact List.mem_append_left _ (he v hv)) e8
  simp only at S3 st
  obtain rfl := Var.val_st e4
  obtain ⟨m, adj5, rfl, S5⟩ := S3.grad hq (v := fv) (by simp) e5
  simp only at S5
  have hx : ∀ v ∈ xv, g3.Has v := fun v hv => S5.good.has v (by simp [hv])
  rw [S5.good.inv.varAdjs hx] at e6
  cases e6
  rw [List.append_assoc] at S5
  have st' := st.trans (Steady.mem _ m)
  obtain ⟨g6, S6, st6⟩ := S.closed S5 S.len (ht.steady st') (by rw [st'.level, hl])
    (by rw [st'.level, st'.nt _ (Nat.le_refl _), hh]) (fun k hk => by
      rw [st'.nv k (by omega), st'.nt k (by omega)]; exact hn k hk) e7
  exact ⟨g6, _, _, S6, st6⟩

theorem Sealed.jacobian (hq : Quiet R) {f : Deep R} (hf : Seals f W) (S : Sealed a n h c env g val adj) {es : List Var}
    (he : ∀ v ∈ es, v ∈ env) {x : List R} {k : Nat} {r : List R × List (List R)}
    (e : Fz.jacobian (fun xv _ => (f.run (xv ++ es) : M W (List Var))) k x c.st = .ok (r, s')) :
    ∃ g' val' adj', Sealed a n h ⟨s', c.env, c.marks⟩ env g' val' adj' ∧ Steady c.st s' := by
  unfold Fz.jacobian at e
  obtain ⟨_, s1, e1, e⟩ := bind_inv e
  obtain ⟨xv, s2, e2, e⟩ := bind_inv e
  obtain ⟨outs, s3, e3, e⟩ := bind_inv e
  obtain ⟨fv, s4, e4, e⟩ := bind_inv e
  obtain ⟨ys, s5, e5, e⟩ := bind_inv e
  obtain ⟨rows, s6, e6, e⟩ := bind_inv e
  obtain ⟨_, s7, e7, e⟩ := bind_inv e
  cases e
  have : fv = outs ∧ s4 = s3 := by
    unfold confN at e4
    split at e4
    · cases e4; exact ⟨rfl, rfl⟩
    · cases e4
  obtain ⟨rfl, rfl⟩ := this
  obtain ⟨g2, val2, adj2, S2, ht, hl, hh, hn⟩ := S.opened e1 e2
  obtain ⟨vs, g3, val3, adj3, S3, st⟩ := hf (S2.sub fun v hv => by
    rcases List.mem_append.mp hv with hv | hv
    · exact List.mem_append_right _ hv
    · exact List.mem_append_left _ (he v hv)) e3
  simp only at S3 st
  obtain rfl := vals_st e5
  have hk : g.nodes.length ≤ g3.nodes.length := by
    obtain ⟨m', ms, n', b', hm, hlv, r1, r2, -⟩ := S3.good.region (by have := (ht.steady st).1; exact this)
    have := (ht.steady st).2.2
    simp only at r1
    omega
  obtain ⟨m, adj5, rfl, S5⟩ := Sealed.rows hq fv S3 (ht.steady st) hk S.len (fun _ hv => hv)
    (fun v hv => by simp [hv]) e6
  simp only at S5
  rw [List.append_assoc] at S5
  have st' := st.trans (Steady.mem _ m)
  obtain ⟨g6, S6, st6⟩ := S.closed S5 S.len (ht.steady st') (by rw [st'.level, hl])
    (by rw [st'.level, st'.nt _ (Nat.le_refl _), hh]) (fun k hk => by
      rw [st'.nv k (by omega), st'.nt k (by omega)]; exact hn k hk) e7
  exact ⟨g6, _, _, S6, st6⟩

theorem deep_seals (hq : Quiet R) (f : Deep R) : f.All Make.Sane → Seals f W := by
  induction f with
  | ret is =>
    intro _ a n h c env g val adj outs s' S e
    unfold Deep.run at e
    split at e
    · rename_i hi
      cases e
      refine ⟨[], g, val, adj, ?_, Steady.refl _⟩
      rw [List.append_nil]
      refine S.sub fun v hv => ?_
      obtain ⟨i, h1, rfl⟩ := List.mem_map.mp hv
      exact nth_mem (hi i h1)
    · cases e
  | make m k ih =>
    intro hs a n h c env g val adj outs s' S e
    unfold Deep.run at e
    split at e
    · rename_i hi
      obtain ⟨vs, s1, e1, e⟩ := bind_inv e
      obtain ⟨g1, val1, adj1, S1, st1⟩ := S.make hi hs.1 e1
      obtain ⟨ws, g2, val2, adj2, S2, st2⟩ := ih hs.2 S1 e
      refine ⟨vs ++ ws, g2, val2, adj2, ?_, st1.trans st2⟩
      rw [← List.append_assoc]
      exact S2
    · cases e
  | look i k ih =>
    intro hs a n h c env g val adj outs s' S e
    unfold Deep.run at e
    split at e
    · obtain ⟨x, s1, e1, e⟩ := bind_inv e
      obtain rfl := Var.val_st e1
      exact ih x (hs x) S e
    · cases e
  | gradient f x is k ihf ihk =>
    intro hs a n h c env g val adj outs s' S e
    unfold Deep.run at e
    split at e
    · rename_i hi
      obtain ⟨r, s1, e1, e⟩ := bind_inv e
      obtain ⟨g1, val1, adj1, S1, st1⟩ := S.gradient hq (ihf hs.1) (fun v hv => by
        obtain ⟨i, h1, rfl⟩ := List.mem_map.mp hv
        exact nth_mem (hi i h1)) e1
      obtain ⟨ws, g2, val2, adj2, S2, st2⟩ := ihk r.1 r.2 (hs.2 _ _) S1 e
      exact ⟨ws, g2, val2, adj2, S2, st1.trans st2⟩
    · cases e
  | jacobian f m x is k ihf ihk =>
    intro hs a n h c env g val adj outs s' S e
    unfold Deep.run at e
    split at e
    · rename_i hi
      obtain ⟨r, s1, e1, e⟩ := bind_inv e
      obtain ⟨g1, val1, adj1, S1, st1⟩ := S.jacobian hq (ihf hs.1) (fun v hv => by
        obtain ⟨i, h1, rfl⟩ := List.mem_map.mp hv
        exact nth_mem (hi i h1)) e1
      obtain ⟨ws, g2, val2, adj2, S2, st2⟩ := ihk r.1 r.2 (hs.2 _ _) S1 e
      exact ⟨ws, g2, val2, adj2, S2, st1.trans st2⟩
    · cases e

end Fz
