import Verif.Proof.SafeOps
import Verif.Spec.History

/-!
# The invariant along every history of library calls
-/

set_option linter.unusedSectionVars false

namespace Fz
variable {W R : Type} [Arith R] [Rep W R] [LawfulRep W R]
open Arith Spec
variable {φ : Nat → Prop} {s s' s'' : St W} {g g' g'' : Graph R} {val adj val' adj' val'' adj'' : Nat → R}

/-! ## creating calls -/

theorem safe_single {m : M W Var} (h : Safe φ s g val adj m (HasR φ)) : Safe φ s g val adj (single m) (HasL φ) := by
  refine Safe.bind h fun r s' g' val' adj' ev hr => Safe.pure ev.inv ?_
  intro v hv
  simp only [List.mem_singleton] at hv
  exact hv ▸ hr

theorem safe_fn (h : Inv s g val adj) {v : Var} (hv : g.HasF φ v) (f : Fn) :
    Safe φ s g val adj (f.api v : M W Var) (HasR φ) := by
  cases f
  case pos => exact safe_posV h hv
  case neg => exact safe_negV h hv
  case abs => exact safe_absV h hv
  case acosh => exact safe_acoshV h hv
  case atanh => exact safe_atanhV h hv
  all_goals first
    | exact safe_unary h hv _ (by decide)
    | exact safe_unaryData h hv _ _ (by decide)
    | (unfold Fn.api; simp only; exact safe_unary h hv _ (by decide))

theorem safe_binVV (h : Inv s g val adj) {v w : Var} (hv : g.HasF φ v) (hw : g.HasF φ w) (f : Bin) :
    Safe φ s g val adj (f.callVV v w : M W Var) (HasR φ) := by
  cases f <;> exact safe_binary h hv hw _ (by decide)

theorem safe_elemental2 (f : Bin) : ∀ (as bs : List Var) {s : St W} {g : Graph R} {val adj : Nat → R},
    Inv s g val adj → (∀ v ∈ as, g.HasF φ v) → (∀ v ∈ bs, g.HasF φ v) →
    Safe φ s g val adj (elemental2 (f.callVV : Var → Var → M W Var) as bs) (HasL φ)
  | [], [], _, _, _, _, h, _, _ => Safe.pure h (by simp [HasL])
  | [], _ :: _, _, _, _, _, _, _, _ => Safe.fail _
  | _ :: _, [], _, _, _, _, _, _, _ => Safe.fail _
  | a :: as, b :: bs, s, g, val, adj, h, ha, hb => by
    unfold elemental2
    refine Safe.bind (safe_binVV h (ha a (by simp)) (hb b (by simp)) f) fun r s1 g1 val1 adj1 ev hr => ?_
    refine Safe.bind (safe_elemental2 f as bs ev.inv (fun v hv => ev.hasF (ha v (by simp [hv])))
      fun v hv => ev.hasF (hb v (by simp [hv]))) fun rs s2 g2 val2 adj2 ev2 hrs => ?_
    refine Safe.pure ev2.inv ?_
    intro v hv
    rcases List.mem_cons.mp hv with rfl | hv
    · exact ev2.hasF hr
    · exact hrs v hv

theorem nth_has {env : List Var} (he : ∀ v ∈ env, g.Has v) {i : Nat} (hi : i < env.length) :
    g.Has (nth env i) := by
  unfold nth
  rw [List.getD_eq_getElem?_getD, List.getElem?_eq_getElem hi]
  exact he _ (List.getElem_mem hi)

theorem nth_has_list {env : List Var} {is : List Nat}
    (hi : ∀ i ∈ is, g.HasF φ (nth env i)) : ∀ v ∈ is.map (nth env), g.HasF φ v := by
  intro v hv
  simp only [List.mem_map] at hv
  obtain ⟨i, hm, rfl⟩ := hv
  exact hi i hm

theorem mat_has {env : List Var} {a : Matrix' Nat}
    (hi : ∀ i ∈ a.list, g.HasF φ (nth env i)) :
    MatHasF φ g ⟨a.nrow, a.ncol, fun i j => nth env (a.get i j)⟩ := by
  intro i hi' j hj'
  refine hi _ ?_
  unfold Matrix'.list entries
  simp only [List.mem_map, List.mem_flatMap, List.mem_range]
  exact ⟨(i, j), ⟨j, hj', i, hi', rfl⟩, rfl⟩

theorem make_safe (h : Inv s g val adj) {env : List Var} (m : Make R)
    (ha : ∀ i ∈ m.args, g.HasF φ (nth env i)) (hs : m.Sane) : Safe φ s g val adj (m.call env : M W (List Var)) (HasL φ) := by
  cases m with
  | new0 => exact safe_single (safe_newVar0 h)
  | new d => exact safe_single (safe_newVar h d)
  | newVals ds => exact safe_newVars h ds
  | newArr n => exact safe_newVar1d n h
  | fn f i => exact safe_single (safe_fn h (ha i (by simp [Make.args])) f)
  | fnArr f is =>
    have hv := nth_has_list (is := is) ha
    exact safe_mapM _ h fun v hm s' g' val' adj' ev => safe_fn ev.inv (ev.hasF (hv v hm)) f
  | bin f i j =>
    exact safe_single (safe_binVV h (ha i (by simp [Make.args]))
      (ha j (by simp [Make.args])) f)
  | binArr f is js =>
    exact safe_elemental2 f _ _ h (nth_has_list fun i hi => ha i (by simp [Make.args, hi]))
      (nth_has_list fun i hi => ha i (by simp [Make.args, hi]))
  | binVD f i d =>
    have hi := (ha i (by simp [Make.args]))
    refine safe_single ?_
    cases f
    · exact safe_addVD h hi d
    · exact safe_subVD h hi d
    · exact safe_mulVD h hi d
    · exact safe_divVD h hi d
    · exact safe_powVD h hi d
    · exact safe_hypotVD h hi d hs
  | binDV f d i =>
    have hi := (ha i (by simp [Make.args]))
    refine safe_single ?_
    cases f
    · exact safe_addDV h hi d
    · exact safe_unary h hi _ (by decide)
    · exact safe_mulDV h hi d
    · exact safe_unaryData h hi _ _ (by decide)
    · exact safe_unaryData h hi _ _ (by decide)
    · exact safe_hypotDV h hi d hs
  | sum is => exact safe_single (safe_reduceV h (nth_has_list ha) _ (by decide))
  | norm2 is => exact safe_single (safe_reduceV h (nth_has_list ha) _ (by decide))
  | logSumExp is => exact safe_single (safe_reduceV h (nth_has_list ha) _ (by decide))
  | dotVV is js =>
    exact safe_single (safe_dotVV h (nth_has_list fun i hi => ha i (by simp [Make.args, hi]))
      (nth_has_list fun i hi => ha i (by simp [Make.args, hi])))
  | dotVD is ds => exact safe_single (safe_dotVD h (nth_has_list ha) ds)
  | dotDV ds is => exact safe_single (safe_dotDV h (nth_has_list ha) ds)
  | matmulVV a b =>
    simp only [Make.Sane] at hs
    exact safe_matmulVV h (mat_has fun i hi => ha i (by simp [Make.args, hi]))
      (mat_has fun i hi => ha i (by simp [Make.args, hi]))
      (by simp only [int32Max]; omega) (by simp only [int32Max]; omega)
      (by simp only [int32Max]; omega) (by simp only [int32Max]; omega)
  | matmulVD a b =>
    simp only [Make.Sane] at hs
    exact safe_matmulVD h (mat_has ha)
      (by simp only [int32Max]; omega) (by simp only [int32Max]; omega)
      (by simp only [int32Max]; omega) (by simp only [int32Max]; omega)
  | matmulDV a b =>
    simp only [Make.Sane] at hs
    exact safe_matmulDV h (mat_has ha)
      (by simp only [int32Max]; omega) (by simp only [int32Max]; omega)
      (by simp only [int32Max]; omega) (by simp only [int32Max]; omega)
  | lpdfVV d ys m' s' =>
    have h1 := (ha m' (by simp [Make.args]))
    have h2 := (ha s' (by simp [Make.args]))
    refine safe_single ?_
    cases d
    · exact safe_lpdfVV h h1 h2 _ _ _ _
    · exact safe_lpdfVV h h1 h2 _ _ _ _
  | lpdfVD d ys m' s' =>
    have h1 := (ha m' (by simp [Make.args]))
    refine safe_single ?_
    cases d
    · exact safe_lpdfVD h h1 _ _ _ _
    · exact safe_lpdfVD h h1 _ _ _ _
  | lpdfDV d ys m' s' =>
    have h1 := (ha s' (by simp [Make.args]))
    refine safe_single ?_
    cases d
    · exact safe_lpdfDV h h1 _ _ _ _
    · exact safe_lpdfDV h h1 _ _ _ _
  | partials x is ds => exact safe_single (safe_varWithPartials h (nth_has_list ha) x ds)
  | user x r is ds => exact safe_single (safe_userOp h (nth_has_list ha) x r ds)

/-! ## nested regions -/

/-- the first `n` records and `b` blocks -/
def Graph.cut (g : Graph R) (n b : Nat) : Graph R := ⟨g.nodes.take n, g.blocks.take b⟩

theorem Graph.Prefix.cut (h : g.Prefix g') {n b : Nat} (hn : n ≤ g.nodes.length)
    (hb : b ≤ g.blocks.length) : g'.cut n b = g.cut n b := by
  obtain ⟨t, ht⟩ := h.nodes
  obtain ⟨u, hu⟩ := h.blocks
  unfold Graph.cut
  rw [← ht, ← hu, List.take_append_of_le_length hn, List.take_append_of_le_length hb]

theorem Graph.cut_prefix (g : Graph R) (n b : Nat) : (g.cut n b).Prefix g :=
  ⟨List.take_prefix _ _, List.take_prefix _ _⟩

theorem Graph.erase_cut (g : Graph R) (n b : Nat) : (g.cut n b).erase = g.erase.cut n b := by
  simp [Graph.cut, Graph.erase, List.map_take]

theorem Graph.cut_all (g : Graph R) : g.cut g.nodes.length g.blocks.length = g := by
  simp [Graph.cut]

theorem Graph.erase_erase (g : Graph R) : g.erase.erase = g.erase := by
  simp [Graph.erase, Function.comp_def]

theorem Graph.wf_erase {hd : Nat} : g.erase.WF hd ↔ g.WF hd := by
  have mem : ∀ {x : Node R}, x ∈ g.erase.nodes ↔ ∃ y ∈ g.nodes, { y with chain := .dummy } = x := by
    intro x; simp [Graph.erase]
  have mk : ∀ {y : Node R}, y ∈ g.nodes → ({ y with chain := .dummy } : Node R) ∈ g.erase.nodes :=
    fun hy => mem.mpr ⟨_, hy, rfl⟩
  constructor
  · intro h
    refine ⟨?_, ?_, ?_, ?_, ?_, h.bbelow, h.bgood, ?_⟩
    · have := h.sorted
      simp only [Graph.erase, List.pairwise_map] at this
      exact this
    · intro nd hn
      have := h.below _ (mk hn)
      exact this
    · intro nd hn p hp
      obtain ⟨a, x, hx, e⟩ := h.args _ (mk hn) p hp
      obtain ⟨y, hy, rfl⟩ := mem.mp hx
      exact ⟨a, y, hy, e⟩
    · intro nd hn
      have := h.opsSmall _ (mk hn)
      exact this
    · intro nd hn
      have := h.kinds _ (mk hn)
      exact this
    · intro b hb nd hn
      have := h.bdisj b hb _ (mk hn)
      exact this
  · intro h
    refine ⟨?_, ?_, ?_, ?_, ?_, h.bbelow, h.bgood, ?_⟩
    · simp only [Graph.erase, List.pairwise_map]
      exact h.sorted
    · intro nd hn
      obtain ⟨y, hy, rfl⟩ := mem.mp hn
      exact h.below y hy
    · intro nd hn p hp
      obtain ⟨y, hy, rfl⟩ := mem.mp hn
      obtain ⟨a, x, hx, e⟩ := h.args y hy p hp
      exact ⟨a, _, mem.mpr ⟨x, hx, rfl⟩, e⟩
    · intro nd hn
      obtain ⟨y, hy, rfl⟩ := mem.mp hn
      exact h.opsSmall y hy
    · intro nd hn
      obtain ⟨y, hy, rfl⟩ := mem.mp hn
      exact h.kinds y hy
    · intro b hb nd hn
      obtain ⟨y, hy, rfl⟩ := mem.mp hn
      exact h.bdisj b hb y hy

/-- the saved positions of the open nested regions describe a prefix of the graph -/
def NestOK (nv nt : Nat → Nat) : List Nat → Graph R → Nat → List Var → Prop
  | [], _, _, _ => True
  | m :: ms, g, hd, env => ∃ n b, nv (ms.length + 1) = n + 1 ∧ n ≤ g.nodes.length ∧ b ≤ g.blocks.length ∧
      (g.cut n b).WF (nt (ms.length + 1)) ∧ 1 ≤ nt (ms.length + 1) ∧ nt (ms.length + 1) ≤ hd ∧
      m ≤ env.length ∧ (∀ v ∈ env.take m, v.vi ≤ n) ∧
      NestOK nv nt ms (g.cut n b) (nt (ms.length + 1)) (env.take m)

theorem NestOK.mono {nv nt : Nat → Nat} {ms : List Nat} {hd hd' : Nat} {env : List Var}
    (h : NestOK nv nt ms g hd env) (hp : g.Prefix g') (hh : hd ≤ hd') (vs : List Var) :
    NestOK nv nt ms g' hd' (env ++ vs) := by
  cases ms with
  | nil => trivial
  | cons m ms =>
    obtain ⟨n, b, h1, h2, h3, h4, h5, h6, h7, h8, h9⟩ := h
    have hc := hp.cut h2 h3
    have ht : (env ++ vs).take m = env.take m := List.take_append_of_le_length h7
    refine ⟨n, b, h1, Nat.le_trans h2 hp.nodes.length_le, Nat.le_trans h3 hp.blocks.length_le, ?_, h5,
      Nat.le_trans h6 hh, by simp; omega, ?_, ?_⟩
    · rw [hc]; exact h4
    · rw [ht]; exact h8
    · rw [hc, ht]; exact h9

theorem NestOK.congr {nv nt nv' nt' : Nat → Nat} : ∀ {ms : List Nat} {g : Graph R} {hd : Nat}
    {env : List Var}, NestOK nv nt ms g hd env → (∀ k ≤ ms.length, nv' k = nv k) →
    (∀ k ≤ ms.length, nt' k = nt k) → NestOK nv' nt' ms g hd env := by
  intro ms
  induction ms with
  | nil => intros; trivial
  | cons m ms ih =>
    intro g hd env ⟨n, b, h1, h2, h3, h4, h5, h6, h7, h8, h9⟩ e1 e2
    have a1 := e1 (ms.length + 1) (by simp)
    have a2 := e2 (ms.length + 1) (by simp)
    refine ⟨n, b, a1.trans h1, h2, h3, ?_, ?_, ?_, h7, h8, ?_⟩
    · rw [a2]; exact h4
    · rw [a2]; exact h5
    · rw [a2]; exact h6
    · rw [a2]
      exact ih h9 (fun k hk => e1 k (by simp; omega)) fun k hk => e2 k (by simp; omega)

/-- the invariant of clients -/
structure Good (c : Client W) (g : Graph R) (val adj : Nat → R) : Prop where
  inv : Inv c.st g val adj
  cok : ∀ nd ∈ g.nodes, nd.ChainOK
  has : ∀ v ∈ c.env, g.Has v
  lvl : c.st.level = c.marks.length
  max : c.st.level ≤ maxNestedStack
  nest : NestOK c.st.nestVari c.st.nestTape c.marks g.erase c.st.tape.head c.env

theorem good_init (val adj : Nat → R) : Good (Client.init : Client W) Graph.empty val adj :=
  ⟨inv_init val adj, by simp [Graph.empty], by simp [Client.init], rfl, by simp [Client.init, St.init],
    trivial⟩

theorem nth_mem {env : List Var} {i : Nat} (hi : i < env.length) : nth env i ∈ env := by
  unfold nth
  rw [List.getD_eq_getElem?_getD, List.getElem?_eq_getElem hi]
  exact List.getElem_mem hi

variable {c c' : Client W}

theorem Good.makeF (h : Good c g val adj) {m : Make R} (ha : ∀ i ∈ m.args, i < c.env.length)
    (hf : ∀ i ∈ m.args, φ (g.pos (nth c.env i))) (hφ : ∀ p, c.st.tape.head ≤ p → φ p)
    (hs : m.Sane) {vs : List Var} {s' : St W} (hrun : m.call c.env c.st = .ok (vs, s')) :
    ∃ g' val' adj', Evo φ c.st g val adj s' g' val' adj' ∧ (∀ v ∈ vs, g'.HasF φ v) ∧ Good ⟨s', c.env ++ vs, c.marks⟩ g' val' adj' := by
  obtain ⟨g', val', adj', ev, hr⟩ := make_safe h.inv m
    (fun i hi => ⟨nth_has h.has (ha i hi), hf i hi⟩) hs hφ vs s' hrun
  refine ⟨g', val', adj', ev, hr, ev.inv, ev.cok h.cok, ?_, ev.keep.level.trans h.lvl, ?_, ?_⟩
  · intro v hv
    rcases List.mem_append.mp hv with hv | hv
    · exact ev.hasV (h.has v hv)
    · exact (hr v hv).has
  · have := ev.keep.level
    have := h.max
    simp only; omega
  · show NestOK s'.nestVari s'.nestTape _ _ _ _
    rw [ev.keep.nestVari, ev.keep.nestTape]
    exact h.nest.mono ev.pre ev.head vs

theorem Good.make (h : Good c g val adj) {m : Make R} (ha : ∀ i ∈ m.args, i < c.env.length)
    (hs : m.Sane) {vs : List Var} {s' : St W} (hrun : m.call c.env c.st = .ok (vs, s')) :
    ∃ g' val' adj', Evo (fun _ => True) c.st g val adj s' g' val' adj' ∧ Good ⟨s', c.env ++ vs, c.marks⟩ g' val' adj' := by
  obtain ⟨g', val', adj', ev, -, gd⟩ := h.makeF ha (fun _ _ => trivial) (fun _ _ => trivial) hs hrun
  exact ⟨g', val', adj', ev, gd⟩

/-- only values and adjoints change -/
theorem Good.upd (h : Good c g val adj) {m : Nat → W} {val' adj' : Nat → R}
    (hi : Inv (c.st.withMem m) g val' adj') : Good ⟨c.st.withMem m, c.env, c.marks⟩ g val' adj' :=
  ⟨hi, h.cok, h.has, h.lvl, h.max, h.nest⟩

theorem keep_ok {c c' : Client W} {m : M W Unit} (h : c.keep m = .ok c') :
    ∃ s', m c.st = .ok ((), s') ∧ c' = ⟨s', c.env, c.marks⟩ := by
  unfold Client.keep at h
  split at h
  · rename_i s' e
    cases h
    exact ⟨_, e, rfl⟩
  · cases h

theorem Good.assign (h : Good c g val adj) {v : Var} (hv : v ∈ c.env) (d : R)
    (hrun : c.keep (v.assign d) = .ok c') :
    Good c' g (Fz.upd val (g.pos v) d) adj ∧ ∃ m, c' = ⟨c.st.withMem m, c.env, c.marks⟩ := by
  obtain ⟨s', e, rfl⟩ := keep_ok hrun
  obtain ⟨m, e', i⟩ := h.inv.assign_ok (h.has v hv) d
  rw [e'] at e
  cases e
  exact ⟨h.upd i, m, rfl⟩

/-- the values after assigning the `ds` one after the other -/
def assigned (val : Nat → R) : List Nat → List R → Nat → R
  | p :: ps, d :: ds => assigned (Fz.upd val p d) ps ds
  | _, _ => val

theorem assign1d_ok : ∀ (vs : List Var) (ds : List R) {s s' : St W} {val : Nat → R}, Inv s g val adj →
    (∀ v ∈ vs, g.Has v) → (Var.assign1d vs ds : M W Unit) s = .ok ((), s') →
    ∃ m, s' = s.withMem m ∧ Inv s' g (assigned val (vs.map g.pos) ds) adj ∧ vs.length ≤ ds.length := by
  intro vs
  induction vs with
  | nil => intro ds s s' val h _ e; cases e; exact ⟨s.tape.mem, rfl, h, by simp⟩
  | cons v vs ih =>
    intro ds s s' val h hv e
    cases ds with
    | nil => cases e
    | cons d ds =>
      obtain ⟨m, e1, i⟩ := h.assign_ok (hv v (by simp)) d
      unfold Var.assign1d at e
      rw [bind_ok e1] at e
      obtain ⟨m', rfl, i', hl⟩ := ih ds i (fun w hw => hv w (by simp [hw])) e
      exact ⟨m', rfl, i', by simpa using hl⟩

theorem assign1dFrom0d_ok (d : R) : ∀ (vs : List Var) {s s' : St W} {val : Nat → R}, Inv s g val adj →
    (∀ v ∈ vs, g.Has v) → (Var.assign1dFrom0d vs d : M W Unit) s = .ok ((), s') →
    ∃ m, s' = s.withMem m ∧ Inv s' g (assigned val (vs.map g.pos) (vs.map fun _ => d)) adj := by
  intro vs
  induction vs with
  | nil => intro s s' val h _ e; cases e; exact ⟨s.tape.mem, rfl, h⟩
  | cons v vs ih =>
    intro s s' val h hv e
    obtain ⟨m, e1, i⟩ := h.assign_ok (hv v (by simp)) d
    unfold Var.assign1dFrom0d at e
    replace e : (v.assign d >>= fun _ => Var.assign1dFrom0d vs d : M W Unit) s = _ := e
    rw [bind_ok e1] at e
    obtain ⟨m', rfl, i'⟩ := ih i (fun w hw => hv w (by simp [hw])) e
    exact ⟨m', rfl, i'⟩

theorem Good.assignArr (h : Good c g val adj) {vs : List Var} (hv : ∀ v ∈ vs, v ∈ c.env) (ds : List R)
    (hrun : c.keep (Var.assign1d vs ds) = .ok c') :
    Good c' g (assigned val (vs.map g.pos) ds) adj ∧ (∃ m, c' = ⟨c.st.withMem m, c.env, c.marks⟩) ∧
      vs.length ≤ ds.length := by
  obtain ⟨s', e, rfl⟩ := keep_ok hrun
  obtain ⟨m, rfl, i, hl⟩ := assign1d_ok vs ds h.inv (fun v hm => h.has v (hv v hm)) e
  exact ⟨h.upd i, ⟨m, rfl⟩, hl⟩

theorem Good.assignAll (h : Good c g val adj) {vs : List Var} (hv : ∀ v ∈ vs, v ∈ c.env) (d : R)
    (hrun : c.keep (Var.assign1dFrom0d vs d) = .ok c') :
    Good c' g (assigned val (vs.map g.pos) (vs.map fun _ => d)) adj ∧
      ∃ m, c' = ⟨c.st.withMem m, c.env, c.marks⟩ := by
  obtain ⟨s', e, rfl⟩ := keep_ok hrun
  obtain ⟨m, rfl, i⟩ := assign1dFrom0d_ok d vs h.inv (fun v hm => h.has v (hv v hm)) e
  exact ⟨h.upd i, m, rfl⟩

/-- a completed sweep over the records from the `n`-th on -/
theorem sweep_from (h : Inv s g val adj) (hok : ∀ nd ∈ g.nodes, nd.ChainOK ∨ nd.Fits val) {n : Nat}
    (hn : n ≤ g.nodes.length) (e : (chainLoop (n + 1) (s.vhead - (n + 1)) : M W Unit) s = .ok ((), s')) :
    (∀ nd ∈ g.nodes.drop n, nd.Fits val) ∧ ∃ m, s' = s.withMem m ∧
      Inv s' g val (sweep val (g.nodes.drop n) adj) := by
  have hvh := h.vhead
  have hl : s.vhead - (n + 1) = g.nodes.length - n := by omega
  rw [hl] at e
  have ht : (g.nodes.drop n).take (g.nodes.length - n) = g.nodes.drop n :=
    List.take_of_length_le (by simp)
  have hf := chainLoop_fits hok n (g.nodes.length - n) h (by omega) e
  obtain ⟨m, e', i⟩ := Inv.chainLoop_ok n (g.nodes.length - n) h (by omega) hf
  rw [ht] at hf i
  rw [e'] at e
  cases e
  exact ⟨hf, m, rfl, i⟩

theorem initDependent_ok (h : Inv s g val adj) {v : Var} {nd : Node R} (hv : g.At v nd) :
    ∃ m, (Vari.initDependent ⟨nd.pos, nd.chain⟩ : M W Unit) s = .ok ((), s.withMem m) ∧
      Inv (s.withMem m) g val (Fz.upd adj nd.pos one) := by
  obtain ⟨m, e, i⟩ := h.setAdj hv.mem one
  exact ⟨m, modTape_ok (f := fun t => t.setAdjAt nd.pos one) (s := s) e, i⟩

/-- a completed `grad` -/
theorem grad_run (h : Inv s g val adj) (hok : ∀ nd ∈ g.nodes, nd.ChainOK ∨ nd.Fits val) {v : Var}
    (hv : g.Has v) (e : (v.grad : M W Unit) s = .ok ((), s')) :
    (∀ nd ∈ g.nodes, nd.Fits val) ∧ ∃ m, s' = s.withMem m ∧
      Inv s' g val (sweep val g.nodes (Fz.upd adj (g.pos v) one)) := by
  obtain ⟨nd, h1, h2⟩ := hv.at
  obtain ⟨m, e1, i1⟩ := initDependent_ok h h1
  unfold Var.grad at e
  rw [bind_ok (h.getV h1), bind_ok e1, bind_ok (get_ok _)] at e
  obtain ⟨hf, m', rfl, i⟩ := sweep_from i1 hok (n := 0) (by omega) e
  simp only [List.drop_zero] at hf i
  rw [h2] at i
  exact ⟨hf, m', rfl, i⟩

theorem Good.grad (h : Good c g val adj) {v : Var} (hv : v ∈ c.env) (hrun : c.keep v.grad = .ok c') :
    (∀ nd ∈ g.nodes, nd.Fits val) ∧ Good c' g val (sweep val g.nodes (Fz.upd adj (g.pos v) one)) ∧
      ∃ m, c' = ⟨c.st.withMem m, c.env, c.marks⟩ := by
  obtain ⟨s', e, rfl⟩ := keep_ok hrun
  obtain ⟨hf, m', rfl, i⟩ := grad_run h.inv (fun nd hn => Or.inl (h.cok nd hn)) (h.has v hv) e
  exact ⟨hf, h.upd i, m', rfl⟩

/-- the innermost open region -/
theorem Good.region (h : Good c g val adj) (hl : 0 < c.st.level) :
    ∃ m ms n b, c.marks = m :: ms ∧ c.st.level = ms.length + 1 ∧ c.st.nestVari c.st.level = n + 1 ∧
      n ≤ g.nodes.length ∧ b ≤ g.blocks.length ∧ (g.cut n b).WF (c.st.nestTape c.st.level) ∧
      1 ≤ c.st.nestTape c.st.level ∧ c.st.nestTape c.st.level ≤ c.st.tape.head ∧
      m ≤ c.env.length ∧ (∀ v ∈ c.env.take m, v.vi ≤ n) ∧
      NestOK c.st.nestVari c.st.nestTape ms (g.cut n b).erase (c.st.nestTape c.st.level) (c.env.take m) := by
  have hlv := h.lvl
  have hn := h.nest
  cases hm : c.marks with
  | nil => rw [hm] at hlv; simp at hlv; omega
  | cons m ms =>
    rw [hm] at hn hlv
    simp only [List.length_cons] at hlv
    obtain ⟨n, b, h1, h2, h3, h4, h5, h6, h7, h8, h9⟩ := hn
    rw [← hlv] at h1 h4 h5 h6 h9
    refine ⟨m, ms, n, b, rfl, hlv, h1, by simpa using h2, h3, ?_, h5, h6, h7, h8, ?_⟩
    · rw [← Graph.erase_cut] at h4
      exact Graph.wf_erase.mp h4
    · rw [Graph.erase_cut]; exact h9

theorem Good.gradNested (h : Good c g val adj) {v : Var} (hv : v ∈ c.env)
    (hrun : c.keep v.gradNested = .ok c') :
    ∃ n, 0 < c.st.level ∧ c.st.nestVari c.st.level = n + 1 ∧ n ≤ g.nodes.length ∧
      (∀ nd ∈ g.nodes.drop n, nd.Fits val) ∧
      Good c' g val (sweep val (g.nodes.drop n) (Fz.upd adj (g.pos v) one)) ∧
      ∃ m, c' = ⟨c.st.withMem m, c.env, c.marks⟩ := by
  obtain ⟨s', e, rfl⟩ := keep_ok hrun
  obtain ⟨nd, h1, h2⟩ := (h.has v hv).at
  obtain ⟨m, e1, i1⟩ := initDependent_ok h.inv h1
  unfold Var.gradNested currNestedVariHead at e
  rw [bind_ok (h.inv.getV h1), bind_ok e1] at e
  have hmax := h.max
  have hvh := h.inv.vhead
  by_cases hl : 0 < c.st.level
  · obtain ⟨mk, ms, n, b, hm, hlv, r1, r2, _⟩ := h.region hl
    have e2 : (do let s ← get
                  if 0 < s.level then rdNest s.nestVari s.level else Pure.pure 0 : M W Nat) (c.st.withMem m) =
        .ok (n + 1, c.st.withMem m) := by
      rw [bind_ok (get_ok _)]
      show (if 0 < c.st.level then rdNest c.st.nestVari c.st.level else Pure.pure 0 : M W Nat) _ = _
      rw [if_pos hl]
      unfold rdNest
      rw [if_pos ⟨hl, hmax⟩, r1]
      rfl
    rw [bind_ok e2, bind_ok (get_ok _)] at e
    obtain ⟨hf, m', rfl, i⟩ := sweep_from i1 (fun nd hn => Or.inl (h.cok nd hn)) r2 e
    rw [h2] at i
    exact ⟨n, hl, r1, r2, hf, h.upd i, m', rfl⟩
  · exfalso
    have e2 : (do let s ← get
                  if 0 < s.level then rdNest s.nestVari s.level else Pure.pure 0 : M W Nat) (c.st.withMem m) =
        .ok (0, c.st.withMem m) := by
      rw [bind_ok (get_ok _)]
      show (if 0 < c.st.level then rdNest c.st.nestVari c.st.level else Pure.pure 0 : M W Nat) _ = _
      rw [if_neg hl]
      rfl
    rw [bind_ok e2, bind_ok (get_ok _)] at e
    have : ∀ (n : Nat) {s s' : St W} {adj : Nat → R}, Inv s g val adj → n ≤ g.nodes.length →
        (chainLoop 0 (n + 1) : M W Unit) s ≠ .ok ((), s') := by
      intro n
      induction n with
      | zero =>
        intro s s' adj hi _ e
        unfold chainLoop at e
        have : (Fz.getVari 0 : M W Vari) s = .error .oob := by
          unfold Fz.getVari
          rw [if_neg (by omega)]
        rw [show 0 + 0 = 0 from rfl, bind_err this] at e
        cases e
      | succ n ih =>
        intro s s' adj hi hle e
        have hlt : n < g.nodes.length := by omega
        have hmem : g.nodes[n] ∈ g.nodes := List.getElem_mem hlt
        have hg := hi.getVari (List.getElem?_eq_getElem hlt)
        unfold chainLoop at e
        rw [show 0 + (n + 1) = n + 1 by omega, bind_ok hg] at e
        cases hc : (g.nodes[n]).contrib val adj with
        | none =>
          obtain ⟨er, he⟩ := hi.runChain_err hmem (h.cok _ hmem) hc
          rw [bind_err he] at e
          cases e
        | some l =>
          obtain ⟨m, e', iv⟩ := hi.runChain hmem hc
          rw [bind_ok e'] at e
          exact ih iv (by omega) e
    have hx : (c.st.withMem m).vhead - 0 = g.nodes.length + 1 := by
      show c.st.vhead - 0 = _; omega
    rw [hx] at e
    exact this _ i1 (Nat.le_refl _) e

theorem Good.zeroAll (h : Good c g val adj) (hrun : c.keep (setZeroAllAdj (W := W)) = .ok c') :
    ∃ adj', Good c' g val adj' ∧ (∀ nd ∈ g.nodes, adj' nd.pos = zero) ∧
      ∃ m, c' = ⟨c.st.withMem m, c.env, c.marks⟩ := by
  obtain ⟨s', e, rfl⟩ := keep_ok hrun
  obtain ⟨m, adj', e', i, hz⟩ := h.inv.setZeroAllAdj_ok
  rw [e'] at e
  cases e
  exact ⟨adj', h.upd i, hz, m, rfl⟩

theorem Good.zeroNested (h : Good c g val adj) (hrun : c.keep (setZeroNestedAdj (W := W)) = .ok c') :
    ∃ n adj', 0 < c.st.level ∧ c.st.nestVari c.st.level = n + 1 ∧ n ≤ g.nodes.length ∧
      Good c' g val adj' ∧ (∀ nd ∈ g.nodes.drop n, adj' nd.pos = zero) ∧
      (∀ nd ∈ g.nodes.take n, adj' nd.pos = adj nd.pos) ∧
      ∃ m, c' = ⟨c.st.withMem m, c.env, c.marks⟩ := by
  obtain ⟨s', e, rfl⟩ := keep_ok hrun
  unfold setZeroNestedAdj at e
  rw [bind_ok (get_ok _)] at e
  have hmax := h.max
  have hvh := h.inv.vhead
  by_cases hl : 0 < c.st.level
  · obtain ⟨mk, ms, n, b, hm, hlv, r1, r2, _⟩ := h.region hl
    have e2 : (rdNest c.st.nestVari c.st.level : M W Nat) c.st = .ok (n + 1, c.st) := by
      unfold rdNest; rw [if_pos ⟨hl, hmax⟩, r1]; rfl
    have hx : c.st.vhead - (n + 1) = g.nodes.length - n := by omega
    rw [bind_ok e2, hx] at e
    obtain ⟨m, adj', e3, i, hz, hk⟩ := Inv.zeroAdjLoop_ok n (g.nodes.length - n) h.inv (by omega)
    rw [e3] at e
    cases e
    have ht : (g.nodes.drop n).take (g.nodes.length - n) = g.nodes.drop n :=
      List.take_of_length_le (by simp)
    rw [ht] at hz hk
    refine ⟨n, adj', hl, r1, r2, h.upd i, hz, ?_, m, rfl⟩
    intro nd hn
    refine hk _ fun x hx => ?_
    have hs := h.inv.wf.sorted
    rw [← List.take_append_drop n g.nodes, List.pairwise_append] at hs
    have := hs.2.2 nd hn x hx
    simp only [Node.len] at this
    omega
  · exfalso
    have e2 : (rdNest c.st.nestVari c.st.level : M W Nat) c.st = .error .oob := by
      unfold rdNest; rw [if_neg (by omega)]; rfl
    rw [bind_err e2] at e
    cases e

theorem Good.begin (h : Good c g val adj) (hrun : (Call.begin : Call R).step c = .ok c') :
    Good c' g val adj ∧ c.st.level < maxNestedStack ∧ c'.env = c.env ∧
      c'.marks = c.env.length :: c.marks ∧
      c'.st = ⟨c.st.vhead, c.st.nVaris, c.st.varis, c.st.tape,
        fun k => if k = c.st.level + 1 then c.st.tape.head else c.st.nestTape k,
        fun k => if k = c.st.level + 1 then c.st.vhead else c.st.nestVari k, c.st.level + 1⟩ := by
  unfold Call.step at hrun
  by_cases hl : c.st.level < maxNestedStack
  · simp only [beginNested_ok c.st hl] at hrun
    cases hrun
    refine ⟨⟨h.inv.nest _ _ _, h.cok, h.has, by simp [h.lvl], hl, ?_⟩, hl, rfl, rfl, rfl⟩
    have hlv := h.lvl
    refine ⟨g.nodes.length, g.blocks.length, ?_, by simp, Nat.le_refl _, ?_, ?_, ?_, Nat.le_refl _, ?_, ?_⟩
    · simp [← hlv, h.inv.vhead]
    · simp only [← hlv, if_true]
      rw [← Graph.erase_cut, Graph.cut_all]
      exact Graph.wf_erase.mpr h.inv.wf
    · simp only [← hlv, if_true]
      exact h.inv.ok.head_pos
    · simp [← hlv]
    · intro v hv
      rw [List.take_length] at hv
      exact (h.has v hv).2
    · rw [← Graph.erase_cut, Graph.cut_all, List.take_length]
      simp only [← hlv, if_true]
      refine h.nest.congr ?_ ?_
      · intro k hk; rw [if_neg (by omega)]
      · intro k hk; rw [if_neg (by omega)]
  · have : (beginNested : M W Unit) c.st = .error .oob := by
      unfold beginNested
      simp only
      rw [if_neg (by omega)]
    simp only [this] at hrun
    cases hrun

theorem zeroLoop_fits {t t' : Tape W} {lo n : Nat} (h : t.zeroLoop lo (n + 1) = .ok t') :
    lo + n ≤ t.size := by
  unfold Tape.zeroLoop Tape.wr at h
  by_contra hc
  rw [if_neg (by omega)] at h
  cases h

theorem Good.done (h : Good c g val adj) (hrun : (Call.done : Call R).step c = .ok c') :
    (c.st.level = 0 ∧ c' = c) ∨
    ∃ m ms n b, c.marks = m :: ms ∧ c.st.level = ms.length + 1 ∧ c.st.nestVari c.st.level = n + 1 ∧
      n ≤ g.nodes.length ∧ (∀ v ∈ c.env.take m, v.vi ≤ n) ∧ m ≤ c.env.length ∧
      Good c' (g.cut n b) val adj ∧ c'.env = c.env.take m ∧ c'.marks = ms ∧
      c.st.nestTape c.st.level ≤ c.st.tape.head ∧
      c'.st.vhead = n + 1 ∧ c'.st.nVaris = c.st.nVaris ∧ c'.st.varis = c.st.varis ∧
      c'.st.tape.head = c.st.nestTape c.st.level ∧ c'.st.tape.size = c.st.tape.size ∧
      (∀ k, k ≠ c.st.level → c'.st.nestTape k = c.st.nestTape k ∧ c'.st.nestVari k = c.st.nestVari k) := by
  have hmax := h.max
  by_cases hl : 0 < c.st.level
  · right
    obtain ⟨m, ms, n, b, hm, hlv, r1, r2, r3, r4, r5, r6, r7, r8, r9⟩ := h.region hl
    have hfull : c.st.tape.head ≤ c.st.tape.size := by
      unfold Call.step at hrun
      by_contra hc
      have : (endNested : M W Unit) c.st = .error .oob := by
        unfold endNested
        rw [bind_ok (get_ok _), if_pos hl]
        have q1 : (rdNest c.st.nestTape c.st.level : M W Nat) c.st =
            .ok (c.st.nestTape c.st.level, c.st) := by
          unfold rdNest; rw [if_pos ⟨hl, hmax⟩]; rfl
        have q2 : (rdNest c.st.nestVari c.st.level : M W Nat) c.st =
            .ok (c.st.nestVari c.st.level, c.st) := by
          unfold rdNest; rw [if_pos ⟨hl, hmax⟩]; rfl
        rw [bind_ok q1, bind_ok q2]
        have q3 : (modTape fun t => t.zeroLoop (c.st.nestTape c.st.level)
            (t.head + 1 - c.st.nestTape c.st.level) : M W Unit) c.st = .error .oob := by
          have : c.st.tape.head + 1 - c.st.nestTape c.st.level =
              (c.st.tape.head - c.st.nestTape c.st.level) + 1 := by omega
          simp only [modTape, this]
          unfold Tape.zeroLoop Tape.wr
          rw [if_neg (by omega)]
          rfl
        exact bind_err q3
      simp only [this] at hrun
      cases hrun
    have hcut : (g.cut n b).nodes.length = n := by simp [Graph.cut]; omega
    obtain ⟨s', e, i, a1, a2, a3, a4, a5, a6, a7⟩ := endNested_ok h.inv (g.cut_prefix n b) r4 r5 r6 hfull hl
      hmax rfl (by rw [hcut]; exact r1)
    unfold Call.step at hrun
    simp only [e, hm] at hrun
    cases hrun
    rw [hcut] at a4
    refine ⟨m, ms, n, b, hm, hlv, r1, r2, r8, r7, ?_, rfl, rfl, r6, a4, a5, a6, a2, a3, a7⟩
    refine ⟨i, ?_, ?_, ?_, ?_, ?_⟩
    · intro nd hn
      exact h.cok nd (List.mem_of_mem_take hn)
    · intro v hv
      refine ⟨(h.has v (List.mem_of_mem_take hv)).1, ?_⟩
      rw [hcut]
      exact r8 v hv
    · show s'.level = ms.length
      omega
    · show s'.level ≤ _
      omega
    · show NestOK s'.nestVari s'.nestTape ms _ s'.tape.head _
      rw [a2]
      exact r9.congr (fun k hk => (a7 k (by omega)).2) fun k hk => (a7 k (by omega)).1
  · left
    have hl0 : c.st.level = 0 := by omega
    refine ⟨hl0, ?_⟩
    have hm : c.marks = [] := by
      have := h.lvl
      cases hm : c.marks with
      | nil => rfl
      | cons a as => rw [hm] at this; simp at this; omega
    have : (endNested : M W Unit) c.st = .ok ((), c.st) := by
      unfold endNested
      rw [bind_ok (get_ok _), if_neg hl]
      rfl
    unfold Call.step at hrun
    simp only [this, hm] at hrun
    cases hrun
    cases c
    simp_all

/-- every call keeps the invariant -/
theorem Good.exec (h : Good c g val adj) {k : Call R} (hs : k.Sane) (hrun : k.exec c = .ok c') :
    ∃ (g' : Graph R) (val' adj' : Nat → R), Good c' g' val' adj' := by
  unfold Call.exec at hrun
  split at hrun
  case isFalse => cases hrun
  rename_i ha
  cases k with
  | make m =>
    unfold Call.step at hrun
    simp only at hrun
    cases hc : m.call c.env c.st with
    | error e => rw [hc] at hrun; cases hrun
    | ok p =>
      obtain ⟨vs, s'⟩ := p
      rw [hc] at hrun
      cases hrun
      obtain ⟨g', val', adj', _, hg⟩ := h.make ha hs hc
      exact ⟨g', val', adj', hg⟩
  | assign i d => exact ⟨_, _, _, (h.assign (nth_mem (ha i (by simp [Call.args]))) d hrun).1⟩
  | assignArr is ds =>
    exact ⟨_, _, _, (h.assignArr (fun v hv => by
      simp only [List.mem_map] at hv
      obtain ⟨i, hi, rfl⟩ := hv
      exact nth_mem (ha i hi)) ds hrun).1⟩
  | assignAll is d =>
    exact ⟨_, _, _, (h.assignAll (fun v hv => by
      simp only [List.mem_map] at hv
      obtain ⟨i, hi, rfl⟩ := hv
      exact nth_mem (ha i hi)) d hrun).1⟩
  | grad i => exact ⟨_, _, _, (h.grad (nth_mem (ha i (by simp [Call.args]))) hrun).2.1⟩
  | gradNested i =>
    obtain ⟨n, _, _, _, _, hg, _⟩ := h.gradNested (nth_mem (ha i (by simp [Call.args]))) hrun
    exact ⟨_, _, _, hg⟩
  | zeroAll =>
    obtain ⟨adj', hg, _⟩ := h.zeroAll hrun
    exact ⟨_, _, _, hg⟩
  | zeroNested =>
    obtain ⟨n, adj', _, _, _, hg, _⟩ := h.zeroNested hrun
    exact ⟨_, _, _, hg⟩
  | begin => exact ⟨_, _, _, (h.begin hrun).1⟩
  | done =>
    rcases h.done hrun with ⟨_, rfl⟩ | ⟨m, ms, n, b, _, _, _, _, _, _, hg, _⟩
    · exact ⟨_, _, _, h⟩
    · exact ⟨_, _, _, hg⟩

theorem run_cons (k : Call R) (ks : List (Call R)) (c : Client W) :
    run (k :: ks) c = k.exec c >>= fun c => run ks c := rfl

/-- every history keeps the invariant -/
theorem Good.run : ∀ (ks : List (Call R)) {c c' : Client W} {g : Graph R} {val adj : Nat → R},
    Good c g val adj → (∀ k ∈ ks, k.Sane) → Spec.run ks c = .ok c' →
    ∃ (g' : Graph R) (val' adj' : Nat → R), Good c' g' val' adj' := by
  intro ks
  induction ks with
  | nil => intro c c' g val adj h _ e; cases e; exact ⟨g, val, adj, h⟩
  | cons k ks ih =>
    intro c c' g val adj h hs e
    rw [run_cons] at e
    cases hk : k.exec c with
    | error x => rw [hk] at e; cases e
    | ok c1 =>
      rw [hk] at e
      obtain ⟨g1, val1, adj1, h1⟩ := h.exec (hs k (by simp)) hk
      exact ih h1 (fun k hk => hs k (by simp [hk])) e

theorem _root_.Spec.Reach.good {ks : List (Call R)} (h : Reach ks c) :
    ∃ (g : Graph R) (val adj : Nat → R), Good c g val adj :=
  Good.run ks (good_init (fun _ => zero) (fun _ => zero)) h.1 h.2

end Fz
