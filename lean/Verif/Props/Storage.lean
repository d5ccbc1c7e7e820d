import Verif.Proof.Views
import Verif.Proof.Ground
import Verif.Props.Sweeps

/-!
# C04, C06, C07, C13, C22, C34: creating variables and storing into them

`existing s` are all variables of the state `s`, `seen s v` what can be read about `v`: value, adjoint,
operands and data items (`Spec/View.lean`).  All theorems hold for every interpretation of `real64` and
in every state that a history of API calls can reach (`Reach`).
-/

set_option linter.unusedSectionVars false

namespace Props
open Fz Spec

section generic
variable {W R : Type} [Arith R] [Rep W R] [LawfulRep W R]
variable {h : List (Call R)} {c c' : Client W}

/-- every existing variable can be read -/
theorem seen_ok (hr : Reach h c) {v : Var} (hv : v ∈ existing c.st) :
    ∃ w : View R, seen c.st v = .ok w := by
  obtain ⟨g, val, adj, G⟩ := hr.good
  obtain ⟨nd, h1, _⟩ := ((mem_existing G.inv).mp hv).at
  exact ⟨_, G.inv.seen h1⟩

/-! ## C04, C06: new variables -/

/-- **C04**: as long as there is room, `var(d)` makes one new variable; it has value `d`, adjoint zero, and
no operands or data. -/
theorem C04_new (hr : Reach h c) (d : R) (room : c.st.tape.head + 6 ≤ tapeLimit) :
    ∃ v s', (newVar d : M W Var) c.st = .ok (v, s') ∧ v ∉ existing c.st ∧ v ∈ existing s' ∧
      (∀ u, u ∈ existing s' ↔ u ∈ existing c.st ∨ u = v) ∧ seen s' v = .ok ⟨d, Arith.zero, [], []⟩ := by
  obtain ⟨g, val, adj, G⟩ := hr.good
  obtain ⟨s', e, gr⟩ := G.inv.newVar_ok d room
  have hvh := G.inv.vhead
  have hat : (g.push ⟨c.st.tape.head, [], [], (c.st.varis c.st.vhead).chain, .plain⟩).At ⟨c.st.vhead⟩
      ⟨c.st.tape.head, [], [], (c.st.varis c.st.vhead).chain, .plain⟩ := by
    have := g.at_last ⟨c.st.tape.head, [], [], (c.st.varis c.st.vhead).chain, .plain⟩
    rwa [← hvh] at this
  have hex : ∀ u, u ∈ existing s' ↔ u ∈ existing c.st ∨ u = ⟨c.st.vhead⟩ := by
    intro u
    rw [mem_existing G.inv, mem_existing gr.inv]
    cases u with | mk k => ?_
    simp only [Graph.Has, Graph.push, List.length_append, List.length_singleton, Var.mk.injEq]
    omega
  refine ⟨⟨c.st.vhead⟩, s', e, ?_, (hex _).mpr (Or.inr rfl), hex, ?_⟩
  · rw [mem_existing G.inv]
    simp only [Graph.Has]
    omega
  · rw [gr.inv.seen hat]
    simp [Node.view]

/-- **C04**: whichever API call creates variables (any constructor, operation or function, on scalars,
arrays or matrices), all variables it adds, results and intermediate ones, have adjoint zero, whatever
happened before, also if their storage was used before by a nested region or has just been enlarged. -/
theorem C04_all_results (hr : Reach h c) {m : Make R} (hs : m.Sane) (hx : (Call.make m).exec c = .ok c')
    {v : Var} (hv : v ∈ existing c'.st) (hnew : v ∉ existing c.st) :
    ∃ w : View R, seen c'.st v = .ok w ∧ w.adj = Arith.zero := by
  obtain ⟨g, val, adj, G⟩ := hr.good
  obtain ⟨ha, vs, s', e, rfl⟩ := exec_make' hx
  obtain ⟨g', val', adj', ev, G'⟩ := G.make ha hs e
  rw [mem_existing G.inv] at hnew
  rw [mem_existing G'.inv] at hv
  obtain ⟨nd, h1, h2⟩ := hv.at
  refine ⟨_, G'.inv.seen h1, ?_⟩
  refine (ev.news (v.vi - 1) nd ?_ h1.2).2
  have := hv.1
  unfold Graph.Has at hnew
  omega

theorem newVars_ok : ∀ (ds : List R) {s : St W} {g : Graph R} {val adj : Nat → R}, Inv s g val adj →
    s.tape.head + 6 * ds.length ≤ tapeLimit →
    ∃ vs s' g' val' adj', (newVars ds : M W (List Var)) s = .ok (vs, s') ∧ Evo (fun _ => True) s g val adj s' g' val' adj' ∧
      vs = (List.range ds.length).map (fun k => ⟨g.nodes.length + 1 + k⟩) ∧
      g'.nodes.length = g.nodes.length + ds.length ∧ s'.tape.head = s.tape.head + 6 * ds.length ∧
      List.Forall₂ (fun v d => seen s' v = .ok ⟨d, Arith.zero, [], []⟩) vs ds := by
  intro ds
  induction ds with
  | nil =>
    intro s g val adj hi _
    exact ⟨[], s, g, val, adj, rfl, Evo.refl hi, rfl, by simp, by simp, .nil⟩
  | cons d ds ih =>
    intro s g val adj hi hroom
    simp only [List.length_cons] at hroom
    obtain ⟨s1, e1, gr⟩ := hi.newVar_ok d (by simp only [cap]; simp only [tapeLimit] at hroom; omega)
    have ev1 := Evo.ofGrown (φ := fun _ => True) hi gr rfl (fun _ => rfl) (by simp [Node.args])
    have hl1 : (g.push ⟨s.tape.head, [], [], (s.varis s.vhead).chain, .plain⟩).nodes.length =
        g.nodes.length + 1 := by simp [Graph.push]
    obtain ⟨vs, s2, g2, val2, adj2, e2, ev2, hvs, hlen, hhd, hfa⟩ := ih gr.inv (by
      rw [gr.head]; simp only [Node.len, List.length_nil]; omega)
    have hhas : (g.push ⟨s.tape.head, [], [], (s.varis s.vhead).chain, .plain⟩).At ⟨s.vhead⟩
        ⟨s.tape.head, [], [], (s.varis s.vhead).chain, .plain⟩ := by
      have := g.at_last ⟨s.tape.head, [], [], (s.varis s.vhead).chain, .plain⟩
      rwa [← hi.vhead] at this
    have hsee : seen s2 ⟨s.vhead⟩ = .ok (⟨d, Arith.zero, [], []⟩ : View R) := by
      rw [ev2.seen gr.inv (by rw [hi.vhead]; exact g.has_last _), gr.inv.seen hhas]
      simp [Node.view]
    refine ⟨⟨s.vhead⟩ :: vs, s2, g2, val2, adj2, ?_, ev1.trans ev2, ?_, ?_, ?_, .cons hsee hfa⟩
    · unfold newVars at e2 ⊢
      rw [List.mapM_cons, bind_ok e1, bind_ok e2]
      rfl
    · rw [hvs, hl1, List.length_cons, List.range_succ_eq_map, List.map_cons, List.map_map, hi.vhead]
      congr 1
      apply List.map_congr_left
      intro k _
      simp only [Function.comp_apply, Var.mk.injEq]
      omega
    · rw [hlen, hl1, List.length_cons]; omega
    · rw [hhd, gr.head]; simp only [Node.len, List.length_nil, List.length_cons]; omega

/-- **C04**: an array of new variables `var(ds)` has the values `ds` in order, adjoints zero, no operands. -/
theorem C04_array (hr : Reach h c) (ds : List R) (room : c.st.tape.head + 6 * ds.length ≤ tapeLimit) :
    ∃ vs s', (newVars ds : M W (List Var)) c.st = .ok (vs, s') ∧ vs.Nodup ∧
      (∀ v ∈ vs, v ∉ existing c.st) ∧ (∀ u, u ∈ existing s' ↔ u ∈ existing c.st ∨ u ∈ vs) ∧
      List.Forall₂ (fun v d => seen s' v = .ok ⟨d, Arith.zero, [], []⟩) vs ds := by
  obtain ⟨g, val, adj, G⟩ := hr.good
  obtain ⟨vs, s', g', val', adj', e, ev, hvs, hlen, _, hfa⟩ := newVars_ok ds G.inv room
  refine ⟨vs, s', e, ?_, ?_, ?_, hfa⟩
  · rw [hvs]
    refine List.Nodup.map (fun a b hab => ?_) List.nodup_range
    simp only [Var.mk.injEq] at hab
    omega
  · intro v hv
    rw [mem_existing G.inv]
    rw [hvs] at hv
    obtain ⟨k, _, rfl⟩ := List.mem_map.mp hv
    simp only [Graph.Has]
    omega
  · intro u
    rw [mem_existing G.inv, mem_existing ev.inv, hvs]
    cases u with | mk k => ?_
    simp only [Graph.Has, hlen, List.mem_map, List.mem_range, Var.mk.injEq]
    constructor
    · intro hk
      by_cases h' : k ≤ g.nodes.length
      · exact Or.inl ⟨hk.1, h'⟩
      · exact Or.inr ⟨k - (g.nodes.length + 1), by omega, by omega⟩
    · rintro (hk | ⟨j, hj, rfl⟩) <;> omega

theorem newVar1d_eq : ∀ n, (newVar1d (R := R) n : M W (List Var)) = newVars (List.replicate n (Arith.zero : R))
  | 0 => rfl
  | n + 1 => by
    unfold newVar1d newVars
    rw [List.replicate_succ, List.mapM_cons, newVar1d_eq n]
    rfl

/-- **C04**: the variables of a new array without given values have value and adjoint zero -/
theorem C04_array_default (hr : Reach h c) (n : Nat) (room : c.st.tape.head + 6 * n ≤ tapeLimit) :
    ∃ vs s', (newVar1d (R := R) n : M W (List Var)) c.st = .ok (vs, s') ∧ vs.length = n ∧ vs.Nodup ∧
      (∀ v ∈ vs, v ∉ existing c.st) ∧
      ∀ v ∈ vs, seen s' v = .ok (⟨Arith.zero, Arith.zero, [], []⟩ : View R) := by
  obtain ⟨vs, s', e, hn, hnew, _, hfa⟩ := C04_array hr (List.replicate n (Arith.zero : R))
    (by simpa using room)
  rw [← newVar1d_eq] at e
  have hl := hfa.length_eq
  simp only [List.length_replicate] at hl
  refine ⟨vs, s', e, hl, hn, hnew, ?_⟩
  intro v hv
  obtain ⟨i, hi, rfl⟩ := List.mem_iff_getElem.mp hv
  have := List.forall₂_iff_get.mp hfa
  have := this.2 i hi (by simpa using hl ▸ hi)
  simpa using this

/-- **C06**: whichever API call creates variables, what can be read about every earlier variable stays the
same, and so do all words of the storage in use (among them the index and data blocks of matrix
products), also if the storage or the variable table is enlarged; the earlier variables keep their places. -/
theorem C06_undisturbed (hr : Reach h c) {m : Make R} (hs : m.Sane) (hx : (Call.make m).exec c = .ok c') :
    (∀ v ∈ existing c.st, v ∈ existing c'.st ∧ seen (R := R) c'.st v = seen c.st v ∧
      (c'.st.varis v.vi).i = (c.st.varis v.vi).i) ∧
    ∀ q < c.st.tape.head, c'.st.tape.mem q = c.st.tape.mem q := by
  obtain ⟨g, val, adj, G⟩ := hr.good
  obtain ⟨ha, vs, s', e, rfl⟩ := exec_make' hx
  obtain ⟨g', val', adj', ev, G'⟩ := G.make ha hs e
  refine ⟨fun v hv => ?_, ev.keep.mem⟩
  have hh := (mem_existing G.inv).mp hv
  refine ⟨(mem_existing G'.inv).mpr (ev.hasV hh), ev.seen G.inv hh, ev.keep.idx _ ?_⟩
  have := hh.2
  have := G.inv.vhead
  omega

/-! ## C07, C13: storing -/

/-- what is read after a change of one value -/
theorem seen_upd_val {s : St W} {g : Graph R} {val adj : Nat → R} {mm : Nat → W} (hi : Inv s g val adj)
    {v : Var} (hv : g.Has v) {d : R} (i : Inv (s.withMem mm) g (upd val (g.pos v) d) adj) :
    (∃ w : View R, seen s v = .ok w ∧ seen (s.withMem mm) v = .ok { w with val := d }) ∧
    ∀ u, g.Has u → u ≠ v → seen (R := R) (s.withMem mm) u = seen s u := by
  constructor
  · obtain ⟨nd, h1, h2⟩ := hv.at
    refine ⟨_, hi.seen h1, ?_⟩
    rw [i.seen h1]
    simp [Node.view, h2]
  · intro u hu hne
    obtain ⟨nd, h1, h2⟩ := hu.at
    rw [hi.seen h1, i.seen h1]
    simp only [Node.view]
    rw [upd_ne]
    intro hp
    exact hne (hu.inj hv hi (h2.symm.trans hp))

/-- what is read after a change of one adjoint -/
theorem seen_upd_adj {s : St W} {g : Graph R} {val adj : Nat → R} {mm : Nat → W} (hi : Inv s g val adj)
    {v : Var} (hv : g.Has v) {d : R} (i : Inv (s.withMem mm) g val (upd adj (g.pos v) d)) :
    (∃ w : View R, seen s v = .ok w ∧ seen (s.withMem mm) v = .ok { w with adj := d }) ∧
    ∀ u, g.Has u → u ≠ v → seen (R := R) (s.withMem mm) u = seen s u := by
  constructor
  · obtain ⟨nd, h1, h2⟩ := hv.at
    refine ⟨_, hi.seen h1, ?_⟩
    rw [i.seen h1]
    simp [Node.view, h2]
  · intro u hu hne
    obtain ⟨nd, h1, h2⟩ := hu.at
    rw [hi.seen h1, i.seen h1]
    simp only [Node.view]
    rw [upd_ne]
    intro hp
    exact hne (hu.inj hv hi (h2.symm.trans hp))

/-- **C07**: storing a value into a variable changes that value and nothing that can be read about any
other variable; apart from the two words of the value the whole state stays the same. -/
theorem C07_set_value (hr : Reach h c) {v : Var} (hv : v ∈ existing c.st) (d : R) :
    ∃ s', (setIndexedVal v.vi d : M W Unit) c.st = .ok ((), s') ∧
      (∃ w : View R, seen c.st v = .ok w ∧ seen s' v = .ok { w with val := d }) ∧
      (∀ u ∈ existing c.st, u ≠ v → seen (R := R) s' u = seen c.st u) ∧
      ∃ mem p, s' = c.st.withMem mem ∧ ∀ q, q ≠ p → q ≠ p + 1 → mem q = c.st.tape.mem q := by
  obtain ⟨g, val, adj, G⟩ := hr.good
  have hh := (mem_existing G.inv).mp hv
  obtain ⟨mm, e, i, p, hp⟩ := G.inv.assign_seen hh d
  obtain ⟨h1, h2⟩ := seen_upd_val G.inv hh i
  exact ⟨_, e, h1, fun u hu hne => h2 u ((mem_existing G.inv).mp hu) hne, mm, p, rfl, hp⟩

/-- **C07**: storing an adjoint into a variable changes that adjoint and nothing that can be read about any
other variable; apart from the two words of the adjoint the whole state stays the same. -/
theorem C07_set_adjoint (hr : Reach h c) {v : Var} (hv : v ∈ existing c.st) (d : R) :
    ∃ s', (setIndexedAdj v.vi d : M W Unit) c.st = .ok ((), s') ∧
      (∃ w : View R, seen c.st v = .ok w ∧ seen s' v = .ok { w with adj := d }) ∧
      (∀ u ∈ existing c.st, u ≠ v → seen (R := R) s' u = seen c.st u) ∧
      ∃ mem p, s' = c.st.withMem mem ∧ ∀ q, q ≠ p → q ≠ p + 1 → mem q = c.st.tape.mem q := by
  obtain ⟨g, val, adj, G⟩ := hr.good
  have hh := (mem_existing G.inv).mp hv
  obtain ⟨mm, e, i, p, hp⟩ := G.inv.setAdj_seen hh d
  obtain ⟨h1, h2⟩ := seen_upd_adj G.inv hh i
  exact ⟨_, e, h1, fun u hu hne => h2 u ((mem_existing G.inv).mp hu) hne, mm, p, rfl, hp⟩

/-- **C13**: `x = d` always completes; it makes `d` the value of `x` and changes nothing else: no variable is
created, and no adjoint, operand or other variable changes.  A second handle on the same variable is the
same index, so it reads `d` too. -/
theorem C13_assign (hr : Reach h c) {v : Var} (hv : v ∈ existing c.st) (d : R) :
    ∃ s', (v.assign d : M W Unit) c.st = .ok ((), s') ∧ existing s' = existing c.st ∧
      (∃ w : View R, seen c.st v = .ok w ∧ seen s' v = .ok { w with val := d }) ∧
      (∀ u ∈ existing c.st, u ≠ v → seen (R := R) s' u = seen c.st u) ∧
      ∃ mem p, s' = c.st.withMem mem ∧ ∀ q, q ≠ p → q ≠ p + 1 → mem q = c.st.tape.mem q := by
  obtain ⟨s', e, h1, h2, mem, p, rfl, h3⟩ := C07_set_value hr hv d
  exact ⟨_, e, rfl, h1, h2, mem, p, rfl, h3⟩

/-- the value that an array assignment gives to `v`: the element at the last place where `v` occurs -/
def assignedTo (vs : List Var) (ds : List R) (v : Var) : Option R := (vs.zip ds).reverse.lookup v

theorem assign1d_seen : ∀ (vs : List Var) (ds : List R) {s : St W} {g : Graph R} {val adj : Nat → R},
    Inv s g val adj → (∀ v ∈ vs, g.Has v) → vs.length ≤ ds.length →
    ∃ mem val', (Var.assign1d vs ds : M W Unit) s = .ok ((), s.withMem mem) ∧
      Inv (s.withMem mem) g val' adj ∧
      ∀ u, g.Has u → val' (g.pos u) = (assignedTo vs ds u).getD (val (g.pos u)) := by
  intro vs
  induction vs with
  | nil =>
    intro ds s g val adj hi _ _
    exact ⟨s.tape.mem, val, rfl, hi, fun u _ => rfl⟩
  | cons v vs ih =>
    intro ds s g val adj hi hv hl
    cases ds with
    | nil => simp at hl
    | cons d ds =>
      obtain ⟨m1, e1, i1, _⟩ := hi.assign_seen (hv v (by simp)) d
      obtain ⟨m2, val', e2, i2, hval⟩ := ih ds i1 (fun w hw => hv w (by simp [hw])) (by simpa using hl)
      refine ⟨m2, val', ?_, i2, ?_⟩
      · unfold Var.assign1d
        rw [bind_ok e1, e2]
        rfl
      · intro u hu
        rw [hval u hu]
        unfold assignedTo
        rw [List.zip_cons_cons, List.reverse_cons, List.lookup_append]
        cases hlk : (vs.zip ds).reverse.lookup u with
        | some x => rfl
        | none =>
          simp only [Option.getD_none, Option.none_or]
          by_cases huv : u = v
          · subst huv
            simp
          · rw [upd_ne _ _ (fun hp => huv (hu.inj (hv v (by simp)) hi hp)),
              List.lookup_cons, beq_false_of_ne huv]
            rfl

/-- **C13**: `x(:) = d(:)` assigns element by element (from first to last, so that for a variable that occurs
twice the last element counts); nothing else changes. -/
theorem C13_assign_array (hr : Reach h c) {vs : List Var} (hv : ∀ v ∈ vs, v ∈ existing c.st) (ds : List R)
    (hl : vs.length ≤ ds.length) :
    ∃ s', (Var.assign1d vs ds : M W Unit) c.st = .ok ((), s') ∧ existing s' = existing c.st ∧
      (∃ mem, s' = c.st.withMem mem) ∧
      ∀ u ∈ existing c.st, ∃ w : View R, seen c.st u = .ok w ∧
        seen s' u = .ok { w with val := (assignedTo vs ds u).getD w.val } := by
  obtain ⟨g, val, adj, G⟩ := hr.good
  obtain ⟨mem, val', e, i, hval⟩ := assign1d_seen vs ds G.inv (fun v hm => (mem_existing G.inv).mp (hv v hm)) hl
  refine ⟨_, e, rfl, ⟨mem, rfl⟩, fun u hu => ?_⟩
  have hh := (mem_existing G.inv).mp hu
  obtain ⟨nd, h1, h2⟩ := hh.at
  refine ⟨_, G.inv.seen h1, ?_⟩
  rw [i.seen h1]
  simp only [Node.view]
  rw [h2, hval u hh]

/-- **C13**: `x(:) = d` gives every element the value `d`; nothing else changes. -/
theorem C13_assign_all (hr : Reach h c) {vs : List Var} (hv : ∀ v ∈ vs, v ∈ existing c.st) (d : R) :
    ∃ s', (Var.assign1dFrom0d vs d : M W Unit) c.st = .ok ((), s') ∧ existing s' = existing c.st ∧
      (∃ mem, s' = c.st.withMem mem) ∧
      ∀ u ∈ existing c.st, ∃ w : View R, seen c.st u = .ok w ∧
        seen s' u = .ok { w with val := if u ∈ vs then d else w.val } := by
  have heq : ∀ (vs : List Var), (Var.assign1dFrom0d vs d : M W Unit) = Var.assign1d vs (vs.map fun _ => d) := by
    intro vs
    induction vs with
    | nil => rfl
    | cons v vs ih =>
      show (v.assign d >>= fun _ => Var.assign1dFrom0d vs d : M W Unit) = _
      rw [ih]
      rfl
  have hat : ∀ (vs : List Var) (u : Var), assignedTo vs (vs.map fun _ => d) u = if u ∈ vs then some d else none := by
    intro vs u
    induction vs with
    | nil => rfl
    | cons v vs ih =>
      unfold assignedTo at ih ⊢
      rw [List.map_cons, List.zip_cons_cons, List.reverse_cons, List.lookup_append, ih]
      by_cases h1 : u ∈ vs
      · simp [h1]
      · by_cases h2 : u = v
        · subst h2; simp [h1]
        · simp [h1, h2, List.lookup_cons, beq_false_of_ne h2]
  obtain ⟨s', e, h1, h2, h3⟩ := C13_assign_array hr hv (vs.map fun _ => d) (by simp)
  refine ⟨s', by rw [heq]; exact e, h1, h2, fun u hu => ?_⟩
  obtain ⟨w, e1, e2⟩ := h3 u hu
  refine ⟨w, e1, ?_⟩
  rw [e2, hat]
  split <;> rfl

/-! ## C22: records -/

theorem seen_pos {s : St W} {g : Graph R} {val adj : Nat → R} (hi : Inv s g val adj) {v : Var} (hv : g.Has v) :
    (s.varis v.vi).i = g.pos v := by
  obtain ⟨nd, h1, h2⟩ := hv.at
  have := hi.tab _ _ h1.2
  rw [show v.vi - 1 + 1 = v.vi by have := h1.1; omega] at this
  rw [this, ← h2]

theorem grown_seen {s s' : St W} {g : Graph R} {val adj : Nat → R} {nd : Node R} {x : R} (hi : Inv s g val adj)
    (gr : Inv.Grown s g val adj nd x s') (hp : nd.pos = s.tape.head) {u : Var} (hu : g.Has u) :
    seen (R := R) s' u = seen s u := by
  obtain ⟨y, h1, _⟩ := hu.at
  rw [hi.seen h1, gr.inv.seen (h1.push nd)]
  have hb := (hi.wf.below y h1.mem).2
  simp only [Node.len] at hb
  simp only [Node.view]
  rw [upd_ne _ _ (by omega), upd_ne _ _ (by omega)]

/-- a new record is read back -/
theorem record_back (hr : Reach h c) {push : Tape W → Except Err (Nat × Tape W)} (d : R) {ops : List Var}
    (ho : ∀ v ∈ ops, v ∈ existing c.st) (data : List R)
    (room : c.st.tape.head + (6 + ops.length + 2 * data.length) ≤ tapeLimit)
    (hp : ∀ ids : List Nat, ids.length = ops.length →
      ids = ops.map (fun u => (c.st.varis u.vi).i) → ∃ t', push c.st.tape = .ok (c.st.tape.head, t') ∧
      Tape.Ext c.st.tape t' (Tape.recWords d Arith.zero ids data)) :
    ∃ s', newVariWith push c.st = .ok (c.st.vhead, s') ∧ (⟨c.st.vhead⟩ : Var) ∉ existing c.st ∧
      (⟨c.st.vhead⟩ : Var) ∈ existing s' ∧
      seen s' ⟨c.st.vhead⟩ = .ok ⟨d, Arith.zero, ops.map (fun u => (c.st.varis u.vi).i), data⟩ ∧
      ∀ u ∈ existing c.st, seen (R := R) s' u = seen c.st u := by
  obtain ⟨g, val, adj, G⟩ := hr.good
  have hh : ∀ v ∈ ops, g.Has v := fun v hv => (mem_existing G.inv).mp (ho v hv)
  have hids : ops.map (fun u => (c.st.varis u.vi).i) = ops.map g.pos :=
    List.map_congr_left fun u hu => seen_pos G.inv (hh u hu)
  obtain ⟨s', e, gr⟩ := G.inv.newVariWith_ok (push := push) (v := d)
    (G.inv.canPush_plain hh data (c.st.varis c.st.vhead).chain) rfl
    (by simp only [Node.len, List.length_map]; exact room) (hp _ (by simp) hids.symm)
  have hvh := G.inv.vhead
  have hat := g.at_last ⟨c.st.tape.head, ops.map g.pos, data, (c.st.varis c.st.vhead).chain, .plain⟩
  rw [← hvh] at hat
  refine ⟨s', e, ?_, ?_, ?_, fun u hu => grown_seen G.inv gr rfl ((mem_existing G.inv).mp hu)⟩
  · rw [mem_existing G.inv]
    simp only [Graph.Has]
    omega
  · rw [mem_existing gr.inv, hvh]
    exact g.has_last _
  · rw [gr.inv.seen hat, hids]
    simp [Node.view]

/-- reading the tape indices of operands -/
theorem idxs_run (hr : Reach h c) {ops : List Var} (ho : ∀ v ∈ ops, v ∈ existing c.st) :
    (ops.mapM Var.viIndex : M W (List Nat)) c.st = .ok (ops.map (fun u => (c.st.varis u.vi).i), c.st) := by
  obtain ⟨g, val, adj, G⟩ := hr.good
  have hh : ∀ v ∈ ops, g.Has v := fun v hv => (mem_existing G.inv).mp (ho v hv)
  rw [G.inv.varIdxs hh]
  congr 2
  exact (List.map_congr_left fun u hu => seen_pos G.inv (hh u hu)).symm

/-- **C22**: a variable made from a value, operand variables and data items (`var(d, ops, data)`) is read
back exactly, for every number of operands and data items.  (In `seen` operands are given by the places of
their records.) -/
theorem C22_operands_and_data (hr : Reach h c) (d : R) {ops : List Var} (ho : ∀ v ∈ ops, v ∈ existing c.st)
    (data : List R) (room : c.st.tape.head + (6 + ops.length + 2 * data.length) ≤ tapeLimit) :
    ∃ v s', (newVarOpDop d ops data : M W Var) c.st = .ok (v, s') ∧ v ∉ existing c.st ∧ v ∈ existing s' ∧
      seen s' v = .ok ⟨d, Arith.zero, ops.map (fun u => (c.st.varis u.vi).i), data⟩ ∧
      ∀ u ∈ existing c.st, seen (R := R) s' u = seen c.st u := by
  obtain ⟨g, val, adj, G⟩ := hr.good
  obtain ⟨s', e, h1, h2, h3, h4⟩ := record_back hr
    (push := fun t => t.pushValOpDop d (ops.map (fun u => (c.st.varis u.vi).i)) data) d ho data room
    (fun ids hl hi => hi ▸ Tape.pushValOpDop_ok G.inv.ok d ids data (by rw [hl]; exact room))
  refine ⟨_, s', ?_, h1, h2, h3, h4⟩
  unfold newVarOpDop newVariValOpDop
  rw [bind_ok (idxs_run hr ho), bind_ok e]
  rfl

/-- **C22**: the same for `var(d, ops)` -/
theorem C22_operands (hr : Reach h c) (d : R) {ops : List Var} (ho : ∀ v ∈ ops, v ∈ existing c.st)
    (room : c.st.tape.head + (6 + ops.length) ≤ tapeLimit) :
    ∃ v s', (newVarOp d ops : M W Var) c.st = .ok (v, s') ∧ v ∉ existing c.st ∧ v ∈ existing s' ∧
      seen s' v = .ok ⟨d, Arith.zero, ops.map (fun u => (c.st.varis u.vi).i), []⟩ ∧
      ∀ u ∈ existing c.st, seen (R := R) s' u = seen c.st u := by
  obtain ⟨g, val, adj, G⟩ := hr.good
  obtain ⟨s', e, h1, h2, h3, h4⟩ := record_back hr
    (push := fun t => t.pushValOp d (ops.map (fun u => (c.st.varis u.vi).i))) d ho [] (by simpa using room)
    (fun ids hl hi => hi ▸ Tape.pushValOp_ok G.inv.ok d ids (by rw [hl]; exact room))
  refine ⟨_, s', ?_, h1, h2, h3, h4⟩
  unfold newVarOp newVariValOp
  rw [bind_ok (idxs_run hr ho), bind_ok e]
  rfl

/-- **C22**: the same for `var(d, data)` -/
theorem C22_data (hr : Reach h c) (d : R) (data : List R)
    (room : c.st.tape.head + (6 + 2 * data.length) ≤ tapeLimit) :
    ∃ v s', (newVarDop d data : M W Var) c.st = .ok (v, s') ∧ v ∉ existing c.st ∧ v ∈ existing s' ∧
      seen s' v = .ok ⟨d, Arith.zero, [], data⟩ ∧
      ∀ u ∈ existing c.st, seen (R := R) s' u = seen c.st u := by
  obtain ⟨g, val, adj, G⟩ := hr.good
  obtain ⟨s', e, h1, h2, h3, h4⟩ := record_back hr (ops := [])
    (push := fun t => t.pushValDop d data) d (by simp) data (by simpa using room)
    (fun ids hl hi => by
      subst hi
      exact Tape.pushValDop_ok G.inv.ok d data room)
  refine ⟨_, s', ?_, h1, h2, h3, h4⟩
  unfold newVarDop newVariValDop
  rw [bind_ok e]
  rfl

/-- **C22**: operands may also be given as integers (`var(d, ints)`), whether or not these are places of
records: all numbers of 31 bits are read back as written. -/
theorem C22_integers (hr : Reach h c) (d : R) (ids : List Nat) (hi : ∀ i ∈ ids, i < 2 ^ 31)
    (room : c.st.tape.head + (6 + ids.length) ≤ tapeLimit) :
    ∃ v s', (newVarOpId d ids : M W Var) c.st = .ok (v, s') ∧ v ∉ existing c.st ∧ v ∈ existing s' ∧
      seen s' v = .ok ⟨d, Arith.zero, ids, []⟩ := by
  obtain ⟨g, val, adj, G⟩ := hr.good
  have hlen := G.inv.wf.length_le G.inv.ok.head_pos
  have hvh := G.inv.vhead
  have hcap := G.inv.ok.head_le_cap
  obtain ⟨z, ea, a, b, _⟩ := G.inv.allocVaris_ok (n := 1) (by simp only [cap] at hcap; omega)
  obtain ⟨t', ep, ext⟩ := Tape.pushValOp_ok G.inv.ok d ids room
  have hin : Tape.RecIn t' c.st.tape.head d Arith.zero ids [] := by
    refine ⟨G.inv.ok.head_pos, ?_, ext.ok.size_le, fun o ho => ?_, ?_⟩
    · have h1 := ext.head
      have h2 := ext.ok.head_le
      rw [Tape.recWords_length] at h1
      omega
    · have := hi o ho
      simp only [int32Max]; omega
    · rw [ext.mem]
      exact HasWords.overlay_self
  let s' : St W := ⟨c.st.vhead + 1, z, fun m => if m = c.st.vhead then
    ⟨c.st.tape.head, (c.st.varis c.st.vhead).chain⟩ else c.st.varis m, t', c.st.nestTape, c.st.nestVari, c.st.level⟩
  refine ⟨⟨c.st.vhead⟩, s', ?_, ?_, ?_, ?_⟩
  · unfold newVarOpId newVariValOp newVariWith
    have hg : (Fz.getVari c.st.vhead : M W Vari) { c.st with nVaris := z, tape := t' } =
        .ok (c.st.varis c.st.vhead, { c.st with nVaris := z, tape := t' }) := by
      unfold Fz.getVari
      rw [if_pos (by simp only; omega)]
    have hsv : (setVari c.st.vhead { (c.st.varis c.st.vhead) with i := c.st.tape.head } : M W Unit)
        { c.st with nVaris := z, tape := t' } = .ok ((), { c.st with nVaris := z, tape := t', varis := fun m =>
          if m = c.st.vhead then { (c.st.varis c.st.vhead) with i := c.st.tape.head } else c.st.varis m }) := by
      unfold Fz.setVari
      rw [if_pos (by simp only; omega)]
    refine bind_ok (s' := s') (f := fun k => (pure ⟨k⟩ : M W Var)) ?_
    rw [bind_ok ea, bind_ok (pushTape_ok (s := { c.st with nVaris := z }) ep), bind_ok (get_ok _)]
    show (Fz.getVari c.st.vhead >>= _) _ = _
    rw [bind_ok hg, bind_ok hsv, bind_ok (modify_ok _ _)]
    rfl
  · rw [mem_existing G.inv]
    simp only [Graph.Has]
    omega
  · simp only [existing, List.mem_map, List.mem_range]
    exact ⟨c.st.vhead - 1, by show _ < c.st.vhead + 1 - 1; omega, by
      simp only [Var.mk.injEq]; omega⟩
  · have hg : (Fz.getVari c.st.vhead : M W Vari) s' = .ok (⟨c.st.tape.head, (c.st.varis c.st.vhead).chain⟩, s') := by
      unfold Fz.getVari
      rw [if_pos (by show _ ∧ _ ≤ z; omega)]
      simp [s']
    have e : (query ⟨c.st.vhead⟩ : M W (View R)) s' = .ok (⟨d, Arith.zero, ids, []⟩, s') := by
      have e1 : (Var.val ⟨c.st.vhead⟩ : M W R) s' = .ok (d, s') := by
        unfold Var.val getIndexedVal
        rw [bind_ok hg]
        exact readTape_ok (f := fun t => t.valAt c.st.tape.head) (s := s') hin.valAt
      have e2 : (Var.adj ⟨c.st.vhead⟩ : M W R) s' = .ok (Arith.zero, s') := by
        unfold Var.adj getIndexedAdj
        rw [bind_ok hg]
        exact readTape_ok (f := fun t => t.adjAt c.st.tape.head) (s := s') hin.adjAt
      have e3 : (Vari.operandIndex ⟨c.st.tape.head, (c.st.varis c.st.vhead).chain⟩ : M W (List Nat)) s' =
          .ok (ids, s') :=
        readTape_ok (f := fun t => t.operandIndex c.st.tape.head) (s := s') hin.operandIndex
      have e4 : (Vari.dataOperand ⟨c.st.tape.head, (c.st.varis c.st.vhead).chain⟩ : M W (List R)) s' =
          .ok ([], s') :=
        readTape_ok (f := fun t => t.dataOperand c.st.tape.head) (s := s') hin.dataOperand
      unfold query
      rw [bind_ok e1, bind_ok e2, bind_ok hg, bind_ok e3, bind_ok e4]
      rfl
    unfold seen
    rw [e]

/-! ## C34: growth -/

/-- **C34**: at all times the word storage has size 0 or 12288·2^k, the variable table 0 or 1024·2^k, and
both hold what is in use. -/
theorem C34_capacity (hr : Reach h c) :
    (c.st.tape.size = 0 ∨ ∃ k, c.st.tape.size = 12288 * 2 ^ k) ∧
    (c.st.nVaris = 0 ∨ ∃ k, c.st.nVaris = 1024 * 2 ^ k) ∧
    c.st.tape.head - 1 ≤ c.st.tape.size ∧ (existing c.st).length ≤ c.st.nVaris ∧
    (variStackSize : M W Nat) c.st = .ok (c.st.nVaris, c.st) := by
  obtain ⟨g, val, adj, G⟩ := hr.good
  have := G.inv.ok.head_le
  have := G.inv.vcap
  refine ⟨G.inv.ok.form, G.inv.vform, by omega, ?_, rfl⟩
  simp only [existing, List.length_map, List.length_range]
  omega

theorem snug_least {b old new need : Nat} (hs : Snug b old new need) (hf : new = 0 ∨ ∃ k, new = b * 2 ^ k)
    {k : Nat} (h1 : old ≤ b * 2 ^ k) (h2 : need ≤ b * 2 ^ k) : new ≤ b * 2 ^ k := by
  rcases hs with e | e | e
  · omega
  · rw [e]; exact Nat.le_mul_of_pos_right _ (Nat.two_pow_pos k)
  · rcases hf with f | ⟨j, f⟩
    · omega
    · have hb : 0 < b := by
        rcases Nat.eq_zero_or_pos b with h0 | h0
        · subst h0; simp at h2; omega
        · exact h0
      have hlt : b * 2 ^ j < b * 2 ^ (k + 1) := by rw [Nat.pow_succ, ← Nat.mul_assoc]; omega
      have hj : j < k + 1 := (Nat.pow_lt_pow_iff_right (by omega)).mp (Nat.lt_of_mul_lt_mul_left hlt)
      rw [f]
      exact Nat.mul_le_mul_left b (Nat.pow_le_pow_right (by omega) (by omega))

/-- **C34**: whatever a creating call adds, the word storage and the variable table get the smallest
capacity of the form 12288·2^k and 1024·2^k that is no smaller than before and holds what is in use
afterwards. -/
theorem C34_smallest (hr : Reach h c) {m : Make R} (hs : m.Sane) (hx : (Call.make m).exec c = .ok c') :
    (∀ k, c.st.tape.size ≤ 12288 * 2 ^ k → c'.st.tape.head - 1 ≤ 12288 * 2 ^ k →
      c'.st.tape.size ≤ 12288 * 2 ^ k) ∧
    ∀ k, c.st.nVaris ≤ 1024 * 2 ^ k → (existing c'.st).length ≤ 1024 * 2 ^ k → c'.st.nVaris ≤ 1024 * 2 ^ k := by
  obtain ⟨g, val, adj, G⟩ := hr.good
  obtain ⟨ha, vs, s', e, rfl⟩ := exec_make' hx
  obtain ⟨g', val', adj', ev, G'⟩ := G.make ha hs e
  refine ⟨fun k h1 h2 => snug_least ev.keep.snug G'.inv.ok.form h1 h2,
    fun k h1 h2 => snug_least ev.keep.vsnug G'.inv.vform h1 ?_⟩
  simpa [existing, initVariStackSize] using h2

/-- **C34**: no call ever makes the storage or the variable table smaller. -/
theorem C34_never_shrinks (hr : Reach h c) {k : Call R} (hs : k.Sane) (hx : k.exec c = .ok c') :
    c.st.tape.size ≤ c'.st.tape.size ∧ c.st.nVaris ≤ c'.st.nVaris := by
  obtain ⟨g, val, adj, G⟩ := hr.good
  have hx' := hx
  unfold Call.exec at hx
  split at hx
  case isFalse => cases hx
  rename_i ha
  have hn : ∀ i ∈ k.args, nth c.env i ∈ c.env := fun i hi => nth_mem (ha i hi)
  have hns : ∀ {is : List Nat}, (∀ i ∈ is, i ∈ k.args) → ∀ v ∈ is.map (nth c.env), v ∈ c.env := by
    intro is his v hv
    obtain ⟨i, hi, rfl⟩ := List.mem_map.mp hv
    exact hn i (his i hi)
  cases k with
  | make m =>
    obtain ⟨ha, vs, s', e, rfl⟩ := exec_make' hx'
    obtain ⟨g', val', adj', ev, G'⟩ := G.make ha hs e
    exact ⟨ev.keep.size, ev.keep.nVaris⟩
  | assign i d => obtain ⟨-, m, rfl⟩ := G.assign (hn i (by simp [Call.args])) d hx; exact ⟨le_refl _, le_refl _⟩
  | assignArr is ds =>
    obtain ⟨-, ⟨m, rfl⟩, -⟩ := G.assignArr (hns fun i hi => hi) ds hx; exact ⟨le_refl _, le_refl _⟩
  | assignAll is d =>
    obtain ⟨-, m, rfl⟩ := G.assignAll (hns fun i hi => hi) d hx; exact ⟨le_refl _, le_refl _⟩
  | grad i => obtain ⟨-, -, m, rfl⟩ := G.grad (hn i (by simp [Call.args])) hx; exact ⟨le_refl _, le_refl _⟩
  | gradNested i =>
    obtain ⟨_, -, -, -, -, -, m, rfl⟩ := G.gradNested (hn i (by simp [Call.args])) hx
    exact ⟨le_refl _, le_refl _⟩
  | zeroAll => obtain ⟨_, -, -, m, rfl⟩ := G.zeroAll hx; exact ⟨le_refl _, le_refl _⟩
  | zeroNested => obtain ⟨_, _, -, -, -, -, -, -, m, rfl⟩ := G.zeroNested hx; exact ⟨le_refl _, le_refl _⟩
  | begin => obtain ⟨-, -, -, -, e⟩ := G.begin hx; rw [e]; exact ⟨le_refl _, le_refl _⟩
  | done =>
    rcases G.done hx with ⟨_, rfl⟩ | ⟨_, _, _, _, _, _, _, _, _, _, _, _, _, _, _, e1, _, _, e2, _⟩
    · exact ⟨le_refl _, le_refl _⟩
    · omega

/-- **C34**: `var(d)` fails only if the word storage would have to grow beyond 12288·2^17 words (the next
doubling is not a 32-bit number), and then it does. -/
theorem C34_only_failure (hr : Reach h c) (d : R) (e : Err) :
    (newVar d : M W Var) c.st = .error e ↔ e = .overflow ∧ 12288 * 2 ^ 17 < c.st.tape.head - 1 + 6 := by
  obtain ⟨g, val, adj, G⟩ := hr.good
  have hp := G.inv.ok.head_pos
  by_cases hroom : c.st.tape.head + 6 ≤ tapeLimit
  · obtain ⟨v, s', ok, _⟩ := C04_new hr d hroom
    rw [ok]
    simp only [tapeLimit] at hroom
    constructor
    · intro h'; cases h'
    · rintro ⟨-, h2⟩; omega
  · have hlen := G.inv.wf.length_le hp
    have hvh := G.inv.vhead
    have hcap := G.inv.ok.head_le_cap
    obtain ⟨z, ea, _⟩ := G.inv.allocVaris_ok (n := 1) (by simp only [cap] at hcap; omega)
    have hpush : (c.st.tape.pushVal d : Except Err _) = .error .overflow := by
      unfold Tape.pushVal
      simp only [minRecSize]
      rw [Tape.alloc_fail _ _ G.inv.ok (by simp only [cap, tapeLimit] at *; omega)]
      rfl
    have hfail : (newVar d : M W Var) c.st = .error .overflow := by
      unfold newVar newVariVal newVariWith
      refine bind_err ?_
      rw [bind_ok ea]
      exact bind_err (show pushTape (fun t => t.pushVal d) _ = _ by simp only [pushTape, hpush])
    rw [hfail]
    simp only [Except.error.injEq]
    simp only [tapeLimit] at hroom
    constructor
    · intro h'; exact ⟨h'.symm, by omega⟩
    · rintro ⟨rfl, -⟩; rfl

end generic

/-! ## concrete cases

After `demo` (`x = var(2); y = var(3); z = x*y; call z%grad()`) the next call is `z*z`. -/

theorem demo_next : ∃ c c' : Client ℝ, Reach demo c ∧ (Call.make (R := ℝ) (.bin .mul 2 2)).exec c = .ok c' ∧
    c.st.tape.head = 21 ∧ existing c.st = [⟨1⟩, ⟨2⟩, ⟨3⟩] ∧ existing c'.st = [⟨1⟩, ⟨2⟩, ⟨3⟩, ⟨4⟩] := by
  obtain ⟨c, hr, he, -, H⟩ := demo_here (W := ℝ)
  obtain ⟨s', e, H'⟩ := H.binary (v := ⟨3⟩) (w := ⟨3⟩) (by simp [Graph.Has, demoG]) (by simp [Graph.Has, demoG])
    (Arith.mul (R := ℝ)) .mulVV (by simp [cap])
  refine ⟨c, ⟨s', c.env ++ [⟨4⟩], c.marks⟩, hr, ?_, H.head, ?_, ?_⟩
  · refine exec_make (by simp [Make.args, he]) ?_
    simp only [Make.call, he]
    exact bind_ok (f := fun v => pure [v]) e
  · simp [existing, H.inv.vhead, demoG, List.range_succ]
  · simp [existing, H'.inv.vhead, demoG, Graph.push, List.range_succ]

/-- C04, C22, C34: the hypotheses of `C04_new`, `C04_array`, `C22_*`, `C34_capacity` hold after `demo` -/
example : ∃ c : Client ℝ, Reach demo c ∧ c.st.tape.head + (6 + [(⟨1⟩ : Var), ⟨3⟩].length + 2 * [(5 : ℝ)].length) ≤ tapeLimit ∧
    ∀ v ∈ [(⟨1⟩ : Var), ⟨3⟩], v ∈ existing c.st := by
  obtain ⟨c, c', hr, hx, hh, he, he'⟩ := demo_next
  exact ⟨c, hr, by rw [hh]; simp [tapeLimit], by simp [he]⟩

/-- C04, C06, C34: a new variable and an old one -/
example : ∃ c c' : Client ℝ, Reach demo c ∧ (Make.bin (R := ℝ) .mul 2 2).Sane ∧
    (Call.make (R := ℝ) (.bin .mul 2 2)).exec c = .ok c' ∧ (⟨4⟩ : Var) ∈ existing c'.st ∧ (⟨4⟩ : Var) ∉ existing c.st ∧
    (⟨1⟩ : Var) ∈ existing c.st := by
  obtain ⟨c, c', hr, hx, hh, he, he'⟩ := demo_next
  exact ⟨c, c', hr, trivial, hx, by simp [he'], by simp [he], by simp [he]⟩

/-- C07, C13: after `demo`, two distinct variables, and an array in which one occurs twice -/
example : ∃ c : Client ℝ, Reach demo c ∧ (⟨1⟩ : Var) ∈ existing c.st ∧ (⟨2⟩ : Var) ∈ existing c.st ∧
    (⟨2⟩ : Var) ≠ ⟨1⟩ ∧ (∀ v ∈ [(⟨1⟩ : Var), ⟨2⟩, ⟨1⟩], v ∈ existing c.st) ∧
    assignedTo [⟨1⟩, ⟨2⟩, ⟨1⟩] [(5 : ℝ), 6, 7] ⟨1⟩ = some 7 := by
  obtain ⟨c, c', hr, hx, hh, he, he'⟩ := demo_next
  exact ⟨c, hr, by simp [he], by simp [he], by simp, by simp [he], rfl⟩

end Props
