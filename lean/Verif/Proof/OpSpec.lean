import Verif.Proof.Create

/-!
# What each library function does to the tape, for every interpretation of `real64`
-/

set_option linter.unusedSectionVars false

namespace Fz
variable {W R : Type} [Arith R] [Rep W R] [LawfulRep W R]
open Arith

/-- `v` is a variable of the graph -/
def Graph.Has (g : Graph R) (v : Var) : Prop := 1 ≤ v.vi ∧ v.vi ≤ g.nodes.length

/-- tape position of a variable -/
def Graph.pos (g : Graph R) (v : Var) : Nat := ((g.nodes[v.vi - 1]?).map Node.pos).getD 0

namespace Graph
variable {g : Graph R} {v : Var}

theorem Has.at (h : g.Has v) : ∃ nd, g.At v nd ∧ nd.pos = g.pos v := by
  have hlt : v.vi - 1 < g.nodes.length := by have := h.1; have := h.2; omega
  exact ⟨g.nodes[v.vi - 1], ⟨h.1, List.getElem?_eq_getElem hlt⟩, by simp [Graph.pos, hlt]⟩

theorem At.has {nd : Node R} (h : g.At v nd) : g.Has v :=
  ⟨h.1, by have := (List.getElem?_eq_some_iff.mp h.2).1; omega⟩

theorem At.pos_eq {nd : Node R} (h : g.At v nd) : g.pos v = nd.pos := by
  simp [Graph.pos, h.2]

theorem Has.mem_pos (h : g.Has v) : ∃ nd ∈ g.nodes, nd.pos = g.pos v := by
  obtain ⟨nd, h1, h2⟩ := h.at
  exact ⟨nd, h1.mem, h2⟩

theorem Has.push (h : g.Has v) (nd : Node R) : (g.push nd).Has v :=
  ⟨h.1, by have := h.2; simp [Graph.push]; omega⟩

theorem pos_push (h : g.Has v) (nd : Node R) : (g.push nd).pos v = g.pos v := by
  obtain ⟨x, h1, h2⟩ := h.at
  rw [(h1.push nd).pos_eq, h2]

theorem has_last (g : Graph R) (nd : Node R) : (g.push nd).Has ⟨g.nodes.length + 1⟩ :=
  ⟨by simp, by simp [Graph.push]⟩

theorem pos_last (g : Graph R) (nd : Node R) : (g.push nd).pos ⟨g.nodes.length + 1⟩ = nd.pos :=
  (g.at_last nd).pos_eq

theorem Has.setChain (h : g.Has v) (k : Nat) (c : Chain) : (g.setChain k c).Has v :=
  ⟨h.1, by simpa [Graph.setChain] using h.2⟩

theorem pos_setChain (v : Var) (k : Nat) (c : Chain) : (g.setChain k c).pos v = g.pos v := by
  simp only [Graph.pos, Graph.setChain, List.getElem?_modify]
  cases g.nodes[v.vi - 1]? with
  | none => rfl
  | some y => by_cases h : k = v.vi - 1 <;> simp [h]

theorem pos_pushB (b : Block R) (v : Var) : (g.pushB b).pos v = g.pos v := rfl
theorem Has.pushB (h : g.Has v) (b : Block R) : (g.pushB b).Has v := h

/-- a tape position lies below the head -/
theorem WF.pos_lt {hd : Nat} (wf : g.WF hd) (h : g.Has v) : 1 ≤ g.pos v ∧ g.pos v + 6 ≤ hd := by
  obtain ⟨nd, h1, h2⟩ := h.mem_pos
  have := wf.below nd h1
  simp only [Node.len] at this
  omega

end Graph

namespace Inv
variable {s : St W} {g : Graph R} {val adj : Nat → R}

theorem getV (h : Inv s g val adj) {v : Var} {nd : Node R} (hv : g.At v nd) :
    (Fz.getVari v.vi : M W Vari) s = .ok (⟨nd.pos, nd.chain⟩, s) := by
  have := h.getVari hv.2
  rwa [show v.vi - 1 + 1 = v.vi by have := hv.1; omega] at this

theorem varVal (h : Inv s g val adj) {v : Var} (hv : g.Has v) :
    (v.val : M W R) s = .ok (val (g.pos v), s) := by
  obtain ⟨nd, h1, h2⟩ := hv.at
  rw [← h2]
  unfold Var.val getIndexedVal
  rw [bind_ok (h.getV h1)]
  exact h.valM h1.mem _

theorem varAdj (h : Inv s g val adj) {v : Var} (hv : g.Has v) :
    (v.adj : M W R) s = .ok (adj (g.pos v), s) := by
  obtain ⟨nd, h1, h2⟩ := hv.at
  rw [← h2]
  unfold Var.adj getIndexedAdj
  rw [bind_ok (h.getV h1)]
  exact h.adjM h1.mem _

theorem varIdx (h : Inv s g val adj) {v : Var} (hv : g.Has v) :
    (v.viIndex : M W Nat) s = .ok (g.pos v, s) := by
  obtain ⟨nd, h1, h2⟩ := hv.at
  rw [← h2]
  unfold Var.viIndex variIndex
  rw [bind_ok (h.getV h1)]
  rfl

theorem varIdxs (h : Inv s g val adj) {vs : List Var} (hv : ∀ v ∈ vs, g.Has v) :
    (vs.mapM Var.viIndex : M W (List Nat)) s = .ok (vs.map g.pos, s) :=
  mapM_M_ok vs fun v hm => h.varIdx (hv v hm)

theorem varVals (h : Inv s g val adj) {vs : List Var} (hv : ∀ v ∈ vs, g.Has v) :
    (vals vs : M W (List R)) s = .ok (vs.map fun v => val (g.pos v), s) :=
  mapM_M_ok vs fun v hm => h.varVal (hv v hm)

theorem varAdjs (h : Inv s g val adj) {vs : List Var} (hv : ∀ v ∈ vs, g.Has v) :
    (adjs vs : M W (List R)) s = .ok (vs.map fun v => adj (g.pos v), s) :=
  mapM_M_ok vs fun v hm => h.varAdj (hv v hm)

theorem canPush_plain (h : Inv s g val adj) {vs : List Var} (hv : ∀ v ∈ vs, g.Has v) (ds : List R)
    (c : Chain) : CanPush g s.tape.head ⟨s.tape.head, vs.map g.pos, ds, c, .plain⟩ := by
  refine ⟨rfl, ?_, ?_, trivial⟩
  · intro p hp
    simp only [Node.args, List.mem_map] at hp
    obtain ⟨v, hm, rfl⟩ := hp
    exact (hv v hm).mem_pos
  · intro o ho
    simp only [List.mem_map] at ho
    obtain ⟨v, hm, rfl⟩ := ho
    have := (h.wf.pos_lt (hv v hm)).2
    have := h.ok.head_le
    have := h.ok.size_le
    omega

/-- `var(x, vs)` followed by `set_chain(c)` -/
theorem newOp (h : Inv s g val adj) {vs : List Var} (hv : ∀ v ∈ vs, g.Has v) (x : R) (c : Chain)
    (hcap : s.tape.head + (6 + vs.length) ≤ cap) :
    ∃ s', (do let w ← newVarOp x vs; w.setChain c; pure w : M W Var) s = .ok (⟨s.vhead⟩, s') ∧
      Grown s g val adj ⟨s.tape.head, vs.map g.pos, [], c, .plain⟩ x s' := by
  obtain ⟨s1, s2, e1, e2, gr⟩ := h.create_ok (push := fun t => t.pushValOp x (vs.map g.pos)) (v := x)
    (h.canPush_plain hv [] c) (by simpa [Node.len] using hcap)
    (Tape.pushValOp_ok h.ok x (vs.map g.pos) (by simpa using hcap))
  refine ⟨s2, ?_, gr⟩
  have e3 : (newVarOp x vs : M W Var) s = .ok (⟨s.vhead⟩, s1) := by
    unfold newVarOp newVariValOp
    rw [bind_ok (h.varIdxs hv), bind_ok e1]
    rfl
  rw [bind_ok e3, bind_ok e2]
  rfl

/-- `var(x, vs, ds)` followed by `set_chain(c)` -/
theorem newOpDop (h : Inv s g val adj) {vs : List Var} (hv : ∀ v ∈ vs, g.Has v) (x : R) (ds : List R)
    (c : Chain) (hcap : s.tape.head + (6 + vs.length + 2 * ds.length) ≤ cap) :
    ∃ s', (do let w ← newVarOpDop x vs ds; w.setChain c; pure w : M W Var) s = .ok (⟨s.vhead⟩, s') ∧
      Grown s g val adj ⟨s.tape.head, vs.map g.pos, ds, c, .plain⟩ x s' := by
  obtain ⟨s1, s2, e1, e2, gr⟩ := h.create_ok (push := fun t => t.pushValOpDop x (vs.map g.pos) ds)
    (v := x) (h.canPush_plain hv ds c) (by simpa [Node.len] using hcap)
    (Tape.pushValOpDop_ok h.ok x (vs.map g.pos) ds (by simpa using hcap))
  refine ⟨s2, ?_, gr⟩
  have e3 : (newVarOpDop x vs ds : M W Var) s = .ok (⟨s.vhead⟩, s1) := by
    unfold newVarOpDop newVariValOpDop
    rw [bind_ok (h.varIdxs hv), bind_ok e1]
    rfl
  rw [bind_ok e3, bind_ok e2]
  rfl

/-- `var(x)`: a variable without operands; its chain pointer is what the slot held before -/
theorem newVar_ok (h : Inv s g val adj) (x : R) (hcap : s.tape.head + 6 ≤ cap) :
    ∃ s', (newVar x : M W Var) s = .ok (⟨s.vhead⟩, s') ∧
      Grown s g val adj ⟨s.tape.head, [], [], (s.varis s.vhead).chain, .plain⟩ x s' := by
  obtain ⟨s1, e1, gr⟩ := h.newVariWith_ok (push := fun t => t.pushVal x) (v := x)
    (nd := ⟨s.tape.head, [], [], (s.varis s.vhead).chain, .plain⟩)
    ⟨rfl, by simp [Node.args], by simp, trivial⟩ rfl (by simpa [Node.len] using hcap)
    (Tape.pushVal_ok h.ok x hcap)
  refine ⟨s1, ?_, gr⟩
  unfold newVar newVariVal
  rw [bind_ok e1]
  rfl

theorem newVar0_ok (h : Inv s g val adj) (hcap : s.tape.head + 6 ≤ cap) :
    ∃ s', (newVar0 : M W Var) s = .ok (⟨s.vhead⟩, s') ∧
      Grown s g val adj ⟨s.tape.head, [], [], (s.varis s.vhead).chain, .plain⟩ (zero : R) s' :=
  h.newVar_ok (zero : R) hcap

theorem unary_ok (h : Inv s g val adj) {v : Var} (hv : g.Has v) (f : R → R) (c : Chain)
    (hcap : s.tape.head + 7 ≤ cap) :
    ∃ s', (unary f c v : M W Var) s = .ok (⟨s.vhead⟩, s') ∧
      Grown s g val adj ⟨s.tape.head, [g.pos v], [], c, .plain⟩ (f (val (g.pos v))) s' := by
  obtain ⟨s', e, gr⟩ := h.newOp (vs := [v]) (by simpa using hv) (f (val (g.pos v))) c hcap
  refine ⟨s', ?_, gr⟩
  unfold unary
  rw [bind_ok (h.varVal hv)]
  exact e

theorem binary_ok (h : Inv s g val adj) {v1 v2 : Var} (h1 : g.Has v1) (h2 : g.Has v2)
    (f : R → R → R) (c : Chain) (hcap : s.tape.head + 8 ≤ cap) :
    ∃ s', (binary f c v1 v2 : M W Var) s = .ok (⟨s.vhead⟩, s') ∧
      Grown s g val adj ⟨s.tape.head, [g.pos v1, g.pos v2], [], c, .plain⟩
        (f (val (g.pos v1)) (val (g.pos v2))) s' := by
  obtain ⟨s', e, gr⟩ := h.newOp (vs := [v1, v2]) (by simp [h1, h2])
    (f (val (g.pos v1)) (val (g.pos v2))) c hcap
  refine ⟨s', ?_, gr⟩
  unfold binary
  rw [bind_ok (h.varVal h1), bind_ok (h.varVal h2)]
  exact e

theorem unaryData_ok (h : Inv s g val adj) {v : Var} (hv : g.Has v) (f : R → R) (d : R) (c : Chain)
    (hcap : s.tape.head + 9 ≤ cap) :
    ∃ s', (unaryData f d c v : M W Var) s = .ok (⟨s.vhead⟩, s') ∧
      Grown s g val adj ⟨s.tape.head, [g.pos v], [d], c, .plain⟩ (f (val (g.pos v))) s' := by
  obtain ⟨s', e, gr⟩ := h.newOpDop (vs := [v]) (by simpa using hv) (f (val (g.pos v))) [d] c hcap
  refine ⟨s', ?_, gr⟩
  unfold unaryData
  rw [bind_ok (h.varVal hv)]
  exact e

theorem reduceV_ok (h : Inv s g val adj) {vs : List Var} (hv : ∀ v ∈ vs, g.Has v) (f : List R → R)
    (c : Chain) (hcap : s.tape.head + (6 + vs.length) ≤ cap) :
    ∃ s', (reduceV f c vs : M W Var) s = .ok (⟨s.vhead⟩, s') ∧
      Grown s g val adj ⟨s.tape.head, vs.map g.pos, [], c, .plain⟩
        (f (vs.map fun v => val (g.pos v))) s' := by
  obtain ⟨s', e, gr⟩ := h.newOp hv (f (vs.map fun v => val (g.pos v))) c hcap
  refine ⟨s', ?_, gr⟩
  unfold reduceV
  rw [bind_ok (h.varVals hv)]
  exact e

theorem dotVV_ok (h : Inv s g val adj) {a b : List Var} (ha : ∀ v ∈ a, g.Has v)
    (hb : ∀ v ∈ b, g.Has v) (hl : a.length = b.length)
    (hcap : s.tape.head + (6 + (a.length + b.length)) ≤ cap) :
    ∃ s', (dotVV a b : M W Var) s = .ok (⟨s.vhead⟩, s') ∧
      Grown s g val adj ⟨s.tape.head, (a ++ b).map g.pos, [], .dotVV, .plain⟩
        (fdot (a.map fun v => val (g.pos v)) (b.map fun v => val (g.pos v))) s' := by
  obtain ⟨s', e, gr⟩ := h.newOp (vs := a ++ b)
    (by intro v hv; rcases List.mem_append.mp hv with h | h; exacts [ha v h, hb v h])
    (fdot (a.map fun v => val (g.pos v)) (b.map fun v => val (g.pos v))) .dotVV (by simpa using hcap)
  refine ⟨s', ?_, gr⟩
  unfold dotVV
  rw [bind_ok (h.varVals ha), bind_ok (h.varVals hb), if_pos hl]
  exact e

theorem dotVD_ok (h : Inv s g val adj) {a : List Var} (ha : ∀ v ∈ a, g.Has v) (b : List R)
    (hl : a.length = b.length)
    (hcap : s.tape.head + (6 + a.length + 2 * b.length) ≤ cap) :
    ∃ s', (dotVD a b : M W Var) s = .ok (⟨s.vhead⟩, s') ∧
      Grown s g val adj ⟨s.tape.head, a.map g.pos, b, .dotVD, .plain⟩
        (fdot (a.map fun v => val (g.pos v)) b) s' := by
  obtain ⟨s', e, gr⟩ := h.newOpDop ha (fdot (a.map fun v => val (g.pos v)) b) b .dotVD hcap
  refine ⟨s', ?_, gr⟩
  unfold dotVD
  rw [bind_ok (h.varVals ha), if_pos hl]
  exact e

theorem dotDV_ok (h : Inv s g val adj) (a : List R) {b : List Var} (hb : ∀ v ∈ b, g.Has v)
    (hl : a.length = b.length)
    (hcap : s.tape.head + (6 + b.length + 2 * a.length) ≤ cap) :
    ∃ s', (dotDV a b : M W Var) s = .ok (⟨s.vhead⟩, s') ∧
      Grown s g val adj ⟨s.tape.head, b.map g.pos, a, .dotVD, .plain⟩
        (fdot a (b.map fun v => val (g.pos v))) s' := by
  obtain ⟨s', e, gr⟩ := h.newOpDop hb (fdot a (b.map fun v => val (g.pos v))) a .dotVD hcap
  refine ⟨s', ?_, gr⟩
  unfold dotDV
  rw [bind_ok (h.varVals hb), if_pos hl]
  exact e

theorem varWithPartials_ok (h : Inv s g val adj) (x : R) {vs : List Var} (hv : ∀ v ∈ vs, g.Has v)
    (ds : List R) (hl : vs.length ≤ ds.length)
    (hcap : s.tape.head + (6 + vs.length + 2 * vs.length) ≤ cap) :
    ∃ s', (varWithPartials x vs ds : M W Var) s = .ok (⟨s.vhead⟩, s') ∧
      Grown s g val adj ⟨s.tape.head, vs.map g.pos, ds.take vs.length, .eager, .plain⟩ x s' := by
  obtain ⟨s', e, gr⟩ := h.newOpDop hv x (ds.take vs.length) .eager
    (by simp only [List.length_take]; omega)
  refine ⟨s', ?_, gr⟩
  unfold varWithPartials
  rw [if_neg (by omega)]
  exact e

/-- an operation of the user -/
theorem userOp_ok (h : Inv s g val adj) (x : R) (r : URule) {vs : List Var} (hv : ∀ v ∈ vs, g.Has v)
    (ds : List R) (hcap : s.tape.head + (6 + vs.length + 2 * ds.length) ≤ cap) :
    ∃ s', (userOp x r vs ds : M W Var) s = .ok (⟨s.vhead⟩, s') ∧
      Grown s g val adj ⟨s.tape.head, vs.map g.pos, ds, .user r, .plain⟩ x s' := by
  unfold userOp
  cases ds with
  | nil => exact h.newOp hv x (.user r) (by simpa using hcap)
  | cons d ds => exact h.newOpDop hv x (d :: ds) (.user r) hcap

/-- assignment of a real to a variable -/
theorem assign_ok (h : Inv s g val adj) {v : Var} (hv : g.Has v) (d : R) :
    ∃ m, (v.assign d : M W Unit) s = .ok ((), s.withMem m) ∧
      Inv (s.withMem m) g (upd val (g.pos v) d) adj := by
  obtain ⟨nd, h1, h2⟩ := hv.at
  obtain ⟨m, e, i⟩ := h.setVal h1.mem d
  rw [← h2]
  refine ⟨m, ?_, i⟩
  unfold Var.assign setIndexedVal
  rw [bind_ok (h.getV h1)]
  exact modTape_ok e

end Inv

/-! ## The sweeps -/

/-- the contributions of a record, none if the chain procedure does not fit -/
def Node.cl (nd : Node R) (val adj : Nat → R) : List R := (nd.contrib val adj).getD []

/-- the chain procedure fits the record -/
def Node.Fits (nd : Node R) (val : Nat → R) : Prop := ∀ adj : Nat → R, ∃ l, nd.contrib val adj = some l

/-- the reverse sweep over a list of records, the last record first -/
def sweep (val : Nat → R) (l : List (Node R)) (adj : Nat → R) : Nat → R :=
  l.foldr (fun nd adj => addAll adj nd.args (nd.cl val adj)) adj

theorem sweep_append (val : Nat → R) (l l' : List (Node R)) (adj : Nat → R) :
    sweep val (l ++ l') adj = sweep val l (sweep val l' adj) := by
  simp [sweep, List.foldr_append]

namespace Inv
variable {s : St W} {g : Graph R} {val adj : Nat → R}

theorem take_drop_succ {α : Type} (l : List α) (i n : Nat) (h : i + n < l.length) :
    (l.drop i).take (n + 1) = (l.drop i).take n ++ [l[i + n]] := by
  rw [List.take_add_one]
  congr 1
  rw [List.getElem?_drop, List.getElem?_eq_getElem h]
  rfl

theorem chainLoop_ok (i : Nat) : ∀ (n : Nat) {s : St W} {adj : Nat → R}, Inv s g val adj →
    i + n ≤ g.nodes.length → (∀ nd ∈ (g.nodes.drop i).take n, nd.Fits val) →
    ∃ m, (chainLoop (i + 1) n : M W Unit) s = .ok ((), s.withMem m) ∧
      Inv (s.withMem m) g val (sweep val ((g.nodes.drop i).take n) adj) := by
  intro n
  induction n with
  | zero => intro s adj h _ _; exact ⟨s.tape.mem, rfl, by simpa [sweep, St.withMem_self] using h⟩
  | succ n ih =>
    intro s adj h hle hf
    have hlt : i + n < g.nodes.length := by omega
    rw [take_drop_succ _ _ _ hlt] at hf ⊢
    obtain ⟨l, hl⟩ := hf (g.nodes[i + n]) (by simp) adj
    have hmem : g.nodes[i + n] ∈ g.nodes := List.getElem_mem hlt
    obtain ⟨m, e, iv⟩ := h.runChain hmem hl
    obtain ⟨m', e', iv'⟩ := ih iv (by omega) (fun nd hnd => hf nd (List.mem_append_left _ hnd))
    refine ⟨m', ?_, ?_⟩
    · unfold chainLoop
      have hg := h.getVari (List.getElem?_eq_getElem hlt)
      have e1 : i + 1 + n = i + n + 1 := by omega
      rw [e1, bind_ok hg, bind_ok e]
      exact e'
    · rw [sweep_append]
      have : sweep val [g.nodes[i + n]] adj = addAll adj (g.nodes[i + n]).args l := by
        simp [sweep, Node.cl, hl]
      rw [this]
      exact iv'

/-- `call y%grad()`: seed 1 at `y`, then the sweep over all records -/
theorem grad_ok (h : Inv s g val adj) {v : Var} (hv : g.Has v) (hf : ∀ nd ∈ g.nodes, nd.Fits val) :
    ∃ m, (v.grad : M W Unit) s = .ok ((), s.withMem m) ∧
      Inv (s.withMem m) g val (sweep val g.nodes (upd adj (g.pos v) one)) := by
  obtain ⟨nd, h1, h2⟩ := hv.at
  obtain ⟨m, e, i⟩ := h.setAdj h1.mem one
  have hvh := h.vhead
  obtain ⟨m', e', i'⟩ := chainLoop_ok 0 g.nodes.length i (by omega) (by simpa using hf)
  refine ⟨m', ?_, ?_⟩
  · unfold Var.grad
    rw [bind_ok (h.getV h1)]
    have hs : (Vari.initDependent ⟨nd.pos, nd.chain⟩ : M W Unit) s = .ok ((), s.withMem m) :=
      modTape_ok (f := fun t => t.setAdjAt nd.pos one) (s := s) e
    rw [bind_ok hs, bind_ok (get_ok _)]
    have : (s.withMem m).vhead - 1 = g.nodes.length := by
      show s.vhead - 1 = _; omega
    rw [this]
    exact e'
  · simpa [h2] using i'

theorem zeroAdjLoop_ok (i : Nat) : ∀ (n : Nat) {s : St W} {adj : Nat → R}, Inv s g val adj →
    i + n ≤ g.nodes.length →
    ∃ m adj', (zeroAdjLoop (i + 1) n : M W Unit) s = .ok ((), s.withMem m) ∧
      Inv (s.withMem m) g val adj' ∧
      (∀ nd ∈ (g.nodes.drop i).take n, adj' nd.pos = zero) ∧
      (∀ p, (∀ nd ∈ (g.nodes.drop i).take n, nd.pos ≠ p) → adj' p = adj p) := by
  intro n
  induction n with
  | zero => intro s adj h _; exact ⟨s.tape.mem, adj, rfl, h, by simp, fun _ _ => rfl⟩
  | succ n ih =>
    intro s adj h hle
    have hlt : i + n < g.nodes.length := by omega
    have hmem : g.nodes[i + n] ∈ g.nodes := List.getElem_mem hlt
    obtain ⟨m, e, iv⟩ := h.setAdj hmem zero
    obtain ⟨m', adj', e', iv', hz, hk⟩ := ih iv (by omega)
    refine ⟨m', adj', ?_, iv', ?_, ?_⟩
    · unfold zeroAdjLoop
      have hg := h.getVari (List.getElem?_eq_getElem hlt)
      have e1 : i + 1 + n = i + n + 1 := by omega
      rw [e1, bind_ok hg]
      have hs : (Vari.setAdj ⟨(g.nodes[i + n]).pos, (g.nodes[i + n]).chain⟩ (zero : R) : M W Unit) s =
        .ok ((), s.withMem m) := modTape_ok (f := fun t => t.setAdjAt (g.nodes[i + n]).pos (zero : R)) (s := s) e
      rw [bind_ok hs]
      exact e'
    · rw [take_drop_succ _ _ _ hlt]
      intro nd hnd
      by_cases hin : ∃ x ∈ (g.nodes.drop i).take n, x.pos = nd.pos
      · obtain ⟨x, hx, he⟩ := hin
        rw [← he]; exact hz x hx
      · have hne : ∀ x ∈ (g.nodes.drop i).take n, x.pos ≠ nd.pos := fun x hx he => hin ⟨x, hx, he⟩
        rw [hk _ hne]
        rcases List.mem_append.mp hnd with h1 | h1
        · exact absurd rfl (hne nd h1)
        · simp only [List.mem_singleton] at h1
          subst h1; simp
    · rw [take_drop_succ _ _ _ hlt]
      intro p hp
      rw [hk p fun nd hnd => hp nd (List.mem_append_left _ hnd),
        upd_ne _ _ (Ne.symm (hp _ (by simp)))]

/-- `set_zero_all_adj` -/
theorem setZeroAllAdj_ok (h : Inv s g val adj) :
    ∃ m adj', (setZeroAllAdj : M W Unit) s = .ok ((), s.withMem m) ∧
      Inv (s.withMem m) g val adj' ∧ (∀ nd ∈ g.nodes, adj' nd.pos = zero) := by
  have hvh := h.vhead
  obtain ⟨m, adj', e, i, hz, _⟩ := zeroAdjLoop_ok 0 g.nodes.length h (by omega)
  refine ⟨m, adj', ?_, i, by simpa using hz⟩
  unfold setZeroAllAdj
  rw [bind_ok (get_ok _)]
  have : s.vhead - 1 = g.nodes.length := by omega
  rw [this]
  exact e

end Inv
end Fz
