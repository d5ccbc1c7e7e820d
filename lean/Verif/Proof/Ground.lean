import Verif.Proof.Demo
import Verif.Proof.Outer

/-!
# Concrete states

Step lemmas with explicit graphs, for the concrete cases shown beside the theorems and for the
counterexamples.
-/

set_option linter.unusedSectionVars false

namespace Fz
open Arith Spec

section
variable {W R : Type} [Arith R] [Rep W R] [LawfulRep W R]
variable {s : St W} {g : Graph R} {val adj : Nat → R} {hd hd' n : Nat} {l : List (Nat × Nat)} {fr : Nat → Chain}

/-- the state `s` holds exactly the graph `g`; `hd` is the next free word, `l` the positions saved for the
open nested regions (outermost first), and `fr k` the chain pointer left in slot `k` of the variable table,
for the free slots -/
structure Here (s : St W) (g : Graph R) (val adj : Nat → R) (hd : Nat) (l : List (Nat × Nat))
    (fr : Nat → Chain) : Prop where
  inv : Inv s g val adj
  head : s.tape.head = hd
  free : ∀ k, s.vhead ≤ k → (s.varis k).chain = fr k
  marks : (List.range s.level).map (fun k => (s.nestTape (k + 1), s.nestVari (k + 1))) = l

/-- no slot of the variable table has been used before -/
def unused : Nat → Chain := fun _ => .dummy

namespace Here

theorem init (val adj : Nat → R) : Here (St.init : St W) Graph.empty val adj 1 [] unused :=
  ⟨inv_init val adj, rfl, fun _ _ => rfl, rfl⟩

theorem level (h : Here s g val adj hd l fr) : s.level = l.length := by
  rw [← h.marks]; simp

theorem congr (h : Here s g val adj hd l fr) {val' adj' : Nat → R}
    (hv : ∀ nd ∈ g.nodes, val' nd.pos = val nd.pos) (ha : ∀ nd ∈ g.nodes, adj' nd.pos = adj nd.pos) :
    Here s g val' adj' hd l fr :=
  ⟨h.inv.congr hv ha, h.head, h.free, h.marks⟩

theorem grown (h : Here s g val adj hd l fr) {nd : Node R} {v : R} {s' : St W} (hr : Inv.Grown s g val adj nd v s')
    (hp : nd.pos = hd) : Here s' (g.push nd) (upd val hd v) (upd adj hd zero) (hd + nd.len) l fr := by
  refine ⟨hp ▸ hr.inv, by rw [hr.head, h.head], ?_, by
    rw [hr.keep.level, hr.keep.nestTape, hr.keep.nestVari]; exact h.marks⟩
  intro k hk
  rw [hr.keep.slots k hk]
  exact h.free k (by have := hr.vhead; omega)

theorem newVar (h : Here s g val adj hd l fr) (x : R) (hc : hd + 6 ≤ cap) :
    ∃ s', (Fz.newVar x : M W Var) s = .ok (⟨g.nodes.length + 1⟩, s') ∧
      Here s' (g.push ⟨hd, [], [], fr (g.nodes.length + 1), .plain⟩) (upd val hd x) (upd adj hd zero) (hd + 6) l fr := by
  obtain ⟨s', e, gr⟩ := h.inv.newVar_ok x (by rw [h.head]; exact hc)
  rw [h.free _ (Nat.le_refl _), h.head] at gr
  rw [h.inv.vhead] at e gr
  exact ⟨s', e, h.grown gr rfl⟩

theorem newVars2 (h : Here s g val adj hd l fr) (x y : R) (hc : hd + 12 ≤ cap) :
    ∃ s', (newVars [x, y] : M W (List Var)) s = .ok ([⟨g.nodes.length + 1⟩, ⟨g.nodes.length + 2⟩], s') ∧
      Here s' ((g.push ⟨hd, [], [], fr (g.nodes.length + 1), .plain⟩).push
          ⟨hd + 6, [], [], fr (g.nodes.length + 2), .plain⟩)
        (upd (upd val hd x) (hd + 6) y) (upd (upd adj hd zero) (hd + 6) zero) (hd + 12) l fr := by
  obtain ⟨s1, e1, h1⟩ := h.newVar x (by omega)
  obtain ⟨s2, e2, h2⟩ := h1.newVar y (by omega)
  have hl : (g.push ⟨hd, [], [], fr (g.nodes.length + 1), .plain⟩).nodes.length + 1 = g.nodes.length + 2 := by
    simp [Graph.push]
  rw [hl] at e2 h2
  refine ⟨s2, ?_, h2⟩
  unfold newVars
  rw [List.mapM_cons, bind_ok e1, List.mapM_cons]
  have : (do let a ← Fz.newVar y
             let as ← List.mapM Fz.newVar ([] : List R)
             pure (a :: as) : M W (List Var)) s1 = .ok ([⟨g.nodes.length + 2⟩], s2) := by
    rw [bind_ok e2]; rfl
  rw [bind_ok this]
  rfl

theorem unary (h : Here s g val adj hd l fr) {v : Var} (hv : g.Has v) (f : R → R) (c : Chain) (hc : hd + 7 ≤ cap) :
    ∃ s', (Fz.unary f c v : M W Var) s = .ok (⟨g.nodes.length + 1⟩, s') ∧
      Here s' (g.push ⟨hd, [g.pos v], [], c, .plain⟩) (upd val hd (f (val (g.pos v)))) (upd adj hd zero)
        (hd + 7) l fr := by
  obtain ⟨s', e, gr⟩ := h.inv.unary_ok hv f c (by rw [h.head]; exact hc)
  rw [h.head] at gr
  rw [h.inv.vhead] at e
  exact ⟨s', e, h.grown gr rfl⟩

theorem binary (h : Here s g val adj hd l fr) {v w : Var} (hv : g.Has v) (hw : g.Has w) (f : R → R → R) (c : Chain)
    (hc : hd + 8 ≤ cap) :
    ∃ s', (Fz.binary f c v w : M W Var) s = .ok (⟨g.nodes.length + 1⟩, s') ∧
      Here s' (g.push ⟨hd, [g.pos v, g.pos w], [], c, .plain⟩)
        (upd val hd (f (val (g.pos v)) (val (g.pos w)))) (upd adj hd zero) (hd + 8) l fr := by
  obtain ⟨s', e, gr⟩ := h.inv.binary_ok hv hw f c (by rw [h.head]; exact hc)
  rw [h.head] at gr
  rw [h.inv.vhead] at e
  exact ⟨s', e, h.grown gr rfl⟩

theorem setChain (h : Here s g val adj hd l fr) {v : Var} (hv : g.Has v) (c : Chain) :
    ∃ s', (v.setChain c : M W Unit) s = .ok ((), s') ∧ Here s' (g.setChain (v.vi - 1) c) val adj hd l fr := by
  obtain ⟨nd, h1, -⟩ := hv.at
  obtain ⟨s', e, i, h2, h3, k⟩ := h.inv.setChain_ok h1 c
  refine ⟨s', e, i, by rw [h3]; exact h.head, ?_, by
    rw [k.level, k.nestTape, k.nestVari]; exact h.marks⟩
  intro n hn
  rw [k.slots n hn]
  exact h.free n (by omega)

theorem mem (h : Here s g val adj hd l fr) {m : Nat → W} {val' adj' : Nat → R}
    (i : Inv (s.withMem m) g val' adj') : Here (s.withMem m) g val' adj' hd l fr :=
  ⟨i, h.head, h.free, h.marks⟩

theorem grad (h : Here s g val adj hd l fr) {v : Var} (hv : g.Has v) (hf : ∀ nd ∈ g.nodes, nd.Fits val) :
    ∃ s', (v.grad : M W Unit) s = .ok ((), s') ∧
      Here s' g val (sweep val g.nodes (upd adj (g.pos v) one)) hd l fr := by
  obtain ⟨m, e, i⟩ := h.inv.grad_ok hv hf
  exact ⟨_, e, h.mem i⟩

theorem zeroAll (h : Here s g val adj hd l fr) :
    ∃ s', (setZeroAllAdj : M W Unit) s = .ok ((), s') ∧ Here s' g val (fun _ => zero) hd l fr := by
  obtain ⟨m, a, e, i, hz⟩ := h.inv.setZeroAllAdj_ok
  exact ⟨_, e, h.mem (i.congr (fun _ _ => rfl) fun nd hn => (hz nd hn).symm)⟩

theorem begin (h : Here s g val adj hd l fr) (hl : l.length < maxNestedStack) :
    (beginNested : M W Unit) s = .ok ((), s.begun) ∧
      Here s.begun g val adj hd (l ++ [(hd, g.nodes.length + 1)]) fr := by
  refine ⟨beginNested_ok s (by rw [h.level]; exact hl), h.inv.nest _ _ _, h.head, h.free, ?_⟩
  show (List.range (s.level + 1)).map _ = _
  rw [List.range_succ, List.map_append, List.map_singleton, ← h.marks, ← h.head, ← h.inv.vhead]
  congr 1
  · apply List.map_congr_left
    intro k hk
    have := List.mem_range.mp hk
    simp [St.begun, show k ≠ s.level by omega]
  · simp [St.begun]

/-- the saved positions of the innermost region -/
theorem inner (h : Here s g val adj hd (l ++ [(hd', n)]) fr) :
    s.level = l.length + 1 ∧ s.nestTape s.level = hd' ∧ s.nestVari s.level = n := by
  have hl : s.level = l.length + 1 := by simpa using h.level
  have := h.marks
  rw [hl, List.range_succ, List.map_append, List.map_singleton] at this
  have := (List.append_inj this (by simp)).2
  simp only [List.cons.injEq, Prod.mk.injEq, and_true] at this
  rw [hl]
  exact ⟨rfl, this⟩

/-- the end of the innermost region; `g0` are the records made before it -/
theorem done {g0 : Graph R} {lo : Nat} (h : Here s g val adj hd (l ++ [(lo, g0.nodes.length + 1)]) fr)
    (hl : l.length < maxNestedStack) (hp : g0.Prefix g) (hwf : g0.WF lo) (h1 : 1 ≤ lo) (h2 : lo ≤ hd)
    (hfull : hd ≤ s.tape.size) :
    ∃ s', (endNested : M W Unit) s = .ok ((), s') ∧ s'.tape.size = s.tape.size ∧
      Here s' g0 val adj lo l fun k => if h : k - 1 < g.nodes.length then g.nodes[k - 1].chain else fr k := by
  obtain ⟨hlev, ht, hv⟩ := h.inner
  obtain ⟨s', e, i, e1, e2, e3, e4, e5, e6, e7⟩ := endNested_ok h.inv hp hwf h1 (by rw [h.head]; exact h2)
    (by rw [h.head]; exact hfull) (by omega) (by omega) ht hv
  refine ⟨s', e, e3, i, e2, ?_, ?_⟩
  · intro k hk
    rw [e6]
    split
    · next hk' =>
      have := h.inv.tab (k - 1) _ (List.getElem?_eq_getElem hk')
      rw [show k - 1 + 1 = k by omega] at this
      rw [this]
    · next hk' =>
      exact h.free k (by have := h.inv.vhead; omega)
  · have := h.marks
    rw [hlev, List.range_succ, List.map_append, List.map_singleton] at this
    refine Eq.trans ?_ (List.append_inj this (by simp)).1
    rw [e1, hlev, Nat.add_sub_cancel]
    apply List.map_congr_left
    intro k hk
    have hk := List.mem_range.mp hk
    have := e7 (k + 1) (by omega)
    rw [this.1, this.2]

end Here

/-- one more call -/
theorem Reach.snoc {h : List (Call R)} {c c' : Client W} (hr : Reach h c) {k : Call R} (hk : k.Sane)
    (he : k.exec c = .ok c') : Reach (h ++ [k]) c' := by
  refine ⟨fun x hx => ?_, ?_⟩
  · simp only [List.mem_append, List.mem_singleton] at hx
    rcases hx with hx | rfl
    · exact hr.1 x hx
    · exact hk
  · have : ∀ (l : List (Call R)) (d : Client W), Spec.run l d = .ok c → Spec.run (l ++ [k]) d = .ok c' := by
      intro l
      induction l with
      | nil =>
        intro d hd
        cases hd
        rw [List.nil_append, run_one he]
        rfl
      | cons x l ih =>
        intro d hd
        cases e : x.exec d with
        | error y =>
          have : Spec.run (x :: l) d = .error y := by
            show (x.exec d >>= fun c => Spec.run l c) = _
            rw [e]; rfl
          rw [this] at hd
          cases hd
        | ok d' =>
          rw [run_one e] at hd
          rw [List.cons_append, run_one e]
          exact ih d' hd
    exact this h _ hr.2

end

/-! ## the state after `demo` -/

/-- two independent variables and their product -/
noncomputable def demoG : Graph ℝ :=
  ⟨[⟨1, [], [], .dummy, .plain⟩, ⟨7, [], [], .dummy, .plain⟩, ⟨13, [1, 7], [], .mulVV, .plain⟩], []⟩

/-- their values -/
noncomputable def demoV (p : Nat) : ℝ := if p = 1 then 2 else if p = 7 then 3 else 6

/-- their adjoints -/
noncomputable def demoA (p : Nat) : ℝ := if p = 1 then 3 else if p = 7 then 2 else 1

theorem demoFits : ∀ nd ∈ demoG.nodes, nd.Fits demoV := by
  intro nd hn
  simp only [demoG, List.mem_cons, List.not_mem_nil, or_false] at hn
  rcases hn with rfl | rfl | rfl <;> intro a
  · exact ⟨[], rfl⟩
  · exact ⟨[], rfl⟩
  · exact ⟨_, rfl⟩

theorem demoSweep (a : Nat → ℝ) : sweep demoV demoG.nodes a =
    upd (upd a 1 (a 1 + 3 * a 13)) 7 (a 7 + 2 * a 13) := by
  simp [sweep, demoG, Node.args, Node.cl, Node.contrib, contribPlain, cBin, addAll, Arith.add, Arith.mul, demoV,
    upd_ne]

variable {W : Type} [Rep W ℝ] [LawfulRep W ℝ]

/-- the steps of `demo` -/
theorem demo_steps : ∃ s1 s2 s3 : St W, (newVars ([2, 3] : List ℝ) : M W (List Var)) St.init = .ok ([⟨1⟩, ⟨2⟩], s1) ∧
    (mulVV (R := ℝ) ⟨1⟩ ⟨2⟩ : M W Var) s1 = .ok (⟨3⟩, s2) ∧ (Var.grad ⟨3⟩ : M W Unit) s2 = .ok ((), s3) ∧
    Here s2 demoG demoV (fun _ => 0) 21 [] unused ∧ Here s3 demoG demoV demoA 21 [] unused := by
  obtain ⟨s1, e1, h1⟩ := (Here.init (W := W) (fun _ => (0 : ℝ)) fun _ => 0).newVars2 2 3 (by simp [cap])
  have h1' : Here s1 ⟨[⟨1, [], [], .dummy, .plain⟩, ⟨7, [], [], .dummy, .plain⟩], []⟩ demoV (fun _ => 0) 13 [] unused := by
    refine h1.congr ?_ ?_ <;> simp [Graph.push, Graph.empty, demoV, upd, Arith.zero]
  obtain ⟨s2, e2, h2⟩ := h1'.binary (v := ⟨1⟩) (w := ⟨2⟩) (by simp [Graph.Has]) (by simp [Graph.Has]) mul .mulVV
    (by simp [cap])
  have h2' : Here s2 demoG demoV (fun _ => 0) 21 [] unused := by
    refine h2.congr ?_ ?_ <;> simp [Graph.push, Graph.pos, demoV, upd, Arith.zero, Arith.mul]
    norm_num
  obtain ⟨s3, e3, h3⟩ := h2'.grad (v := ⟨3⟩) (by simp [Graph.Has, demoG]) demoFits
  have h3' : Here s3 demoG demoV demoA 21 [] unused := by
    refine h3.congr (fun _ _ => rfl) ?_
    rw [demoSweep]
    simp [demoG, Graph.pos, demoA, upd, Arith.one]
  exact ⟨s1, s2, s3, e1, e2, e3, h2', h3'⟩

theorem demo_here : ∃ c : Client W, Reach demo c ∧ c.env = [⟨1⟩, ⟨2⟩, ⟨3⟩] ∧ c.marks = [] ∧
    Here c.st demoG demoV demoA 21 [] unused := by
  obtain ⟨s1, s2, s3, e1, e2, e3, h2', h3'⟩ := demo_steps (W := W)
  refine ⟨⟨s3, [⟨1⟩, ⟨2⟩, ⟨3⟩], []⟩, ⟨by simp [demo, Call.Sane, Make.Sane], ?_⟩, rfl, rfl, h3'⟩
  have k1 : (Call.make (R := ℝ) (.newVals [2, 3])).exec (Client.init : Client W) =
      .ok ⟨s1, [⟨1⟩, ⟨2⟩], []⟩ := exec_make (c := Client.init) (by simp [Make.args]) e1
  have k2 : (Call.make (R := ℝ) (.bin .mul 0 1)).exec (⟨s1, [⟨1⟩, ⟨2⟩], []⟩ : Client W) =
      .ok ⟨s2, [⟨1⟩, ⟨2⟩, ⟨3⟩], []⟩ :=
    exec_make (c := ⟨s1, [⟨1⟩, ⟨2⟩], []⟩) (vs := [⟨3⟩]) (by simp [Make.args])
      (bind_ok (f := fun v => pure [v]) e2)
  have k3 : (Call.grad (R := ℝ) 2).exec (⟨s2, [⟨1⟩, ⟨2⟩, ⟨3⟩], []⟩ : Client W) =
      .ok ⟨s3, [⟨1⟩, ⟨2⟩, ⟨3⟩], []⟩ :=
    exec_keep (c := ⟨s2, [⟨1⟩, ⟨2⟩, ⟨3⟩], []⟩) (by simp [Call.args]) rfl e3
  unfold demo
  rw [run_one k1, run_one k2, run_one k3]
  rfl

end Fz
