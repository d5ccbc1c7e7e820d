import Verif.Proof.History
import Verif.Spec.Code

/-!
# Two runs of the same computation

The same calls are made in two states that have nothing to do with each other.  `Twin B a b`: since the moments
described by `B` both sides have made the same records, at positions that differ by a constant.
-/

set_option linter.unusedSectionVars false

namespace Fz
open Arith Spec

/-- the moments at which the two runs started: tape heads and numbers of variables, and which older positions stand for
each other -/
structure Base where
  h1 : Nat
  h2 : Nat
  n1 : Nat
  n2 : Nat
  E : Nat → Nat → Prop
  /-- both started by opening a nested region -/
  nested : Prop

/-- two positions stand for each other -/
def Base.PR (B : Base) (p q : Nat) : Prop := (∃ d, p = B.h1 + d ∧ q = B.h2 + d) ∨ B.E p q

variable {W1 W2 R : Type} [Arith R] [Rep W1 R] [LawfulRep W1 R] [Rep W2 R] [LawfulRep W2 R]

/-- a state and its ghost description -/
structure Side (W R : Type) where
  s : St W
  g : Graph R
  val : Nat → R
  adj : Nat → R

/-- two records stand for each other -/
structure NodeRel (B : Base) (a b : Node R) : Prop where
  pos : ∃ d, a.pos = B.h1 + d ∧ b.pos = B.h2 + d
  len : a.ops.length = b.ops.length
  dops : a.dops = b.dops
  kind : match a.kind, b.kind with
    | .plain, .plain => List.Forall₂ B.PR a.ops b.ops ∧ (a.ops = [] ∨ a.chain = b.chain)
    | .mmVV r c, .mmVV r' c' => List.Forall₂ B.PR r r' ∧ List.Forall₂ B.PR c c' ∧ a.chain = b.chain
    | .mmVD r d, .mmVD r' d' => List.Forall₂ B.PR r r' ∧ d = d' ∧ a.chain = b.chain
    | .mmDV d c, .mmDV d' c' => List.Forall₂ B.PR c c' ∧ d = d' ∧ a.chain = b.chain
    | _, _ => False

theorem NodeRel.nodeLen {B : Base} {a b : Node R} (h : NodeRel B a b) : a.len = b.len := by
  simp [Node.len, h.len, h.dops]

/-- the innermost open region starts with variable `n` -/
def TopAt {W : Type} (s : St W) (n : Nat) : Prop :=
  0 < s.level ∧ s.level ≤ maxNestedStack ∧ s.nestVari s.level = n + 1

theorem TopAt.keep {W : Type} {s s' : St W} {n : Nat} (h : TopAt s n) (k : Keep s s') : TopAt s' n := by
  unfold TopAt
  rw [k.level, k.nestVari]
  exact h

/-- the two sides have done the same since the start -/
structure Twin (B : Base) (a : Side W1 R) (b : Side W2 R) : Prop where
  inv1 : Inv a.s a.g a.val a.adj
  inv2 : Inv b.s b.g b.val b.adj
  cok1 : ∀ nd ∈ a.g.nodes, nd.ChainOK
  cok2 : ∀ nd ∈ b.g.nodes, nd.ChainOK
  off : ∃ d, a.s.tape.head = B.h1 + d ∧ b.s.tape.head = B.h2 + d
  len : ∃ n, a.g.nodes.length = B.n1 + n ∧ b.g.nodes.length = B.n2 + n
  old1 : ∀ (k : Nat) (nd : Node R), k < B.n1 → a.g.nodes[k]? = some nd → nd.pos < B.h1
  old2 : ∀ (k : Nat) (nd : Node R), k < B.n2 → b.g.nodes[k]? = some nd → nd.pos < B.h2
  new : ∀ (k : Nat) (x y : Node R), a.g.nodes[B.n1 + k]? = some x → b.g.nodes[B.n2 + k]? = some y → NodeRel B x y
  vals : ∀ d, a.val (B.h1 + d) = b.val (B.h2 + d)
  adjs : ∀ d, a.adj (B.h1 + d) = b.adj (B.h2 + d)
  outer : ∀ p q, B.E p q → p < B.h1 ∧ q < B.h2 ∧ a.val p = b.val q
  nest1 : B.nested → TopAt a.s B.n1
  nest2 : B.nested → TopAt b.s B.n2

/-- one side goes on -/
def Since {W : Type} (a a' : Side W R) : Prop := a.g.erase.Prefix a'.g.erase

theorem Since.refl {W : Type} (a : Side W R) : Since a a := Graph.Prefix.refl _

theorem Since.trans {W : Type} {a b c : Side W R} (h : Since a b) (h' : Since b c) : Since a c :=
  Graph.Prefix.trans h h'

variable {B : Base} {a a' : Side W1 R} {b b' : Side W2 R}

theorem Twin.pr_val (h : Twin B a b) {p q : Nat} (hp : B.PR p q) : a.val p = b.val q := by
  rcases hp with ⟨d, rfl, rfl⟩ | he
  · exact h.vals d
  · exact (h.outer p q he).2.2

/-- two variables stand for each other -/
structure VarRel (B : Base) (a : Side W1 R) (b : Side W2 R) (v w : Var) : Prop where
  has1 : a.g.Has v
  has2 : b.g.Has w
  pr : B.PR (a.g.pos v) (b.g.pos w)

theorem VarRel.later {v w : Var} (h : VarRel B a b v w) (l1 : Since a a') (l2 : Since b b') : VarRel B a' b' v w :=
  ⟨l1.hasErase h.has1, l2.hasErase h.has2, by rw [l1.posErase h.has1, l2.posErase h.has2]; exact h.pr⟩

/-- lists of variables that stand for each other -/
def VarsRel (B : Base) (a : Side W1 R) (b : Side W2 R) (vs ws : List Var) : Prop := List.Forall₂ (VarRel B a b) vs ws

theorem VarsRel.later {vs ws : List Var} (h : VarsRel B a b vs ws) (l1 : Since a a') (l2 : Since b b') :
    VarsRel B a' b' vs ws := h.imp fun _ _ h => h.later l1 l2

theorem VarsRel.has1 {vs ws : List Var} (h : VarsRel B a b vs ws) : ∀ v ∈ vs, a.g.Has v := by
  induction h with
  | nil => simp
  | cons h _ ih => simpa using ⟨h.has1, ih⟩

theorem VarsRel.has2 {vs ws : List Var} (h : VarsRel B a b vs ws) : ∀ v ∈ ws, b.g.Has v := by
  induction h with
  | nil => simp
  | cons h _ ih => simpa using ⟨h.has2, ih⟩

theorem VarsRel.pos {vs ws : List Var} (h : VarsRel B a b vs ws) :
    List.Forall₂ B.PR (vs.map a.g.pos) (ws.map b.g.pos) := by
  induction h with
  | nil => exact .nil
  | cons h _ ih => exact .cons h.pr ih

theorem VarsRel.vals (t : Twin B a b) {vs ws : List Var} (h : VarsRel B a b vs ws) :
    vs.map (fun v => a.val (a.g.pos v)) = ws.map (fun v => b.val (b.g.pos v)) := by
  induction h with
  | nil => rfl
  | cons h _ ih => simp only [List.map_cons, ih, t.pr_val h.pr]

theorem VarsRel.length {vs ws : List Var} (h : VarsRel B a b vs ws) : vs.length = ws.length :=
  List.Forall₂.length_eq h

/-! ## The relation between runs -/

variable {α β γ δ : Type}

/-- whenever both runs complete, the sides are twins again and the results are related -/
def TT (B : Base) (a : Side W1 R) (b : Side W2 R) (m1 : M W1 α) (m2 : M W2 β)
    (Q : α → β → Side W1 R → Side W2 R → Prop) : Prop :=
  ∀ r1 t1 r2 t2, m1 a.s = .ok (r1, t1) → m2 b.s = .ok (r2, t2) →
    ∃ (a' : Side W1 R) (b' : Side W2 R), a'.s = t1 ∧ b'.s = t2 ∧ Since a a' ∧ Since b b' ∧ Twin B a' b' ∧ Q r1 r2 a' b'

variable {Q : α → β → Side W1 R → Side W2 R → Prop} {Q' : γ → δ → Side W1 R → Side W2 R → Prop}

theorem TT.pure (t : Twin B a b) {x : α} {y : β} (hq : Q x y a b) :
    TT B a b (Pure.pure x : M W1 α) (Pure.pure y : M W2 β) Q := by
  intro r1 t1 r2 t2 e1 e2
  cases e1; cases e2
  exact ⟨a, b, rfl, rfl, Since.refl _, Since.refl _, t, hq⟩

theorem TT.fail {m : M W2 β} (e : Err) : TT B a b (Fz.fail e : M W1 α) m Q := by
  intro r1 t1 r2 t2 e1 _
  cases e1

theorem TT.bind {m1 : M W1 α} {m2 : M W2 β} {k1 : α → M W1 γ} {k2 : β → M W2 δ} (hm : TT B a b m1 m2 Q)
    (hk : ∀ x y a' b', Since a a' → Since b b' → Twin B a' b' → Q x y a' b' → TT B a' b' (k1 x) (k2 y) Q') :
    TT B a b (m1 >>= k1) (m2 >>= k2) Q' := by
  intro r1 t1 r2 t2 e1 e2
  cases h1 : m1 a.s with
  | error x => rw [bind_err h1] at e1; cases e1
  | ok p =>
    cases h2 : m2 b.s with
    | error x => rw [bind_err h2] at e2; cases e2
    | ok q =>
      obtain ⟨x, u1⟩ := p
      obtain ⟨y, u2⟩ := q
      rw [bind_ok h1] at e1
      rw [bind_ok h2] at e2
      obtain ⟨a', b', rfl, rfl, l1, l2, t, hq⟩ := hm x u1 y u2 h1 h2
      obtain ⟨a'', b'', x1, x2, l1', l2', t', hq'⟩ := hk x y a' b' l1 l2 t hq r1 t1 r2 t2 e1 e2
      exact ⟨a'', b'', x1, x2, l1.trans l1', l2.trans l2', t', hq'⟩

theorem TT.read {m1 : M W1 α} {m2 : M W2 β} {k1 : α → M W1 γ} {k2 : β → M W2 δ} {x : α} {y : β}
    (h1 : m1 a.s = .ok (x, a.s)) (h2 : m2 b.s = .ok (y, b.s)) (hk : TT B a b (k1 x) (k2 y) Q') :
    TT B a b (m1 >>= k1) (m2 >>= k2) Q' := by
  intro r1 t1 r2 t2 e1 e2
  rw [bind_ok h1] at e1
  rw [bind_ok h2] at e2
  exact hk r1 t1 r2 t2 e1 e2

theorem TT.mono {m1 : M W1 α} {m2 : M W2 β} {P : α → β → Side W1 R → Side W2 R → Prop} (h : TT B a b m1 m2 P)
    (hk : ∀ x y a' b', P x y a' b' → Q x y a' b') : TT B a b m1 m2 Q := by
  intro r1 t1 r2 t2 e1 e2
  obtain ⟨a', b', x1, x2, l1, l2, t, hq⟩ := h r1 t1 r2 t2 e1 e2
  exact ⟨a', b', x1, x2, l1, l2, t, hk _ _ _ _ hq⟩

/-- one result -/
def VR (B : Base) : Var → Var → Side W1 R → Side W2 R → Prop := fun v w a b => VarRel B a b v w
/-- many results -/
def VL (B : Base) : List Var → List Var → Side W1 R → Side W2 R → Prop := fun v w a b => VarsRel B a b v w

/-! ## Creating records -/

/-- what a call that makes one record does, if it completes -/
theorem grown_inv {W : Type} [Rep W R] [LawfulRep W R] {s s' : St W} {g : Graph R} {val adj : Nat → R} {m : M W Var}
    {nd : Node R} {v : R} {r : Var}
    (hok : s.tape.head + nd.len ≤ cap → ∃ s', m s = .ok (⟨s.vhead⟩, s') ∧ Inv.Grown s g val adj nd v s')
    (herr : cap < s.tape.head + nd.len → ∃ e, m s = .error e) (e : m s = .ok (r, s')) :
    r = ⟨s.vhead⟩ ∧ Inv.Grown s g val adj nd v s' := by
  by_cases hcap : s.tape.head + nd.len ≤ cap
  · obtain ⟨s1, e1, gr⟩ := hok hcap
    rw [e1] at e
    cases e
    exact ⟨rfl, gr⟩
  · obtain ⟨x, hx⟩ := herr (by omega)
    rw [hx] at e; cases e

/-- one result, created since the start -/
def VRI (B : Base) : Var → Var → Side W1 R → Side W2 R → Prop := fun v w a b =>
  VarRel B a b v w ∧ ∃ d, a.g.pos v = B.h1 + d ∧ b.g.pos w = B.h2 + d

/-- many results, created since the start -/
def VLI (B : Base) : List Var → List Var → Side W1 R → Side W2 R → Prop := fun vs ws a b =>
  List.Forall₂ (fun v w => VRI B v w a b) vs ws

theorem VRI.later {v w : Var} (h : VRI B v w a b) (l1 : Since a a') (l2 : Since b b') : VRI B v w a' b' :=
  ⟨h.1.later l1 l2, by rw [l1.posErase h.1.has1, l2.posErase h.1.has2]; exact h.2⟩

theorem VLI.later {vs ws : List Var} (h : VLI B vs ws a b) (l1 : Since a a') (l2 : Since b b') :
    VLI B vs ws a' b' := List.Forall₂.imp (fun _ _ h => h.later l1 l2) h

theorem VLI.vl {vs ws : List Var} (h : VLI B vs ws a b) : VarsRel B a b vs ws :=
  List.Forall₂.imp (fun _ _ h => h.1) h

theorem TT.grownI (t : Twin B a b) {m1 : M W1 Var} {m2 : M W2 Var} {x y : Node R} {v : R}
    (hx : x.pos = a.s.tape.head) (hy : y.pos = b.s.tape.head) (hr : NodeRel B x y) (cx : x.ChainOK) (cy : y.ChainOK)
    (h1 : ∀ r s', m1 a.s = .ok (r, s') → r = ⟨a.s.vhead⟩ ∧ Inv.Grown a.s a.g a.val a.adj x v s')
    (h2 : ∀ r s', m2 b.s = .ok (r, s') → r = ⟨b.s.vhead⟩ ∧ Inv.Grown b.s b.g b.val b.adj y v s') :
    TT B a b m1 m2 (VRI B) := by
  intro r1 t1 r2 t2 e1 e2
  obtain ⟨rfl, g1⟩ := h1 _ _ e1
  obtain ⟨rfl, g2⟩ := h2 _ _ e2
  obtain ⟨d, hd1, hd2⟩ := t.off
  obtain ⟨n, hn1, hn2⟩ := t.len
  refine ⟨⟨t1, a.g.push x, upd a.val x.pos v, upd a.adj x.pos zero⟩,
    ⟨t2, b.g.push y, upd b.val y.pos v, upd b.adj y.pos zero⟩, rfl, rfl, a.g.erase_push x, b.g.erase_push y, ?_, ?_⟩
  · have up : ∀ (f f' : Nat → R) (z : R), (∀ d, f (B.h1 + d) = f' (B.h2 + d)) →
        ∀ d, upd f x.pos z (B.h1 + d) = upd f' y.pos z (B.h2 + d) := by
      intro f f' z hf k
      rw [hx, hy, hd1, hd2]
      by_cases hk : k = d
      · subst hk; simp
      · rw [upd_ne _ _ (by omega), upd_ne _ _ (by omega), hf]
    refine ⟨g1.inv, g2.inv, ?_, ?_, ?_, ?_, ?_, ?_, ?_, up _ _ _ t.vals, up _ _ _ t.adjs, ?_,
      fun hn => (t.nest1 hn).keep g1.keep, fun hn => (t.nest2 hn).keep g2.keep⟩
    · intro nd hnd
      simp only [Graph.push, List.mem_append, List.mem_singleton] at hnd
      rcases hnd with h | rfl
      · exact t.cok1 nd h
      · exact cx
    · intro nd hnd
      simp only [Graph.push, List.mem_append, List.mem_singleton] at hnd
      rcases hnd with h | rfl
      · exact t.cok2 nd h
      · exact cy
    · exact ⟨d + x.len, by rw [g1.head, hd1]; omega, by rw [g2.head, hd2, ← hr.nodeLen]; omega⟩
    · exact ⟨n + 1, by simp [Graph.push, hn1]; omega, by simp [Graph.push, hn2]; omega⟩
    · intro k nd hk e
      simp only [Graph.push] at e
      rw [List.getElem?_append_left (by omega)] at e
      exact t.old1 k nd hk e
    · intro k nd hk e
      simp only [Graph.push] at e
      rw [List.getElem?_append_left (by omega)] at e
      exact t.old2 k nd hk e
    · intro k p q e1 e2
      simp only [Graph.push] at e1 e2
      by_cases hk : k < n
      · rw [List.getElem?_append_left (by omega)] at e1 e2
        exact t.new k p q e1 e2
      · rw [List.getElem?_append_right (by omega), hn1] at e1
        rw [List.getElem?_append_right (by omega), hn2] at e2
        have hk0 : k = n := by
          have := (List.getElem?_eq_some_iff.mp e1).1
          simp at this; omega
        subst hk0
        simp at e1 e2
        rw [← e1, ← e2]
        exact hr
    · intro p q he
      obtain ⟨o1, o2, o3⟩ := t.outer p q he
      refine ⟨o1, o2, ?_⟩
      simp only
      rw [upd_ne _ _ (by omega), upd_ne _ _ (by omega), o3]
  · have p1 : (a.g.push x).pos ⟨a.s.vhead⟩ = x.pos := by rw [t.inv1.vhead]; exact a.g.pos_last x
    have p2 : (b.g.push y).pos ⟨b.s.vhead⟩ = y.pos := by rw [t.inv2.vhead]; exact b.g.pos_last y
    refine ⟨⟨by rw [t.inv1.vhead]; exact a.g.has_last x, by rw [t.inv2.vhead]; exact b.g.has_last y, ?_⟩, ?_⟩
    · simp only
      rw [p1, p2]
      exact Or.inl hr.pos
    · simp only
      rw [p1, p2]
      exact hr.pos

theorem TT.grown (t : Twin B a b) {m1 : M W1 Var} {m2 : M W2 Var} {x y : Node R} {v : R}
    (hx : x.pos = a.s.tape.head) (hy : y.pos = b.s.tape.head) (hr : NodeRel B x y) (cx : x.ChainOK) (cy : y.ChainOK)
    (h1 : ∀ r s', m1 a.s = .ok (r, s') → r = ⟨a.s.vhead⟩ ∧ Inv.Grown a.s a.g a.val a.adj x v s')
    (h2 : ∀ r s', m2 b.s = .ok (r, s') → r = ⟨b.s.vhead⟩ ∧ Inv.Grown b.s b.g b.val b.adj y v s') :
    TT B a b m1 m2 (VR B) :=
  (TT.grownI t hx hy hr cx cy h1 h2).mono fun _ _ _ _ h => h.1

section creators
variable {W : Type} [Rep W R] [LawfulRep W R] {s : St W} {g : Graph R} {val adj : Nat → R}

theorem newOp_inv (h : Inv s g val adj) {vs : List Var} (hv : ∀ v ∈ vs, g.Has v) (x : R) (c : Chain) (r : Var)
    (s' : St W) (e : (do let w ← newVarOp x vs; w.setChain c; pure w : M W Var) s = .ok (r, s')) :
    r = ⟨s.vhead⟩ ∧ Inv.Grown s g val adj ⟨s.tape.head, vs.map g.pos, [], c, .plain⟩ x s' := by
  refine grown_inv (fun hcap => h.newOp hv x c (by simpa [Node.len] using hcap)) (fun hcap => ?_) e
  refine bind_err' ?_
  unfold newVarOp newVariValOp
  rw [bind_ok (h.varIdxs hv)]
  exact bind_err' (newVariWith_err (Tape.pushValOp_err h.ok x _ (by simpa [Node.len] using hcap)))

theorem newOpDop_inv (h : Inv s g val adj) {vs : List Var} (hv : ∀ v ∈ vs, g.Has v) (x : R) (ds : List R) (c : Chain)
    (r : Var) (s' : St W) (e : (do let w ← newVarOpDop x vs ds; w.setChain c; pure w : M W Var) s = .ok (r, s')) :
    r = ⟨s.vhead⟩ ∧ Inv.Grown s g val adj ⟨s.tape.head, vs.map g.pos, ds, c, .plain⟩ x s' := by
  refine grown_inv (fun hcap => h.newOpDop hv x ds c (by simpa [Node.len] using hcap)) (fun hcap => ?_) e
  refine bind_err' ?_
  unfold newVarOpDop newVariValOpDop
  rw [bind_ok (h.varIdxs hv)]
  exact bind_err' (newVariWith_err (Tape.pushValOpDop_err h.ok x _ _ (by simpa [Node.len] using hcap)))

theorem newVar_inv (h : Inv s g val adj) (x : R) (r : Var) (s' : St W) (e : (newVar x : M W Var) s = .ok (r, s')) :
    r = ⟨s.vhead⟩ ∧ Inv.Grown s g val adj ⟨s.tape.head, [], [], (s.varis s.vhead).chain, .plain⟩ x s' := by
  refine grown_inv (fun hcap => h.newVar_ok x (by simpa [Node.len] using hcap)) (fun hcap => ?_) e
  unfold newVar newVariVal
  exact bind_err' (newVariWith_err (Tape.pushVal_err h.ok x (by simpa [Node.len] using hcap)))

theorem newOpId_inv (h : Inv s g val adj) (x : R) {nd : Node R} (hc : Inv.CanPush g s.tape.head nd)
    (hd : nd.dops = []) (r : Var) (s' : St W)
    (e : (do let w ← newVarOpId x nd.ops; w.setChain nd.chain; pure w : M W Var) s = .ok (r, s')) :
    r = ⟨s.vhead⟩ ∧ Inv.Grown s g val adj nd x s' := by
  refine grown_inv (fun hcap => h.newOpId_ok x hc hd hcap) (fun hcap => ?_) e
  refine bind_err' ?_
  unfold newVarOpId newVariValOp
  exact bind_err' (newVariWith_err (Tape.pushValOp_err h.ok x _ (by simpa [Node.len, hd] using hcap)))

end creators

variable (t : Twin B a b)
include t

theorem tt_newOp {vs ws : List Var} (hv : VarsRel B a b vs ws) (x : R) {c : Chain} (hc : c.notMM) :
    TT B a b (do let w ← newVarOp x vs; w.setChain c; pure w : M W1 Var)
      (do let w ← newVarOp x ws; w.setChain c; pure w : M W2 Var) (VR B) :=
  TT.grown t (x := ⟨a.s.tape.head, vs.map a.g.pos, [], c, .plain⟩) (y := ⟨b.s.tape.head, ws.map b.g.pos, [], c, .plain⟩)
    rfl rfl ⟨t.off, by simp [hv.length], rfl, hv.pos, Or.inr rfl⟩ (hc.ok _ _ _) (hc.ok _ _ _)
    (newOp_inv t.inv1 hv.has1 x c) (newOp_inv t.inv2 hv.has2 x c)

theorem tt_newOpDop {vs ws : List Var} (hv : VarsRel B a b vs ws) (x : R) (ds : List R) {c : Chain} (hc : c.notMM) :
    TT B a b (do let w ← newVarOpDop x vs ds; w.setChain c; pure w : M W1 Var)
      (do let w ← newVarOpDop x ws ds; w.setChain c; pure w : M W2 Var) (VR B) :=
  TT.grown t (x := ⟨a.s.tape.head, vs.map a.g.pos, ds, c, .plain⟩) (y := ⟨b.s.tape.head, ws.map b.g.pos, ds, c, .plain⟩)
    rfl rfl ⟨t.off, by simp [hv.length], rfl, hv.pos, Or.inr rfl⟩ (hc.ok _ _ _) (hc.ok _ _ _)
    (newOpDop_inv t.inv1 hv.has1 x ds c) (newOpDop_inv t.inv2 hv.has2 x ds c)

theorem tt_newVarI (x : R) : TT B a b (newVar x : M W1 Var) (newVar x : M W2 Var) (VRI B) :=
  TT.grownI t (x := ⟨a.s.tape.head, [], [], (a.s.varis a.s.vhead).chain, .plain⟩)
    (y := ⟨b.s.tape.head, [], [], (b.s.varis b.s.vhead).chain, .plain⟩) rfl rfl
    ⟨t.off, rfl, rfl, .nil, Or.inl rfl⟩ (fun _ => rfl) (fun _ => rfl) (newVar_inv t.inv1 x) (newVar_inv t.inv2 x)

theorem tt_newVar (x : R) : TT B a b (newVar x : M W1 Var) (newVar x : M W2 Var) (VR B) :=
  (tt_newVarI t x).mono fun _ _ _ _ h => h.1

theorem tt_newVar0 : TT B a b (newVar0 (R := R) : M W1 Var) (newVar0 (R := R) : M W2 Var) (VR B) :=
  tt_newVar t (zero : R)

theorem tt_neutral {v w : Var} (h : VarRel B a b v w) {c : Chain} (hc : c.isNeutral) :
    TT B a b (do v.setChain c; pure v : M W1 Var) (do w.setChain c; pure w : M W2 Var) (VR B) := by
  intro r1 t1 r2 t2 e1 e2
  obtain ⟨nd, h1, h2⟩ := h.has1.at
  obtain ⟨nd', h1', h2'⟩ := h.has2.at
  obtain ⟨u1, x1, i1, hvh1, ht1, k1⟩ := t.inv1.setChain_ok h1 c
  obtain ⟨u2, x2, i2, hvh2, ht2, k2⟩ := t.inv2.setChain_ok h1' c
  rw [bind_ok x1] at e1
  rw [bind_ok x2] at e2
  cases e1; cases e2
  have l1 : a.g.erase.Prefix (a.g.setChain (v.vi - 1) c).erase := by
    rw [Graph.erase_setChain]; exact Graph.Prefix.refl _
  have l2 : b.g.erase.Prefix (b.g.setChain (w.vi - 1) c).erase := by
    rw [Graph.erase_setChain]; exact Graph.Prefix.refl _
  have ev1 := Evo.ofSetChain (φ := fun _ => True) h1 hc trivial i1 ht1 k1
  have ev2 := Evo.ofSetChain (φ := fun _ => True) h1' hc trivial i2 ht2 k2
  refine ⟨⟨t1, a.g.setChain (v.vi - 1) c, a.val, a.adj⟩, ⟨t2, b.g.setChain (w.vi - 1) c, b.val, b.adj⟩, rfl, rfl,
    l1, l2, ?_, h.later (a' := ⟨t1, a.g.setChain (v.vi - 1) c, a.val, a.adj⟩)
      (b' := ⟨t2, b.g.setChain (w.vi - 1) c, b.val, b.adj⟩) l1 l2⟩
  refine ⟨i1, i2, ev1.cok t.cok1, ev2.cok t.cok2, by simpa only [ht1, ht2] using t.off, ?_, ?_, ?_, ?_, t.vals, t.adjs,
    t.outer, fun hn => (t.nest1 hn).keep k1, fun hn => (t.nest2 hn).keep k2⟩
  · simpa [Graph.setChain] using t.len
  · intro k x hk e
    simp only [Graph.setChain, List.getElem?_modify] at e
    cases hx : a.g.nodes[k]? with
    | none => rw [hx] at e; cases e
    | some y =>
      rw [hx] at e
      have := t.old1 k y hk hx
      simp only [Option.map_eq_map, Option.map_some, Option.some.injEq] at e
      rw [← e]
      split <;> exact this
  · intro k x hk e
    simp only [Graph.setChain, List.getElem?_modify] at e
    cases hx : b.g.nodes[k]? with
    | none => rw [hx] at e; cases e
    | some y =>
      rw [hx] at e
      have := t.old2 k y hk hx
      simp only [Option.map_eq_map, Option.map_some, Option.some.injEq] at e
      rw [← e]
      split <;> exact this
  · intro k x y e1 e2
    simp only [Graph.setChain, List.getElem?_modify] at e1 e2
    cases hx : a.g.nodes[B.n1 + k]? with
    | none => rw [hx] at e1; cases e1
    | some p =>
      cases hy : b.g.nodes[B.n2 + k]? with
      | none => rw [hy] at e2; cases e2
      | some q =>
        rw [hx] at e1
        rw [hy] at e2
        have nr := t.new k p q hx hy
        simp only [Option.map_eq_map, Option.map_some, Option.some.injEq] at e1 e2
        have pm : p ∈ a.g.nodes := List.mem_of_getElem? hx
        have qm : q ∈ b.g.nodes := List.mem_of_getElem? hy
        have hv1 := h1.2
        have hw1 := h1'.2
        -- the chain pointer of both is set, or of none
        have iff : v.vi - 1 = B.n1 + k ↔ w.vi - 1 = B.n2 + k := by
          obtain ⟨d, hd1, hd2⟩ := nr.pos
          constructor
          · intro he
            rw [he, hx] at hv1
            cases hv1
            rcases h.pr with ⟨d', hp, hq⟩ | he'
            · rw [← h2, hd1] at hp
              have : nd'.pos = q.pos := by rw [h2', hq, hd2]; omega
              have hqq := t.inv2.wf.pos_inj h1'.mem qm this
              subst hqq
              have l1 := (List.getElem?_eq_some_iff.mp hw1).1
              have l2 := (List.getElem?_eq_some_iff.mp hy).1
              have hlt := t.inv2.wf.sorted
              rw [List.pairwise_iff_getElem] at hlt
              rcases Nat.lt_trichotomy (w.vi - 1) (B.n2 + k) with h | h | h
              · have := hlt _ _ l1 l2 h
                rw [(List.getElem?_eq_some_iff.mp hw1).2, (List.getElem?_eq_some_iff.mp hy).2] at this
                simp [Node.len] at this
              · exact h
              · have := hlt _ _ l2 l1 h
                rw [(List.getElem?_eq_some_iff.mp hw1).2, (List.getElem?_eq_some_iff.mp hy).2] at this
                simp [Node.len] at this
            · have := (t.outer _ _ he').1
              omega
          · intro he
            rw [he, hy] at hw1
            cases hw1
            rcases h.pr with ⟨d', hp, hq⟩ | he'
            · rw [← h2', hd2] at hq
              have : nd.pos = p.pos := by rw [h2, hp, hd1]; omega
              have hqq := t.inv1.wf.pos_inj h1.mem pm this
              subst hqq
              have l1 := (List.getElem?_eq_some_iff.mp hv1).1
              have l2 := (List.getElem?_eq_some_iff.mp hx).1
              have hlt := t.inv1.wf.sorted
              rw [List.pairwise_iff_getElem] at hlt
              rcases Nat.lt_trichotomy (v.vi - 1) (B.n1 + k) with h | h | h
              · have := hlt _ _ l1 l2 h
                rw [(List.getElem?_eq_some_iff.mp hv1).2, (List.getElem?_eq_some_iff.mp hx).2] at this
                simp [Node.len] at this
              · exact h
              · have := hlt _ _ l2 l1 h
                rw [(List.getElem?_eq_some_iff.mp hv1).2, (List.getElem?_eq_some_iff.mp hx).2] at this
                simp [Node.len] at this
            · have := (t.outer _ _ he').2.1
              omega
        by_cases hc1 : v.vi - 1 = B.n1 + k
        · rw [if_pos hc1] at e1
          rw [if_pos (iff.mp hc1)] at e2
          subst e1 e2
          refine ⟨nr.pos, nr.len, nr.dops, ?_⟩
          have nk := nr.kind
          revert nk
          simp only
          split <;> simp_all
        · rw [if_neg hc1] at e1
          rw [if_neg fun hh => hc1 (iff.mpr hh)] at e2
          subst e1 e2
          exact nr

end Fz
