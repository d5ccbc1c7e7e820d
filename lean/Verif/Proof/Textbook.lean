import Verif.Proof.TwinGrad
import Verif.Proof.Plain
import Verif.Spec.Textbook

/-!
# The tape records the steps of the book
-/

set_option linter.unusedSectionVars false

namespace Fz
variable {W R : Type} [Arith R] [Rep W R] [LawfulRep W R]
open Arith Spec
variable {Z : Prop} {n0 : Nat} {T : List (Step R)}
variable {s s' s'' : St W} {g g' g'' : Graph R} {val adj val' adj' val'' adj'' : Nat → R}

/-- the operand `r` of the book is the record at position `p` -/
def RefAt (n0 : Nat) (g : Graph R) (r : Option Nat) (p : Nat) : Prop :=
  match r with
  | none => ∃ j nd, j < n0 ∧ g.nodes[j]? = some nd ∧ nd.pos = p
  | some k => ∃ nd, g.nodes[n0 + k]? = some nd ∧ nd.pos = p

/-- a record and a step -/
structure StepRel (n0 : Nat) (g : Graph R) (val : Nat → R) (nd : Node R) (c : Step R) : Prop where
  src : List.Forall₂ (RefAt n0 g) c.src nd.args
  pass : nd.args = [] ∨ ∀ (f : Nat → R) l, nd.contrib val f = some l → l = c.pass (f nd.pos)

/-- the records from number `n0` on are the steps `T`, with adjoints zero if `Z` -/
structure Booked (Z : Prop) (n0 : Nat) (T : List (Step R)) (s : St W) (g : Graph R) (val adj : Nat → R) : Prop where
  inv : Inv s g val adj
  cok : ∀ nd ∈ g.nodes, nd.ChainOK
  len : g.nodes.length = n0 + T.length
  rel : ∀ (k : Nat) nd c, g.nodes[n0 + k]? = some nd → T[k]? = some c → StepRel n0 g val nd c
  zero : Z → ∀ (k : Nat) nd, g.nodes[n0 + k]? = some nd → adj nd.pos = zero

/-- records and blocks were added -/
structure Ext (s : St W) (g : Graph R) (val : Nat → R) (s' : St W) (g' : Graph R) (val' : Nat → R) : Prop where
  nodes : g.nodes <+: g'.nodes
  blocks : g.blocks <+: g'.blocks
  val : ∀ p < s.tape.head, val' p = val p
  head : s.tape.head ≤ s'.tape.head
  keep : Keep s s'

theorem Ext.refl : Ext s g val s g val := ⟨List.prefix_refl _, List.prefix_refl _, fun _ _ => rfl, Nat.le_refl _, Keep.refl s⟩

theorem Ext.trans (h : Ext s g val s' g' val') (h' : Ext s' g' val' s'' g'' val'') : Ext s g val s'' g'' val'' :=
  ⟨h.nodes.trans h'.nodes, h.blocks.trans h'.blocks,
    fun p hp => by rw [h'.val p (Nat.lt_of_lt_of_le hp h.head), h.val p hp], Nat.le_trans h.head h'.head, h.keep.trans h'.keep⟩

theorem prefix_get {α : Type} {l l' : List α} (h : l <+: l') {k : Nat} {x : α} (e : l[k]? = some x) : l'[k]? = some x := by
  obtain ⟨t, rfl⟩ := h
  rw [List.getElem?_append_left (List.getElem?_eq_some_iff.mp e).1]
  exact e

theorem RefAt.mono (h : g.nodes <+: g'.nodes) {r : Option Nat} {p : Nat} (hr : RefAt n0 g r p) : RefAt n0 g' r p := by
  cases r with
  | none =>
    obtain ⟨j, nd, h1, h2, h3⟩ := hr
    exact ⟨j, nd, h1, prefix_get h h2, h3⟩
  | some k =>
    obtain ⟨nd, h1, h2⟩ := hr
    exact ⟨nd, prefix_get h h1, h2⟩

/-- the operand `x` of the book is the variable `v` -/
structure NumAt (n0 : Nat) (x : Num R) (v : Var) (g : Graph R) (val : Nat → R) : Prop where
  valR : ValR x.val v g val
  ref : match x.ref with | none => v.vi ≤ n0 | some k => v.vi = n0 + k + 1

/-- the same for lists -/
abbrev NumsAt (n0 : Nat) (xs : List (Num R)) (vs : List Var) (g : Graph R) (val : Nat → R) : Prop :=
  List.Forall₂ (fun x v => NumAt n0 x v g val) xs vs

theorem Ext.has (e : Ext s g val s' g' val') {v : Var} (h : g.Has v) : g'.Has v :=
  ⟨h.1, Nat.le_trans h.2 e.nodes.length_le⟩

theorem Ext.pos (e : Ext s g val s' g' val') {v : Var} (h : g.Has v) : g'.pos v = g.pos v := by
  obtain ⟨nd, h1, h2⟩ := h.at
  have : g'.At v nd := ⟨h1.1, prefix_get e.nodes h1.2⟩
  rw [this.pos_eq, h2]

theorem NumAt.later {x : Num R} {v : Var} (hv : NumAt n0 x v g val) (h : Inv s g val adj) (e : Ext s g val s' g' val') :
    NumAt n0 x v g' val' :=
  ⟨⟨e.has hv.valR.has, by rw [e.pos hv.valR.has, e.val _ (Graph.pos_below h hv.valR.has)]; exact hv.valR.eq⟩, hv.ref⟩

theorem NumsAt.later {xs : List (Num R)} {vs : List Var} (hv : NumsAt n0 xs vs g val) (h : Inv s g val adj)
    (e : Ext s g val s' g' val') : NumsAt n0 xs vs g' val' := hv.imp fun _ _ q => q.later h e

theorem NumsAt.valL {xs : List (Num R)} {vs : List Var} (hv : NumsAt n0 xs vs g val) :
    ValL (xs.map Num.val) vs g val := by
  induction hv with
  | nil => exact .nil
  | cons h _ ih => exact .cons h.valR ih

theorem NumAt.refAt {x : Num R} {v : Var} (hv : NumAt n0 x v g val) : RefAt n0 g x.ref (g.pos v) := by
  obtain ⟨nd, h1, h2⟩ := hv.valR.has.at
  have h3 := hv.ref
  have h4 := hv.valR.has.1
  cases hr : x.ref with
  | none =>
    rw [hr] at h3
    exact ⟨v.vi - 1, nd, by simp only at h3; omega, h1.2, h2⟩
  | some k =>
    rw [hr] at h3
    simp only at h3
    exact ⟨nd, by rw [show n0 + k = v.vi - 1 by omega]; exact h1.2, h2⟩

theorem NumsAt.refs {xs : List (Num R)} {vs : List Var} (hv : NumsAt n0 xs vs g val) :
    List.Forall₂ (RefAt n0 g) (xs.map Num.ref) (vs.map g.pos) := by
  induction hv with
  | nil => exact .nil
  | cons h _ ih => exact .cons h.refAt ih

/-! ## contributions depend on the values of operands only -/

theorem contrib_vals {nd : Node R} (h1 : val' nd.pos = val nd.pos) (h2 : ∀ p ∈ nd.args, val' p = val p) (f : Nat → R) :
    nd.contrib val' f = nd.contrib val f := by
  obtain ⟨p, ops, dops, ch, kd⟩ := nd
  cases kd with
  | plain =>
    have : ops.map val' = ops.map val := List.map_congr_left fun q hq => h2 q hq
    simp only [Node.contrib, this, h1]
  | mmVV r c =>
    have : (r ++ c).map val' = (r ++ c).map val := List.map_congr_left fun q hq => h2 q hq
    simp only [Node.contrib, this]
  | mmVD r d => rfl
  | mmDV d c => rfl

theorem StepRel.later {nd : Node R} {c : Step R} (h : StepRel n0 g val nd c) (hi : Inv s g val adj)
    (hn : nd ∈ g.nodes) (e : Ext s g val s' g' val') : StepRel n0 g' val' nd c := by
  have hb : nd.pos < s.tape.head := by
    have := (hi.wf.below nd hn).2
    simp only [Node.len] at this
    omega
  refine ⟨h.src.imp fun _ _ q => q.mono e.nodes, h.pass.imp id fun q f l hl => q f l ?_⟩
  rw [← hl]
  refine (contrib_vals (e.val _ hb) (fun p hp => e.val p ?_) f).symm
  have := (hi.wf.args nd hn p hp).1
  omega

/-! ## rules -/

/-- `m` writes the steps `b` -/
def Writes {α β : Type} (Z : Prop) (n0 : Nat) (T : List (Step R)) (s : St W) (g : Graph R) (val : Nat → R) (m : M W α)
    (b : Log R β) (Q : β → α → Graph R → (Nat → R) → Prop) : Prop :=
  ∀ r s', m s = .ok (r, s') → ∃ g' val' adj', Ext s g val s' g' val' ∧ Booked Z n0 (b T).2 s' g' val' adj' ∧
    Q (b T).1 r g' val'

section rules
variable {α β γ δ : Type} {Q : β → α → Graph R → (Nat → R) → Prop} {Q' : δ → γ → Graph R → (Nat → R) → Prop}

theorem Writes.ret (h : Booked Z n0 T s g val adj) {r : α} {x : β} (hq : Q x r g val) :
    Writes Z n0 T s g val (pure r : M W α) (Log.ret x) Q := by
  intro r' s' e
  cases e
  exact ⟨g, val, adj, Ext.refl, h, hq⟩

theorem Writes.fail {b : Log R β} (e : Err) : Writes Z n0 T s g val (Fz.fail e : M W α) b Q := by
  intro r' s' h
  cases h

theorem Writes.next {m : M W α} {k : α → M W γ} {b : Log R β} {l : β → Log R δ} (hm : Writes Z n0 T s g val m b Q)
    (hk : ∀ x r T' s' g' val' adj', Ext s g val s' g' val' → Booked Z n0 T' s' g' val' adj' → Q x r g' val' →
      Writes Z n0 T' s' g' val' (k r) (l x) Q') :
    Writes Z n0 T s g val (m >>= k) (b.next l) Q' := by
  intro r s'' e
  obtain ⟨a, s', h1, h2⟩ := bind_inv e
  obtain ⟨g', val', adj', ev, hb, hq⟩ := hm a s' h1
  obtain ⟨g'', val'', adj'', ev', hb', hq'⟩ := hk _ a _ s' g' val' adj' ev hb hq r s'' h2
  exact ⟨g'', val'', adj'', ev.trans ev', hb', hq'⟩

theorem Writes.read {m : M W α} {k : α → M W γ} {a : α} {b : Log R δ} (hm : m s = .ok (a, s))
    (hk : Writes Z n0 T s g val (k a) b Q') : Writes Z n0 T s g val (m >>= k) b Q' := by
  intro r s' e
  rw [bind_ok hm] at e
  exact hk r s' e

end rules

/-! ## one record -/

theorem Ext.ofGrown {nd : Node R} {v : R} (hp : nd.pos = s.tape.head) (gr : Inv.Grown s g val adj nd v s') :
    Ext s g val s' (g.push nd) (upd val nd.pos v) :=
  ⟨List.prefix_append _ _, List.prefix_refl _, fun p h => upd_ne _ _ (by omega), by rw [gr.head]; omega, gr.keep⟩

theorem Booked.grown (h : Booked Z n0 T s g val adj) {nd : Node R} {v : R} (hp : nd.pos = s.tape.head) (hc : nd.ChainOK)
    (gr : Inv.Grown s g val adj nd v s') {c : Step R} (hs : List.Forall₂ (RefAt n0 g) c.src nd.args)
    (hpass : nd.args = [] ∨ ∀ (f : Nat → R) l, nd.contrib (upd val nd.pos v) f = some l → l = c.pass (f nd.pos)) :
    Booked Z n0 (T ++ [c]) s' (g.push nd) (upd val nd.pos v) (upd adj nd.pos Arith.zero) := by
  have ex := Ext.ofGrown hp gr
  have hl := h.len
  refine ⟨gr.inv, ?_, ?_, ?_, ?_⟩
  · intro x hx
    rcases List.mem_append.mp hx with hx | hx
    · exact h.cok x hx
    · rw [List.mem_singleton.mp hx]; exact hc
  · simp [Graph.push, h.len]; omega
  · intro k x y hx hy
    by_cases hk : k < T.length
    · simp only [Graph.push] at hx
      rw [List.getElem?_append_left (by omega)] at hx
      rw [List.getElem?_append_left hk] at hy
      exact (h.rel k x y hx hy).later h.inv (List.mem_of_getElem? hx) ex
    · have h1 := (List.getElem?_eq_some_iff.mp hy).1
      simp only [List.length_append, List.length_singleton] at h1
      obtain rfl : k = T.length := by omega
      simp only [Graph.push] at hx
      rw [List.getElem?_append_right (by omega)] at hx hy
      simp only [Nat.sub_self, List.getElem?_cons_zero, Option.some.injEq] at hy
      rw [show n0 + T.length - g.nodes.length = 0 by omega] at hx
      simp only [List.getElem?_cons_zero, Option.some.injEq] at hx
      subst hx hy
      exact ⟨hs.imp fun _ _ q => q.mono ex.nodes, hpass⟩
  · intro hz k x hx
    by_cases hk : k < T.length
    · simp only [Graph.push] at hx
      rw [List.getElem?_append_left (by omega)] at hx
      have := (h.inv.wf.below x (List.mem_of_getElem? hx)).2
      simp only [Node.len] at this
      rw [upd_ne _ _ (by omega)]
      exact h.zero hz k x hx
    · have h1 := (List.getElem?_eq_some_iff.mp hx).1
      simp only [Graph.push, List.length_append, List.length_singleton] at h1 hx
      rw [List.getElem?_append_right (by omega), show n0 + k - g.nodes.length = 0 by omega] at hx
      simp only [List.getElem?_cons_zero, Option.some.injEq] at hx
      subst hx
      simp

theorem writes_grown (h : Booked Z n0 T s g val adj) {m : M W Var} {nd : Node R} {v : R} {xs : List (Num R)}
    {pass : R → List R} (hp : nd.pos = s.tape.head) (hc : nd.ChainOK)
    (hm : ∀ r s', m s = .ok (r, s') → r = ⟨s.vhead⟩ ∧ Inv.Grown s g val adj nd v s')
    (hs : List.Forall₂ (RefAt n0 g) (xs.map Num.ref) nd.args)
    (hpass : nd.args = [] ∨ ∀ (f : Nat → R) l, nd.contrib (upd val nd.pos v) f = some l → l = pass (f nd.pos)) :
    Writes Z n0 T s g val m (step v xs pass) (NumAt n0) := by
  intro r s' e
  obtain ⟨rfl, gr⟩ := hm r s' e
  refine ⟨_, _, _, Ext.ofGrown hp gr, h.grown hp hc gr hs hpass, ?_, ?_⟩
  · rw [h.inv.vhead]
    exact ⟨g.has_last nd, by rw [Graph.pos_last, upd_self]; rfl⟩
  · show s.vhead = n0 + T.length + 1
    rw [h.inv.vhead, h.len]

section ops
variable (h : Booked Z n0 T s g val adj)
include h

theorem writes_plain {m : M W Var} {vs : List Var} {xs : List (Num R)} (hv : NumsAt n0 xs vs g val) {v : R} {c : Chain}
    {ds : List R} (hc : c.notMM) {pass : R → List R}
    (hm : ∀ r s', m s = .ok (r, s') → r = ⟨s.vhead⟩ ∧
      Inv.Grown s g val adj ⟨s.tape.head, vs.map g.pos, ds, c, .plain⟩ v s')
    (hp : ∀ a l, contribPlain c v a (xs.map Num.val) ds = some l → l = pass a) :
    Writes Z n0 T s g val m (step v xs pass) (NumAt n0) := by
  refine writes_grown h rfl (hc.ok _ _ _) hm hv.refs (Or.inr fun f l hl => hp _ _ ?_)
  rw [← hl]
  have : (vs.map g.pos).map (upd val s.tape.head v) = xs.map Num.val := by
    rw [← hv.valL.eq, List.map_map]
    refine List.map_congr_left fun w hw => upd_ne _ _ ?_
    have := Graph.pos_below h.inv (hv.valL.has w hw)
    omega
  simp only [Node.contrib, this, upd_self]

theorem writes_newOp {vs : List Var} {xs : List (Num R)} (hv : NumsAt n0 xs vs g val) {v : R} {c : Chain}
    (hc : c.notMM) {pass : R → List R} (hp : ∀ a l, contribPlain c v a (xs.map Num.val) [] = some l → l = pass a) :
    Writes Z n0 T s g val (do let w ← newVarOp v vs; w.setChain c; pure w : M W Var) (step v xs pass) (NumAt n0) :=
  writes_plain h hv hc (newOp_inv h.inv hv.valL.has v c) hp

theorem writes_newOpDop {vs : List Var} {xs : List (Num R)} (hv : NumsAt n0 xs vs g val) {v : R} {c : Chain}
    {ds : List R} (hc : c.notMM) {pass : R → List R}
    (hp : ∀ a l, contribPlain c v a (xs.map Num.val) ds = some l → l = pass a) :
    Writes Z n0 T s g val (do let w ← newVarOpDop v vs ds; w.setChain c; pure w : M W Var) (step v xs pass) (NumAt n0) :=
  writes_plain h hv hc (newOpDop_inv h.inv hv.valL.has v ds c) hp

theorem writes_newVar (v : R) : Writes Z n0 T s g val (newVar v : M W Var) (input v) (NumAt n0) :=
  writes_grown h (nd := ⟨s.tape.head, [], [], (s.varis s.vhead).chain, .plain⟩) rfl (fun _ => rfl)
    (newVar_inv h.inv v) .nil (Or.inl rfl)

variable {v v1 v2 : Var} {x x1 x2 : Num R}

theorem writes_unary (hv : NumAt n0 x v g val) (f : R → R) {c : Chain} (hc : c.notMM) {pass : R → List R}
    (hp : ∀ a l, contribPlain c (f x.val) a [x.val] [] = some l → l = pass a) :
    Writes Z n0 T s g val (unary f c v : M W Var) (step (f x.val) [x] pass) (NumAt n0) := by
  unfold unary
  exact Writes.read (hv.valR.read h.inv) (writes_newOp h (.cons hv .nil) hc hp)

theorem writes_unaryData (hv : NumAt n0 x v g val) (f : R → R) (d : R) {c : Chain} (hc : c.notMM) {pass : R → List R}
    (hp : ∀ a l, contribPlain c (f x.val) a [x.val] [d] = some l → l = pass a) :
    Writes Z n0 T s g val (unaryData f d c v : M W Var) (step (f x.val) [x] pass) (NumAt n0) := by
  unfold unaryData
  exact Writes.read (hv.valR.read h.inv) (writes_newOpDop h (.cons hv .nil) hc hp)

theorem writes_binary (h1 : NumAt n0 x1 v1 g val) (h2 : NumAt n0 x2 v2 g val) (f : R → R → R) {c : Chain}
    (hc : c.notMM) {pass : R → List R}
    (hp : ∀ a l, contribPlain c (f x1.val x2.val) a [x1.val, x2.val] [] = some l → l = pass a) :
    Writes Z n0 T s g val (binary f c v1 v2 : M W Var) (step (f x1.val x2.val) [x1, x2] pass) (NumAt n0) := by
  unfold binary
  exact Writes.read (h1.valR.read h.inv) (Writes.read (h2.valR.read h.inv) (writes_newOp h (.cons h1 (.cons h2 .nil)) hc hp))

theorem writes_reduceV {vs : List Var} {xs : List (Num R)} (hv : NumsAt n0 xs vs g val) (f : List R → R) {c : Chain}
    (hc : c.notMM) {pass : R → List R}
    (hp : ∀ a l, contribPlain c (f (xs.map Num.val)) a (xs.map Num.val) [] = some l → l = pass a) :
    Writes Z n0 T s g val (reduceV f c vs : M W Var) (step (f (xs.map Num.val)) xs pass) (NumAt n0) := by
  unfold reduceV
  exact Writes.read (hv.valL.read h.inv) (writes_newOp h hv hc hp)

theorem writes_fn (hv : NumAt n0 x v g val) (f : Fn) (hf : f ≠ .invSquare) :
    Writes Z n0 T s g val (f.api v : M W Var) (f.write x) (NumAt n0) := by
  cases f
  case invSquare => exact absurd rfl hf
  case pos => exact Writes.ret h hv
  case abs =>
    unfold Fn.api Fn.write absV
    refine Writes.read (hv.valR.read h.inv) ?_
    dsimp only
    by_cases h1 : flt (zero : R) x.val = true
    · have h1' : fgt x.val (zero : R) = true := h1
      rw [if_pos h1', if_pos h1]; exact Writes.ret h hv
    have h1' : ¬ fgt x.val (zero : R) = true := h1
    rw [if_neg h1', if_neg h1]
    by_cases h2 : flt x.val (zero : R) = true
    · rw [if_pos h2, if_pos h2]
      exact writes_unary h hv _ (by decide) fun a l e => by
        simp only [contribPlain, cAll] at e; simpa using e.symm
    rw [if_neg h2, if_neg h2]
    by_cases h3 : feq x.val (zero : R) = true
    · rw [if_pos h3, if_pos h3]; exact writes_newVar h zero
    rw [if_neg h3, if_neg h3]
    refine writes_newOp h (.cons hv .nil) (by decide) fun a l e => ?_
    simp only [contribPlain, cAll, isNanD, fne] at e
    by_cases hn : feq (nan : R) nan = true
    · simp only [hn] at e ⊢; simpa using e.symm
    · simp only [hn] at e ⊢; simpa using e.symm
  case acosh =>
    unfold Fn.api Fn.write acoshV
    refine Writes.read (hv.valR.nan h.inv) ?_
    dsimp only
    by_cases h1 : feq x.val x.val = true
    · simp only [isNanD, fne, h1, Bool.not_true, Bool.false_eq_true, if_false, if_true]
      refine Writes.read (hv.valR.rel h.inv _ _) ?_
      split
      · exact Writes.fail _
      · simp only [Fn.plain, h1, if_true]
        exact writes_unary h hv _ (by decide) fun a l e => by
          simp only [contribPlain, cUn] at e; simpa [Fn.pass] using e.symm
    · simp only [isNanD, fne, h1, Bool.not_false, if_true]
      exact Writes.ret h hv
  case atanh =>
    unfold Fn.api Fn.write atanhV
    refine Writes.read (hv.valR.nan h.inv) ?_
    dsimp only
    by_cases h1 : feq x.val x.val = true
    · simp only [isNanD, fne, h1, Bool.not_true, Bool.false_eq_true, if_false, if_true]
      refine Writes.read (hv.valR.rel h.inv _ _) (Writes.read (hv.valR.rel h.inv _ _) ?_)
      split
      · exact Writes.fail _
      · simp only [Fn.plain, h1, if_true]
        exact writes_unary h hv _ (by decide) fun a l e => by
          simp only [contribPlain, cUn] at e; simpa [Fn.pass] using e.symm
    · simp only [isNanD, fne, h1, Bool.not_false, if_true]
      exact Writes.ret h hv
  all_goals
    exact writes_unary h hv _ (by decide) fun a l e => by
      simp only [contribPlain, cUn, cAll] at e
      simpa [Fn.pass, Fn.plain] using e.symm

theorem writes_binVV (h1 : NumAt n0 x1 v1 g val) (h2 : NumAt n0 x2 v2 g val) (f : Bin) :
    Writes Z n0 T s g val (f.callVV v1 v2 : M W Var) (f.write x1 x2) (NumAt n0) := by
  cases f
  case pow =>
    refine writes_binary h h1 h2 _ (by decide) fun a l e => ?_
    simp only [contribPlain, cBin, fne] at e
    simp only [Bin.pass, Bin.plain]
    by_cases hz : feq x1.val (zero : R) = true
    · simp only [hz] at e ⊢; simpa using e.symm
    · simp only [hz] at e ⊢; simpa using e.symm
  all_goals
    exact writes_binary h h1 h2 _ (by decide) fun a l e => by
      simp only [contribPlain, cBin, cAll] at e
      simpa [Bin.pass, Bin.plain] using e.symm

theorem writes_binVD (hv : NumAt n0 x v g val) (f : Bin) (d : R)
    (hs : f = .hypot → fne d (zero : R) = true)
    (hp : f = .pow → feq d half = true ∨ feq d one = true ∨ feq d two = true ∨ feq d (neg two) = false)
    (hz : f = .add ∨ f = .sub → feq d (zero : R) = false) (ho : f = .mul ∨ f = .div → feq d (one : R) = false) :
    Writes Z n0 T s g val (f.callVD v d : M W Var) (f.writeVD x d) (NumAt n0) := by
  cases f
  case add =>
    have hz := hz (Or.inl rfl)
    unfold Bin.callVD Bin.writeVD addVD
    simp only [fne, hz, Bool.not_false, if_true, Bin.plainVD, Bool.false_eq_true, if_false]
    exact writes_unary h hv (fun x => x +. d) (by decide) fun a l e => by
      simp only [contribPlain, cAll] at e
      simpa [Bin.passVD] using e.symm
  case sub =>
    have hz := hz (Or.inr rfl)
    unfold Bin.callVD Bin.writeVD subVD
    simp only [fne, hz, Bool.not_false, if_true, Bin.plainVD, Bool.false_eq_true, if_false]
    exact writes_unary h hv (fun x => x -. d) (by decide) fun a l e => by
      simp only [contribPlain, cAll] at e
      simpa [Bin.passVD] using e.symm
  case mul =>
    have ho := ho (Or.inl rfl)
    unfold Bin.callVD Bin.writeVD mulVD
    simp only [fne, ho, Bool.not_false, if_true, Bin.plainVD, Bool.false_eq_true, if_false]
    exact writes_unaryData h hv (fun x => x *. d) d (by decide) fun a l e => by
      simp only [contribPlain, cDat, cAll] at e
      simpa [Bin.passVD] using e.symm
  case div =>
    have ho := ho (Or.inr rfl)
    unfold Bin.callVD Bin.writeVD divVD
    simp only [fne, ho, Bool.not_false, if_true, Bin.plainVD, Bool.false_eq_true, if_false]
    exact writes_unaryData h hv (fun x => x /. d) d (by decide) fun a l e => by
      simp only [contribPlain, cDat, cAll] at e
      simpa [Bin.passVD] using e.symm
  case pow =>
    have hp := hp rfl
    unfold Bin.callVD Bin.writeVD powVD
    dsimp only
    by_cases c1 : feq d (half : R) = true
    · rw [if_pos c1, if_pos c1]; exact writes_fn h hv .sqrt (by decide)
    rw [if_neg c1, if_neg c1]
    by_cases c2 : feq d (one : R) = true
    · rw [if_pos c2, if_pos c2]; exact Writes.ret h hv
    rw [if_neg c2, if_neg c2]
    by_cases c3 : feq d (two : R) = true
    · rw [if_pos c3, if_pos c3]; exact writes_fn h hv .square (by decide)
    have c4 : ¬ feq d (neg two : R) = true := by
      rcases hp with hp | hp | hp | hp
      · exact absurd hp c1
      · exact absurd hp c2
      · exact absurd hp c3
      · simp [hp]
    rw [if_neg c3, if_neg c3, if_neg c4]
    by_cases c5 : feq d (neg one : R) = true
    · rw [if_pos c5, if_pos c5]; exact writes_fn h hv .inv (by decide)
    rw [if_neg c5, if_neg c5]
    by_cases c6 : feq d (neg half : R) = true
    · rw [if_pos c6, if_pos c6]; exact writes_fn h hv .invSqrt (by decide)
    rw [if_neg c6, if_neg c6]
    have hv' : Bin.pow.plainVD x.val d = pow x.val d := by
      simp only [Bin.plainVD, if_neg c1, if_neg c2, if_neg c3, if_neg c4, if_neg c5, if_neg c6]
    rw [hv']
    refine writes_unaryData h hv (fun x => pow x d) d (by decide) fun a l e => ?_
    simp only [contribPlain, fne] at e
    simp only [Bin.passVD]
    by_cases hz : feq x.val (zero : R) = true
    · simp only [hz] at e ⊢; simpa using e.symm
    · simp only [hz] at e ⊢; simpa using e.symm
  case hypot =>
    unfold Bin.callVD Bin.writeVD hypotVD
    simp only [if_pos (hs rfl)]
    refine Writes.read (hv.valR.read h.inv) (writes_newOp h (.cons hv .nil) (by decide) fun a l e => ?_)
    simp only [contribPlain] at e
    simpa [Bin.passVD, Bin.plainVD] using e.symm

theorem writes_binDV (hc : Commutes R) (hv : NumAt n0 x v g val) (f : Bin) (d : R)
    (hs : f = .hypot → fne d (zero : R) = true)
    (hz : f = .add → feq d (zero : R) = false) (ho : f = .mul → feq d (one : R) = false) :
    Writes Z n0 T s g val (f.callDV d v : M W Var) (f.writeDV d x) (NumAt n0) := by
  cases f
  case add =>
    have hz := hz rfl
    unfold Bin.callDV Bin.writeDV addDV
    simp only [fne, hz, Bool.not_false, if_true, Bin.plainDV, Bool.false_eq_true, if_false]
    exact writes_unary h hv (fun x => d +. x) (by decide) fun a l e => by
      simp only [contribPlain, cAll] at e
      simpa [Bin.passDV] using e.symm
  case sub =>
    exact writes_unary h hv (fun x => d -. x) (by decide) fun a l e => by
      simp only [contribPlain, cAll] at e
      simpa [Bin.passDV] using e.symm
  case mul =>
    have ho := ho rfl
    unfold Bin.callDV Bin.writeDV mulDV
    simp only [fne, ho, Bool.not_false, if_true, Bin.plainDV, Bool.false_eq_true, if_false]
    rw [hc.mul d x.val]
    exact writes_unaryData h hv (fun x => x *. d) d (by decide) fun a l e => by
      simp only [contribPlain, cDat, cAll] at e
      simpa [Bin.passDV] using e.symm
  case div =>
    exact writes_unaryData h hv (fun x => d /. x) d (by decide) fun a l e => by
      simp only [contribPlain, cUn] at e
      simpa [Bin.passDV, Bin.plainDV] using e.symm
  case pow =>
    refine writes_unaryData h hv (fun x => pow d x) d (by decide) fun a l e => ?_
    simp only [contribPlain, fne, cAll] at e
    simp only [Bin.passDV, Bin.plainDV]
    by_cases hz : feq d (zero : R) = true
    · simp only [hz] at e ⊢; simpa using e.symm
    · simp only [hz] at e ⊢; simpa using e.symm
  case hypot =>
    unfold Bin.callDV Bin.writeDV hypotDV
    simp only [if_pos (hs rfl), Bin.plainDV]
    rw [hc.hypot d x.val]
    refine Writes.read (hv.valR.read h.inv) (writes_newOp h (.cons hv .nil) (by decide) fun a l e => ?_)
    simp only [contribPlain] at e
    simpa [Bin.passDV] using e.symm

variable {a b : List Var} {xs ys : List (Num R)}

theorem writes_dotVV (ha : NumsAt n0 xs a g val) (hb : NumsAt n0 ys b g val) :
    Writes Z n0 T s g val (dotVV (R := R) a b : M W Var) (dotStep (fdot (xs.map Num.val) (ys.map Num.val)) xs ys)
      (NumAt n0) := by
  unfold dotVV
  refine Writes.read (ha.valL.read h.inv) (Writes.read (hb.valL.read h.inv) ?_)
  split
  · rename_i hl
    refine writes_newOp h (List.rel_append ha hb) (by decide) fun ad l e => ?_
    have e1 : xs.length = a.length := ha.length_eq
    have e2 : ys.length = b.length := hb.length_eq
    have hlen : (xs.map Num.val).length = (ys.map Num.val).length := by simp only [List.length_map]; omega
    simp only [contribPlain, cDot, List.map_append, List.length_append, hlen] at e
    rw [show ((ys.map Num.val).length + (ys.map Num.val).length) / 2 = (ys.map Num.val).length by omega] at e
    rw [List.drop_left' hlen, List.take_left' hlen, List.take_length] at e
    simpa [Function.comp_def] using e.symm
  · exact Writes.fail _

theorem writes_dotVD (ha : NumsAt n0 xs a g val) (ds : List R) :
    Writes Z n0 T s g val (dotVD a ds : M W Var) (step (fdot (xs.map Num.val) ds) xs fun a => ds.map fun d => a *. d)
      (NumAt n0) := by
  unfold dotVD
  refine Writes.read (ha.valL.read h.inv) ?_
  split
  · rename_i hl
    refine writes_newOpDop h ha (by decide) fun ad l e => ?_
    simp only [contribPlain, cAll] at e
    split at e
    · exact (Option.some.inj e).symm
    · cases e
  · exact Writes.fail _

theorem writes_dotDV (ha : NumsAt n0 xs a g val) (ds : List R) :
    Writes Z n0 T s g val (dotDV ds a : M W Var) (step (fdot ds (xs.map Num.val)) xs fun a => ds.map fun d => a *. d)
      (NumAt n0) := by
  unfold dotDV
  refine Writes.read (ha.valL.read h.inv) ?_
  split
  · rename_i hl
    refine writes_newOpDop h ha (by decide) fun ad l e => ?_
    simp only [contribPlain, cAll] at e
    split at e
    · exact (Option.some.inj e).symm
    · cases e
  · exact Writes.fail _

theorem writes_varWithPartials (ha : NumsAt n0 xs a g val) (v : R) (ds : List R) {pass : R → List R}
    (hp : a.length ≤ ds.length → pass = fun a => (ds.take xs.length).map fun d => a *. d) :
    Writes Z n0 T s g val (varWithPartials v a ds : M W Var) (step v xs pass) (NumAt n0) := by
  unfold varWithPartials
  split
  · exact Writes.fail _
  · rename_i hl
    rw [hp (by omega), ha.length_eq]
    refine writes_newOpDop h ha (by decide) fun ad l e => ?_
    simp only [contribPlain] at e
    split at e
    · exact (Option.some.inj e).symm
    · cases e

theorem contrib_user {r : URule} {v a : R} {xs ds l : List R} (e : contribPlain (.user r) v a xs ds = some l) :
    l = userPass r v xs ds a := by
  simp only [contribPlain, cUser] at e
  cases r with
  | fixed n m es =>
    simp only at e
    split at e
    · exact (Option.some.inj e).symm
    · cases e
  | each m le =>
    simp only at e
    split at e
    · exact (Option.some.inj e).symm
    · cases e

theorem writes_userOp (ha : NumsAt n0 xs a g val) (v : R) (r : URule) (ds : List R) :
    Writes Z n0 T s g val (userOp v r a ds : M W Var) (step v xs fun a => userPass r v (xs.map Num.val) ds a)
      (NumAt n0) := by
  unfold userOp
  cases ds with
  | nil => exact writes_newOp h ha (Chain.notMM_user r) fun ad l e => contrib_user h e
  | cons d ds => exact writes_newOpDop h ha (Chain.notMM_user r) fun ad l e => contrib_user h e

end ops

/-! ## matrix products -/

/-- the entries are variables of the book -/
def MatNum (n0 : Nat) (X : Nat → Nat → Num R) (a : Mat Var) (g : Graph R) (val : Nat → R) : Prop :=
  ∀ i < a.nrow, ∀ j < a.ncol, NumAt n0 (X i j) (a.get i j) g val

section mat
variable {X Y : Nat → Nat → Num R} {a b : Mat Var}

theorem MatNum.matVal (h : MatNum n0 X a g val) : MatVal (fun i j => (X i j).val) a g val :=
  fun i hi j hj => (h i hi j hj).valR

theorem MatNum.has (h : MatNum n0 X a g val) : Inv.MatHas g a := h.matVal.hasF.has

theorem MatNum.later (h : MatNum n0 X a g val) (hi : Inv s g val adj) (e : Ext s g val s' g' val') :
    MatNum n0 X a g' val' := fun i hi' j hj => (h i hi' j hj).later hi e

theorem MatNum.row (h : MatNum n0 X a g val) {i : Nat} (hi : i < a.nrow) :
    NumsAt n0 ((List.range a.ncol).map fun k => X i k) (a.row i) g val := by
  unfold Mat.row
  rw [NumsAt, List.forall₂_map_left_iff, List.forall₂_map_right_iff, List.forall₂_same]
  exact fun k hk => h i hi k (List.mem_range.mp hk)

theorem MatNum.col (h : MatNum n0 X a g val) {j : Nat} (hj : j < a.ncol) :
    NumsAt n0 ((List.range a.nrow).map fun k => X k j) (a.col j) g val := by
  unfold Mat.col
  rw [NumsAt, List.forall₂_map_left_iff, List.forall₂_map_right_iff, List.forall₂_same]
  exact fun k hk => h k (List.mem_range.mp hk) j hj

theorem cmRow_pos (a : Mat Var) (f : Var → Nat) {i : Nat} (hi : i < a.nrow) :
    cmRow (a.flat.map f) a.nrow a.ncol i = (a.row i).map f := by
  rw [flat_map]
  have := cmRow_flat (⟨a.nrow, a.ncol, fun i j => f (a.get i j)⟩ : Mat Nat) (i := i) hi
  simp only at this
  rw [this]
  simp [Mat.row, Function.comp_def]

theorem cmCol_pos (a : Mat Var) (f : Var → Nat) {j : Nat} (hj : j < a.ncol) :
    cmCol (a.flat.map f) a.nrow j = (a.col j).map f := by
  rw [flat_map]
  have := cmCol_flat (⟨a.nrow, a.ncol, fun i j => f (a.get i j)⟩ : Mat Nat) (j := j) hj
  simp only at this
  rw [this]
  simp [Mat.col, Function.comp_def]

theorem Ext.ofGrownB {x : Block R} (gr : Inv.GrownB s g val adj x s') : Ext s g val s' (g.pushB x) val :=
  ⟨List.prefix_refl _, List.prefix_append _ _, fun _ _ => rfl, by rw [gr.head]; omega, gr.keep⟩

theorem Booked.grownB (h : Booked Z n0 T s g val adj) {x : Block R} (gr : Inv.GrownB s g val adj x s') :
    Booked Z n0 T s' (g.pushB x) val adj :=
  ⟨gr.inv, h.cok, h.len, fun k nd c hn hc => (h.rel k nd c hn hc).later h.inv (List.mem_of_getElem? hn) (Ext.ofGrownB gr),
    h.zero⟩

/-- the values do not change when a record is added -/
theorem NumsAt.vals_upd {xs : List (Num R)} {vs : List Var} (hv : NumsAt n0 xs vs g val) (h : Inv s g val adj) (v : R) :
    (vs.map g.pos).map (upd val s.tape.head v) = xs.map Num.val := by
  rw [← hv.valL.eq, List.map_map]
  refine List.map_congr_left fun w hw => upd_ne _ _ ?_
  have := Graph.pos_below h (hv.valL.has w hw)
  omega

theorem writes_matmulLoop (c : Chain) (la lb : Nat) (f : Nat → Nat → R) (k : Nat × Nat → Log R (Num R)) :
    ∀ (ps : List (Nat × Nat)) {T : List (Step R)} {s : St W} {g : Graph R} {val adj : Nat → R}, Booked Z n0 T s g val adj →
    (∀ p ∈ ps, ∀ {T' : List (Step R)} {s' : St W} {g' : Graph R} {val' adj' : Nat → R}, Ext s g val s' g' val' →
      Booked Z n0 T' s' g' val' adj' → Writes Z n0 T' s' g' val'
        (do let w ← newVarOpId (f p.1 p.2) [p.1 + 1, p.2 + 1, la, lb]; w.setChain c; pure w : M W Var) (k p) (NumAt n0)) →
    Writes Z n0 T s g val (matmulLoop c la lb f ps : M W (List Var)) (Log.each k ps) (NumsAt n0) := by
  intro ps
  induction ps with
  | nil => intro T s g val adj h _; exact Writes.ret h .nil
  | cons p ps ih =>
    obtain ⟨i, j⟩ := p
    intro T s g val adj h hk
    have e : (matmulLoop c la lb f ((i, j) :: ps) : M W (List Var)) =
        ((do let w ← newVarOpId (f i j) [i + 1, j + 1, la, lb]; w.setChain c; pure w) >>= fun s => do
          let ss ← matmulLoop c la lb f ps
          pure (s :: ss)) := by
      simp only [matmulLoop, bind_assoc, pure_bind]
    rw [e]
    refine Writes.next (hk (i, j) (by simp) Ext.refl h) fun y r T1 s1 g1 val1 adj1 ev b1 hr => ?_
    refine Writes.next (ih b1 fun q hq T' s' g' val' adj' ev' b' => hk q (List.mem_cons_of_mem _ hq) (ev.trans ev') b')
      fun ys rs T2 s2 g2 val2 adj2 ev2 b2 hrs => ?_
    exact Writes.ret b2 (.cons (hr.later b1.inv ev2) hrs)

theorem writes_newOpId (h : Booked Z n0 T s g val adj) {v : R} {nd : Node R} (hc : Inv.CanPush g s.tape.head nd)
    (hd : nd.dops = []) (hok : nd.ChainOK) {xs : List (Num R)} {vs : List Var} (hv : NumsAt n0 xs vs g val)
    (ha : nd.args = vs.map g.pos) {pass : R → List R}
    (hp : ∀ (f : Nat → R) l, nd.contrib (upd val nd.pos v) f = some l → l = pass (f nd.pos)) :
    Writes Z n0 T s g val (do let w ← newVarOpId v nd.ops; w.setChain nd.chain; pure w : M W Var) (step v xs pass)
      (NumAt n0) :=
  writes_grown h hc.pos hok (newOpId_inv h.inv v hc hd) (by rw [ha]; exact hv.refs) (Or.inr hp)

theorem Writes.pushVar {α β : Type} {k : Nat → M W α} {b' : Log R β} {Q : β → α → Graph R → (Nat → R) → Prop}
    (h : Booked Z n0 T s g val adj) (ha : Inv.MatHas g a) (h1 : a.nrow ≤ int32Max) (h2 : a.ncol ≤ int32Max)
    (hk : ∀ s1, Inv.GrownB s g val adj (.vb s.tape.head a.nrow a.ncol (a.flat.map g.pos)) s1 →
      Writes Z n0 T s1 (g.pushB (.vb s.tape.head a.nrow a.ncol (a.flat.map g.pos))) val (k s.tape.head) b' Q) :
    Writes Z n0 T s g val (Fz.pushVarMat a >>= k : M W α) b' Q := by
  intro r s' e
  obtain ⟨la, s1, e1, e⟩ := bind_inv e
  obtain ⟨rfl, gr1⟩ := pushVarMat_inv h.inv ha h1 h2 e1
  obtain ⟨g', val', adj', q1, q2, q3⟩ := hk s1 gr1 r s' e
  exact ⟨g', val', adj', (Ext.ofGrownB gr1).trans q1, q2, q3⟩

theorem Writes.pushData {α β : Type} {k : Nat → M W α} {b' : Log R β} {Q : β → α → Graph R → (Nat → R) → Prop}
    {a : Mat R}
    (h : Booked Z n0 T s g val adj) (h1 : a.nrow ≤ int32Max) (h2 : a.ncol ≤ int32Max)
    (hk : ∀ s1, Inv.GrownB s g val adj (.db s.tape.head a.nrow a.ncol a.flat) s1 →
      Writes Z n0 T s1 (g.pushB (.db s.tape.head a.nrow a.ncol a.flat)) val (k s.tape.head) b' Q) :
    Writes Z n0 T s g val (Fz.pushDataMat a >>= k : M W α) b' Q := by
  intro r s' e
  obtain ⟨la, s1, e1, e⟩ := bind_inv e
  obtain ⟨rfl, gr1⟩ := pushDataMat_inv h.inv h1 h2 e1
  obtain ⟨g', val', adj', q1, q2, q3⟩ := hk s1 gr1 r s' e
  exact ⟨g', val', adj', (Ext.ofGrownB gr1).trans q1, q2, q3⟩

theorem writes_matmulVV (h : Booked Z n0 T s g val adj) (ha : MatNum n0 X a g val) (hb : MatNum n0 Y b g val)
    (h1 : a.nrow ≤ int32Max) (h2 : a.ncol ≤ int32Max) (h3 : b.nrow ≤ int32Max) (h4 : b.ncol ≤ int32Max) :
    Writes Z n0 T s g val (matmulVV (R := R) a b : M W (List Var))
      (Log.each (fun p => dotStep (mulEntry a.ncol (fun i k => (X i k).val) (fun k j => (Y k j).val) p.1 p.2)
        ((List.range a.ncol).map fun k => X p.1 k) ((List.range a.ncol).map fun k => Y k p.2)) (matPairs a.nrow b.ncol))
      (NumsAt n0) := by
  unfold matmulVV
  refine Writes.pushVar h ha.has h1 h2 fun s1 gr1 => ?_
  have b1 := h.grownB gr1
  have x1 := Ext.ofGrownB gr1
  have ha1 := ha.later h.inv x1
  have hb1 := hb.later h.inv x1
  refine Writes.pushVar b1 hb1.has h3 h4 fun s2 gr2 => ?_
  have b2 := b1.grownB gr2
  have x2 := Ext.ofGrownB gr2
  have ha2 := ha1.later b1.inv x2
  have hb2 := hb1.later b1.inv x2
  obtain ⟨av, hav, a1, a2, a3⟩ := ha2.matVal.read b2.inv
  obtain ⟨bv, hbv, c1, c2, c3⟩ := hb2.matVal.read b2.inv
  refine Writes.read hav (Writes.read hbv ?_)
  split
  · rename_i hn
    refine writes_matmulLoop _ _ _ _ _ _ b2 fun p hp T' s' g' val' adj' ev bk => ?_
    have hpl := mem_matPairs hp
    have hae := ha2.later b2.inv ev
    have hbe := hb2.later b2.inv ev
    have hval : matmulD av bv p.1 p.2 = mulEntry a.ncol (fun i k => (X i k).val) (fun k j => (Y k j).val) p.1 p.2 :=
      matmulD_eq a2 (c1.trans hn.symm) (fun k hk => a3 _ hpl.1 k hk) fun k hk => c3 k (by omega) _ hpl.2
    rw [hval]
    have hrow := hae.row hpl.1
    have hcol := hbe.col hpl.2
    rw [← hn] at hcol
    have m1 : Block.vb s.tape.head a.nrow a.ncol (a.flat.map g'.pos) ∈ g'.blocks := by
      have : a.flat.map g'.pos = a.flat.map g.pos :=
        List.map_congr_left fun v hv => ((x1.trans x2).trans ev).pos (ha.has.flat v hv)
      rw [this]
      exact ev.blocks.subset (x2.blocks.subset (by simp [Graph.pushB]))
    have m2 : Block.vb s1.tape.head b.nrow b.ncol (b.flat.map g'.pos) ∈ g'.blocks := by
      have : b.flat.map g'.pos = b.flat.map (g.pushB (.vb s.tape.head a.nrow a.ncol (a.flat.map g.pos))).pos :=
        List.map_congr_left fun v hv => (x2.trans ev).pos (hb1.has.flat v hv)
      rw [this]
      exact ev.blocks.subset (by simp [Graph.pushB])
    have ck : KindOK g'.blocks (⟨s'.tape.head, [p.1 + 1, p.2 + 1, s.tape.head, s1.tape.head], [], .matmulVV,
        .mmVV ((a.row p.1).map g'.pos) ((b.col p.2).map g'.pos)⟩ : Node R) := by
      have m1' := m1
      rw [hn] at m1'
      refine ⟨p.1, p.2, s.tape.head, a.nrow, b.nrow, a.flat.map g'.pos, s1.tape.head, b.ncol, b.flat.map g'.pos,
        rfl, m1', m2, hpl.1, hpl.2, ?_, ?_⟩
      · rw [← cmRow_pos a g'.pos hpl.1, hn]
      · rw [← cmCol_pos b g'.pos hpl.2]
    have hall := List.rel_append hrow hcol
    refine writes_newOpId bk (nd := ⟨s'.tape.head, [p.1 + 1, p.2 + 1, s.tape.head, s1.tape.head], [], .matmulVV,
      .mmVV ((a.row p.1).map g'.pos) ((b.col p.2).map g'.pos)⟩) ⟨rfl, ?_, ?_, ck⟩ rfl ⟨rfl, Or.inl rfl⟩
      (vs := a.row p.1 ++ b.col p.2) hall (by simp [Node.args]) ?_
    · intro q hq
      simp only [Node.args, ← List.map_append] at hq
      obtain ⟨w, hw, rfl⟩ := List.mem_map.mp hq
      exact (NumsAt.valL hall).has w hw |>.mem_pos
    · exact small4 hpl.1 hpl.2 h1 h4 (bk.inv.block_small m1) (bk.inv.block_small m2)
    · intro f l hl
      have hv := NumsAt.vals_upd hall bk.inv (mulEntry a.ncol (fun i k => (X i k).val) (fun k j => (Y k j).val) p.1 p.2)
      rw [List.map_append] at hv
      simp only [Node.contrib, List.length_map, Mat.row, Mat.col, List.length_range] at hl
      simp only [Mat.row, Mat.col] at hv
      rw [if_pos ⟨trivial, hn⟩] at hl
      rw [hv] at hl
      simp only [cDot, List.map_append] at hl
      have e1 : (((List.range a.ncol).map fun k => X p.1 k).map Num.val).length = a.ncol := by simp
      have e2 : (((List.range a.ncol).map fun k => Y k p.2).map Num.val).length = a.ncol := by simp
      rw [List.drop_left' e1, List.take_left' e1, List.take_of_length_le (Nat.le_of_eq e2)] at hl
      rw [← Option.some.inj hl]
      simp [Function.comp_def]
  · exact Writes.fail _

theorem writes_matmulVD (h : Booked Z n0 T s g val adj) (ha : MatNum n0 X a g val) {b : Mat R}
    (h1 : a.nrow ≤ int32Max) (h2 : a.ncol ≤ int32Max) (h3 : b.nrow ≤ int32Max) (h4 : b.ncol ≤ int32Max) :
    Writes Z n0 T s g val (matmulVD a b : M W (List Var))
      (Log.each (fun p => step (mulEntry a.ncol (fun i k => (X i k).val) b.get p.1 p.2)
        ((List.range a.ncol).map fun k => X p.1 k) fun ad => (List.range a.ncol).map fun k => ad *. b.get k p.2)
        (matPairs a.nrow b.ncol)) (NumsAt n0) := by
  unfold matmulVD
  refine Writes.pushVar h ha.has h1 h2 fun s1 gr1 => ?_
  have b1 := h.grownB gr1
  have x1 := Ext.ofGrownB gr1
  have ha1 := ha.later h.inv x1
  refine Writes.pushData b1 h3 h4 fun s2 gr2 => ?_
  have b2 := b1.grownB gr2
  have x2 := Ext.ofGrownB gr2
  have ha2 := ha1.later b1.inv x2
  obtain ⟨av, hav, a1, a2, a3⟩ := ha2.matVal.read b2.inv
  refine Writes.read hav ?_
  split
  · rename_i hn
    refine writes_matmulLoop _ _ _ _ _ _ b2 fun p hp T' s' g' val' adj' ev bk => ?_
    have hpl := mem_matPairs hp
    have hae := ha2.later b2.inv ev
    have hval : matmulD av b p.1 p.2 = mulEntry a.ncol (fun i k => (X i k).val) b.get p.1 p.2 :=
      matmulD_eq a2 hn.symm (fun k hk => a3 _ hpl.1 k hk) fun k hk => rfl
    rw [hval]
    have hrow := hae.row hpl.1
    have m1 : Block.vb s.tape.head a.nrow a.ncol (a.flat.map g'.pos) ∈ g'.blocks := by
      have : a.flat.map g'.pos = a.flat.map g.pos :=
        List.map_congr_left fun v hv => ((x1.trans x2).trans ev).pos (ha.has.flat v hv)
      rw [this]
      exact ev.blocks.subset (x2.blocks.subset (by simp [Graph.pushB]))
    have m2 : Block.db s1.tape.head b.nrow b.ncol b.flat ∈ g'.blocks :=
      ev.blocks.subset (by simp [Graph.pushB])
    have ck : KindOK g'.blocks (⟨s'.tape.head, [p.1 + 1, p.2 + 1, s.tape.head, s1.tape.head], [], .matmulVD,
        .mmVD ((a.row p.1).map g'.pos) (b.col p.2)⟩ : Node R) := by
      have m1' := m1
      rw [hn] at m1'
      refine ⟨p.1, p.2, s.tape.head, a.nrow, b.nrow, a.flat.map g'.pos, s1.tape.head, b.ncol, b.flat,
        rfl, m1', m2, hpl.1, hpl.2, ?_, ?_⟩
      · rw [← cmRow_pos a g'.pos hpl.1, hn]
      · exact (cmCol_flat b hpl.2).symm
    refine writes_newOpId bk (nd := ⟨s'.tape.head, [p.1 + 1, p.2 + 1, s.tape.head, s1.tape.head], [], .matmulVD,
      .mmVD ((a.row p.1).map g'.pos) (b.col p.2)⟩) ⟨rfl, ?_, ?_, ck⟩ rfl ⟨rfl, Or.inl rfl⟩
      (vs := a.row p.1) hrow (by simp [Node.args]) ?_
    · intro q hq
      obtain ⟨w, hw, rfl⟩ := List.mem_map.mp hq
      exact (NumsAt.valL hrow).has w hw |>.mem_pos
    · exact small4 hpl.1 hpl.2 h1 h4 (bk.inv.block_small m1) (bk.inv.block_small m2)
    · intro f l hl
      simp only [Node.contrib, List.length_map, Mat.row, Mat.col, List.length_range] at hl
      rw [if_pos ⟨trivial, Nat.le_of_eq hn⟩] at hl
      rw [← Option.some.inj hl, hn]
      simp [Function.comp_def]
  · exact Writes.fail _

theorem writes_matmulDV (h : Booked Z n0 T s g val adj) {a : Mat R} (hb : MatNum n0 Y b g val)
    (h1 : a.nrow ≤ int32Max) (h2 : a.ncol ≤ int32Max) (h3 : b.nrow ≤ int32Max) (h4 : b.ncol ≤ int32Max) :
    Writes Z n0 T s g val (matmulDV a b : M W (List Var))
      (Log.each (fun p => step (mulEntry a.ncol a.get (fun k j => (Y k j).val) p.1 p.2)
        ((List.range a.ncol).map fun k => Y k p.2) fun ad => (List.range a.ncol).map fun k => ad *. a.get p.1 k)
        (matPairs a.nrow b.ncol)) (NumsAt n0) := by
  unfold matmulDV
  refine Writes.pushData h h1 h2 fun s1 gr1 => ?_
  have b1 := h.grownB gr1
  have x1 := Ext.ofGrownB gr1
  have hb1 := hb.later h.inv x1
  refine Writes.pushVar b1 hb1.has h3 h4 fun s2 gr2 => ?_
  have b2 := b1.grownB gr2
  have x2 := Ext.ofGrownB gr2
  have hb2 := hb1.later b1.inv x2
  obtain ⟨bv, hbv, c1, c2, c3⟩ := hb2.matVal.read b2.inv
  refine Writes.read hbv ?_
  split
  · rename_i hn
    refine writes_matmulLoop _ _ _ _ _ _ b2 fun p hp T' s' g' val' adj' ev bk => ?_
    have hpl := mem_matPairs hp
    have hbe := hb2.later b2.inv ev
    have hval : matmulD a bv p.1 p.2 = mulEntry a.ncol a.get (fun k j => (Y k j).val) p.1 p.2 :=
      matmulD_eq rfl (c1.trans hn.symm) (fun k hk => rfl) fun k hk => c3 k (by omega) _ hpl.2
    rw [hval]
    have hcol := hbe.col hpl.2
    rw [← hn] at hcol
    have m1 : Block.db s.tape.head a.nrow a.ncol a.flat ∈ g'.blocks :=
      ev.blocks.subset (x2.blocks.subset (by simp [Graph.pushB]))
    have m2 : Block.vb s1.tape.head b.nrow b.ncol (b.flat.map g'.pos) ∈ g'.blocks := by
      have : b.flat.map g'.pos = b.flat.map (g.pushB (.db s.tape.head a.nrow a.ncol a.flat)).pos :=
        List.map_congr_left fun v hv => (x2.trans ev).pos (hb1.has.flat v hv)
      rw [this]
      exact ev.blocks.subset (by simp [Graph.pushB])
    have ck : KindOK g'.blocks (⟨s'.tape.head, [p.1 + 1, p.2 + 1, s.tape.head, s1.tape.head], [], .matmulDV,
        .mmDV (a.row p.1) ((b.col p.2).map g'.pos)⟩ : Node R) := by
      have m1' := m1
      rw [hn] at m1'
      refine ⟨p.1, p.2, s.tape.head, a.nrow, b.nrow, a.flat, s1.tape.head, b.ncol, b.flat.map g'.pos,
        rfl, m1', m2, hpl.1, hpl.2, ?_, ?_⟩
      · rw [← cmRow_flat a hpl.1, hn]
      · rw [← cmCol_pos b g'.pos hpl.2]
    refine writes_newOpId bk (nd := ⟨s'.tape.head, [p.1 + 1, p.2 + 1, s.tape.head, s1.tape.head], [], .matmulDV,
      .mmDV (a.row p.1) ((b.col p.2).map g'.pos)⟩) ⟨rfl, ?_, ?_, ck⟩ rfl ⟨rfl, Or.inl rfl⟩
      (vs := b.col p.2) hcol (by simp [Node.args]) ?_
    · intro q hq
      obtain ⟨w, hw, rfl⟩ := List.mem_map.mp hq
      exact (NumsAt.valL hcol).has w hw |>.mem_pos
    · exact small4 hpl.1 hpl.2 h1 h4 (bk.inv.block_small m1) (bk.inv.block_small m2)
    · intro f l hl
      simp only [Node.contrib, List.length_map, Mat.row, Mat.col, List.length_range] at hl
      rw [if_pos ⟨trivial, Nat.le_of_eq hn.symm⟩] at hl
      rw [← Option.some.inj hl]
      simp [Function.comp_def]
  · exact Writes.fail _

end mat

/-! ## calls and programs -/

theorem writes_single {α : Type} {m : M W Var} {k : α → Log R (Num R)} {x : α}
    (h : Writes Z n0 T s g val m (k x) (NumAt n0)) :
    Writes Z n0 T s g val (single m) (Log.each k [x]) (NumsAt n0) := by
  have e : Log.each k [x] = (k x).next fun y => Log.ret [y] := rfl
  rw [e]
  exact Writes.next h fun y r T1 s1 g1 val1 adj1 ev b hr => Writes.ret b (.cons hr .nil)

theorem writes_mapM {α β : Type} {f : α → M W Var} {k : β → Log R (Num R)} {q : α → β} :
    ∀ (l : List α) {T : List (Step R)} {s : St W} {g : Graph R} {val adj : Nat → R}, Booked Z n0 T s g val adj →
    (∀ x ∈ l, ∀ {T' : List (Step R)} {s' : St W} {g' : Graph R} {val' adj' : Nat → R}, Ext s g val s' g' val' →
      Booked Z n0 T' s' g' val' adj' → Writes Z n0 T' s' g' val' (f x) (k (q x)) (NumAt n0)) →
    Writes Z n0 T s g val (l.mapM f) (Log.each k (l.map q)) (NumsAt n0) := by
  intro l
  induction l with
  | nil => intro T s g val adj h _; exact Writes.ret h .nil
  | cons x l ih =>
    intro T s g val adj h hf
    rw [List.mapM_cons]
    refine Writes.next (hf x (by simp) Ext.refl h) fun y r T1 s1 g1 val1 adj1 ev b1 hr => ?_
    refine Writes.next (ih b1 fun z hz T' s' g' val' adj' ev' b' => hf z (by simp [hz]) (ev.trans ev') b')
      fun ys rs T2 s2 g2 val2 adj2 ev2 b2 hrs => ?_
    exact Writes.ret b2 (.cons (hr.later b1.inv ev2) hrs)

theorem writes_newVars (h : Booked Z n0 T s g val adj) (xs : List R) :
    Writes Z n0 T s g val (newVars xs : M W (List Var)) (Log.each input xs) (NumsAt n0) := by
  have := writes_mapM (f := fun d => (newVar d : M W Var)) (k := input) (q := id) xs h
    fun a _ _ _ _ _ _ _ b => writes_newVar b a
  rw [List.map_id] at this
  exact this

theorem writes_newVar1d : ∀ (n : Nat) {T : List (Step R)} {s : St W} {g : Graph R} {val adj : Nat → R},
    Booked Z n0 T s g val adj →
    Writes Z n0 T s g val (newVar1d (R := R) n : M W (List Var)) (Log.each input (List.replicate n (zero : R))) (NumsAt n0)
  | 0, _, _, _, _, _, h => Writes.ret h .nil
  | n + 1, T, s, g, val, adj, h => by
    unfold newVar1d
    refine Writes.next (writes_newVar h (zero : R)) fun y r T1 s1 g1 val1 adj1 ev b1 hr => ?_
    refine Writes.next (writes_newVar1d n b1) fun ys rs T2 s2 g2 val2 adj2 ev2 b2 hrs => ?_
    exact Writes.ret b2 (.cons (hr.later b1.inv ev2) hrs)

theorem writes_elemental2 (f : Bin) : ∀ (as bs : List Var) {xs ys : List (Num R)} {T : List (Step R)} {s : St W}
    {g : Graph R} {val adj : Nat → R}, Booked Z n0 T s g val adj → NumsAt n0 xs as g val → NumsAt n0 ys bs g val →
    Writes Z n0 T s g val (elemental2 (f.callVV : Var → Var → M W Var) as bs)
      (Log.each (fun p => f.write p.1 p.2) (xs.zip ys)) (NumsAt n0)
  | [], [], _, _, _, _, _, _, _, h, .nil, .nil => Writes.ret h .nil
  | [], _ :: _, _, _, _, _, _, _, _, _, _, _ => Writes.fail _
  | _ :: _, [], _, _, _, _, _, _, _, _, _, _ => Writes.fail _
  | a :: as, b :: bs, _, _, T, s, g, val, adj, h, .cons h1 ha, .cons h2 hb => by
    unfold elemental2
    refine Writes.next (writes_binVV h h1 h2 f) fun y r T1 s1 g1 val1 adj1 ev b1 hr => ?_
    refine Writes.next (writes_elemental2 f as bs b1 (NumsAt.later ha h.inv ev) (NumsAt.later hb h.inv ev))
      fun ys rs T2 s2 g2 val2 adj2 ev2 b2 hrs => ?_
    exact Writes.ret b2 (.cons (hr.later b1.inv ev2) hrs)

theorem NumsAt.entry {xs : List (Num R)} {env : List Var} (h : NumsAt n0 xs env g val) {i : Nat} (hi : i < env.length) :
    NumAt n0 (opd xs i) (nth env i) g val := by
  unfold opd nth
  induction h generalizing i with
  | nil => simp at hi
  | cons a _ ih =>
    cases i with
    | zero => exact a
    | succ i => exact ih (by simpa using hi)

theorem NumsAt.nths {xs : List (Num R)} {env : List Var} (h : NumsAt n0 xs env g val) {is : List Nat}
    (hi : ∀ i ∈ is, i < env.length) : NumsAt n0 (is.map (opd xs)) (is.map (nth env)) g val := by
  induction is with
  | nil => exact .nil
  | cons i is ih => exact .cons (h.entry (hi i (by simp))) (ih fun j hj => hi j (by simp [hj]))

theorem NumsAt.mat {xs : List (Num R)} {env : List Var} (h : NumsAt n0 xs env g val) {a : Matrix' Nat}
    (hi : ∀ i ∈ a.list, i < env.length) :
    MatNum n0 (fun i j => opd xs (a.get i j)) ⟨a.nrow, a.ncol, fun i j => nth env (a.get i j)⟩ g val := by
  intro i hi' j hj'
  refine h.entry (hi _ ?_)
  unfold Matrix'.list entries
  simp only [List.mem_map, List.mem_flatMap, List.mem_range]
  exact ⟨(i, j), ⟨j, hj', i, hi', rfl⟩, rfl⟩

theorem make_writes (hc : Commutes R) (h : Booked Z n0 T s g val adj) {env : List Var} {xs : List (Num R)}
    (hy : NumsAt n0 xs env g val) (m : Make R) (ha : ∀ i ∈ m.args, i < env.length) (hs : m.Sane) (hp : m.Plain)
    (hg : m.Regular) :
    Writes Z n0 T s g val (m.call env : M W (List Var)) (m.write xs) (NumsAt n0) := by
  cases m with
  | new0 => exact writes_single (writes_newVar h (zero : R))
  | new d => exact writes_single (writes_newVar h d)
  | newVals ds => exact writes_newVars h ds
  | newArr n => exact writes_newVar1d n h
  | fn f i => exact writes_single (writes_fn h (hy.entry (ha i (by simp [Make.args]))) f hp)
  | fnArr f is =>
    have key := writes_mapM (f := fun i => (f.api (nth env i) : M W Var)) (k := f.write) (q := opd xs) is h
      fun i hi T' s' g' val' adj' ev b => writes_fn b ((hy.entry (ha i hi)).later h.inv ev) f hp
    have e : (Make.call (.fnArr f is) env : M W (List Var)) = is.mapM fun i => (f.api (nth env i) : M W Var) := by
      simp only [Make.call, elemental1, List.mapM_map, Function.comp_def]
    rw [e]
    exact key
  | bin f i j =>
    exact writes_single (k := fun p => Bin.write f p.1 p.2) (x := (opd xs i, opd xs j))
      (writes_binVV h (hy.entry (ha i (by simp [Make.args]))) (hy.entry (ha j (by simp [Make.args]))) f)
  | binArr f is js =>
    exact writes_elemental2 f _ _ h (hy.nths (is := is) fun i hi => ha i (by simp [Make.args, hi]))
      (hy.nths (is := js) fun i hi => ha i (by simp [Make.args, hi]))
  | binVD f i d =>
    refine writes_single (k := fun x => Bin.writeVD f x d) (writes_binVD h (hy.entry (ha i (by simp [Make.args]))) f d ?_ ?_ ?_ ?_)
    · rintro rfl; exact hs
    · rintro rfl; exact hp
    · rintro (rfl | rfl) <;> exact hg
    · rintro (rfl | rfl) <;> exact hg
  | binDV f d i =>
    refine writes_single (k := fun x => Bin.writeDV f d x)
      (writes_binDV h hc (hy.entry (ha i (by simp [Make.args]))) f d ?_ ?_ ?_)
    · rintro rfl; exact hs
    · rintro rfl; exact hg
    · rintro rfl; exact hg
  | sum is =>
    refine writes_single (k := fun xs => step (fsum (xs.map Num.val)) xs fun a => xs.map fun _ => a)
      (writes_reduceV h (hy.nths ha) _ (c := .sum) (by decide) fun a l e => ?_)
    simp only [contribPlain] at e
    rw [← Option.some.inj e, List.map_const', List.length_map]
  | norm2 is =>
    refine writes_single (k := fun xs =>
      step (fnorm2 (xs.map Num.val)) xs fun a => xs.map fun x => a *. x.val /. fnorm2 (xs.map Num.val))
      (writes_reduceV h (hy.nths ha) _ (c := .norm2) (by decide) fun a l e => ?_)
    simp only [contribPlain] at e
    rw [← Option.some.inj e, List.map_map]; rfl
  | logSumExp is =>
    refine writes_single (k := fun xs =>
      step (logSumExpD (xs.map Num.val)) xs fun a => xs.map fun x => a *. Arith.exp (x.val -. logSumExpD (xs.map Num.val)))
      (writes_reduceV h (hy.nths ha) _ (c := .logSumExp) (by decide) fun a l e => ?_)
    simp only [contribPlain] at e
    rw [← Option.some.inj e, List.map_map]; rfl
  | dotVV is js =>
    exact writes_single (k := fun p => dotStep (fdot (p.1.map Num.val) (p.2.map Num.val)) p.1 p.2)
      (x := (is.map (opd xs), js.map (opd xs)))
      (writes_dotVV h (hy.nths fun i hi => ha i (by simp [Make.args, hi]))
        (hy.nths fun i hi => ha i (by simp [Make.args, hi])))
  | dotVD is ds =>
    exact writes_single (k := fun xs => step (fdot (xs.map Num.val) ds) xs fun a => ds.map fun d => a *. d)
      (writes_dotVD h (hy.nths ha) ds)
  | dotDV ds is =>
    exact writes_single (k := fun xs => step (fdot ds (xs.map Num.val)) xs fun a => ds.map fun d => a *. d)
      (writes_dotDV h (hy.nths ha) ds)
  | matmulVV a b =>
    simp only [Make.Sane] at hs
    exact writes_matmulVV h (hy.mat fun i hi => ha i (by simp [Make.args, hi]))
      (hy.mat fun i hi => ha i (by simp [Make.args, hi]))
      (by simp only [int32Max]; omega) (by simp only [int32Max]; omega)
      (by simp only [int32Max]; omega) (by simp only [int32Max]; omega)
  | matmulVD a b =>
    simp only [Make.Sane] at hs
    exact writes_matmulVD h (hy.mat ha)
      (by simp only [int32Max]; omega) (by simp only [int32Max]; omega)
      (by simp only [int32Max]; omega) (by simp only [int32Max]; omega)
  | matmulDV a b =>
    simp only [Make.Sane] at hs
    exact writes_matmulDV h (hy.mat ha)
      (by simp only [int32Max]; omega) (by simp only [int32Max]; omega)
      (by simp only [int32Max]; omega) (by simp only [int32Max]; omega)
  | lpdfVV d ys m' s' =>
    have h1 := hy.entry (ha m' (by simp [Make.args]))
    have h2 := hy.entry (ha s' (by simp [Make.args]))
    refine writes_single (k := fun p : Num R × Num R =>
      step (d.plain ys p.1.val p.2.val) [p.1, p.2] fun a =>
        [a *. fsum (ys.map (d.byMu p.1.val p.2.val)), a *. fsum (ys.map (d.bySigma p.1.val p.2.val))])
      (x := (opd xs m', opd xs s')) ?_
    cases d
    · exact Writes.read (h1.valR.read h.inv) (Writes.read (h2.valR.read h.inv)
        (writes_varWithPartials h (.cons h1 (.cons h2 .nil)) _ _ fun _ => rfl))
    · exact Writes.read (h1.valR.read h.inv) (Writes.read (h2.valR.read h.inv)
        (writes_varWithPartials h (.cons h1 (.cons h2 .nil)) _ _ fun _ => rfl))
  | lpdfVD d ys m' s' =>
    have h1 := hy.entry (ha m' (by simp [Make.args]))
    refine writes_single (k := fun p : Num R =>
      step (d.plain ys p.val s') [p] fun a => [a *. fsum (ys.map (d.byMu p.val s'))]) ?_
    cases d
    · exact Writes.read (h1.valR.read h.inv) (writes_varWithPartials h (.cons h1 .nil) _ _ fun _ => rfl)
    · exact Writes.read (h1.valR.read h.inv) (writes_varWithPartials h (.cons h1 .nil) _ _ fun _ => rfl)
  | lpdfDV d ys m' s' =>
    have h1 := hy.entry (ha s' (by simp [Make.args]))
    refine writes_single (k := fun p : Num R =>
      step (d.plain ys m' p.val) [p] fun a => [a *. fsum (ys.map (d.bySigma m' p.val))]) ?_
    cases d
    · exact Writes.read (h1.valR.read h.inv) (writes_varWithPartials h (.cons h1 .nil) _ _ fun _ => rfl)
    · exact Writes.read (h1.valR.read h.inv) (writes_varWithPartials h (.cons h1 .nil) _ _ fun _ => rfl)
  | partials x is ds =>
    exact writes_single (k := fun xs => step x xs fun a => (ds.take xs.length).map fun d => a *. d)
      (writes_varWithPartials h (hy.nths ha) x ds fun _ => rfl)
  | user x r is ds =>
    exact writes_single (k := fun xs => step x xs fun a => userPass r x (xs.map Num.val) ds a)
      (writes_userOp h (hy.nths ha) x r ds)

theorem code_writes (hc : Commutes R) (f : Code R) : ∀ {T : List (Step R)} {s : St W} {g : Graph R} {val adj : Nat → R}
    {env : List Var} {xs : List (Num R)}, Booked Z n0 T s g val adj → NumsAt n0 xs env g val → f.Sane → f.Plain →
    f.Regular → Writes Z n0 T s g val (f.run env : M W (List Var)) (f.write xs) (NumsAt n0) := by
  induction f with
  | ret is =>
    intro T s g val adj env xs h hy _ _ _
    unfold Code.run
    split
    · rename_i hi
      exact Writes.ret h (hy.nths hi)
    · exact Writes.fail _
  | make m k ih =>
    intro T s g val adj env xs h hy hs hp hg
    unfold Code.run
    split
    · rename_i hi
      refine Writes.next (make_writes hc h hy m hi hs.1 hp.1 hg.1) fun ys vs T1 s1 g1 val1 adj1 ev b hv => ?_
      exact ih b (List.rel_append (NumsAt.later hy h.inv ev) hv) hs.2 hp.2 hg.2
    · exact Writes.fail _
  | look i k ih =>
    intro T s g val adj env xs h hy hs hp hg
    unfold Code.run
    split
    · rename_i hi
      exact Writes.read ((hy.entry hi).valR.read h.inv) (ih _ h hy (hs _) (hp _) (hg _))
    · exact Writes.fail _

/-! ## the sweep -/

theorem pos_inj {hd : Nat} (wf : g.WF hd) {i j : Nat} {x y : Node R} (hi : g.nodes[i]? = some x)
    (hj : g.nodes[j]? = some y) (h : x.pos = y.pos) : i = j := by
  have key : ∀ {i j : Nat} {x y : Node R}, g.nodes[i]? = some x → g.nodes[j]? = some y → i < j → x.pos ≠ y.pos := by
    intro i j x y hi hj hlt
    obtain ⟨h1, rfl⟩ := List.getElem?_eq_some_iff.mp hi
    obtain ⟨h2, rfl⟩ := List.getElem?_eq_some_iff.mp hj
    have := List.pairwise_iff_getElem.mp wf.sorted i j h1 h2 hlt
    simp only [Node.len] at this
    omega
  rcases Nat.lt_trichotomy i j with hlt | he | hgt
  · exact absurd h (key hi hj hlt)
  · exact he
  · exact absurd h.symm (key hj hi hgt)

/-- the adjoints of the records are the adjoints of the steps -/
def AdjRel (n0 : Nat) (g : Graph R) (f a : Nat → R) : Prop :=
  ∀ (k : Nat) nd, g.nodes[n0 + k]? = some nd → f nd.pos = a k

theorem AdjRel.receive {hd : Nat} (wf : g.WF hd) {src : List (Option Nat)} {ps : List Nat}
    (hs : List.Forall₂ (RefAt n0 g) src ps) : ∀ {f a : Nat → R} (ds : List R), AdjRel n0 g f a →
    AdjRel n0 g (addAll f ps ds) (receive a src ds) := by
  induction hs with
  | nil => intro f a ds h; simpa [addAll, Spec.receive] using h
  | @cons r p src ps hr _ ih =>
    intro f a ds h
    cases ds with
    | nil => cases r <;> simpa [addAll, Spec.receive] using h
    | cons d ds =>
      cases r with
      | none =>
        simp only [addAll, Spec.receive]
        refine ih ds fun k nd hn => ?_
        obtain ⟨j, x, h1, h2, rfl⟩ := hr
        rw [upd_ne _ _ ?_]
        · exact h k nd hn
        · intro e
          have := pos_inj wf hn h2 e
          omega
      | some k0 =>
        simp only [addAll, Spec.receive]
        refine ih ds fun k nd hn => ?_
        obtain ⟨x, h2, rfl⟩ := hr
        by_cases hk : k = k0
        · subst hk
          rw [hn] at h2
          cases h2
          simp only [upd_self, if_true]
          rw [h k nd hn]
        · rw [upd_ne _ _ ?_, if_neg hk]
          · exact h k nd hn
          · intro e
            have := pos_inj wf hn h2 e
            omega

theorem mem_drop_iff {α : Type} {l : List α} {n : Nat} {x : α} : x ∈ l.drop n ↔ ∃ k, l[n + k]? = some x := by
  rw [List.mem_iff_getElem?]
  simp only [List.getElem?_drop]

theorem Booked.sweeps (h : Booked Z n0 T s g val adj) (hf : ∀ nd ∈ g.nodes.drop n0, nd.Fits val) {f a : Nat → R}
    (hr : AdjRel n0 g f a) : ∀ (m j : Nat), j + m = T.length →
    AdjRel n0 g (sweep val (g.nodes.drop (n0 + j)) f) (backFrom j (T.drop j) a) := by
  intro m
  induction m with
  | zero =>
    intro j hj
    have hl := h.len
    rw [List.drop_eq_nil_of_le (by omega), List.drop_eq_nil_of_le (by omega)]
    exact hr
  | succ m ih =>
    intro j hj
    have hl := h.len
    have h1 : n0 + j < g.nodes.length := by omega
    have h2 : j < T.length := by omega
    have key := ih (j + 1) (by omega)
    rw [List.drop_eq_getElem_cons h1, List.drop_eq_getElem_cons h2]
    have e1 : g.nodes[n0 + j]? = some g.nodes[n0 + j] := List.getElem?_eq_getElem h1
    have e2 : T[j]? = some T[j] := List.getElem?_eq_getElem h2
    have hs := h.rel j _ _ e1 e2
    show AdjRel n0 g (addAll (sweep val (g.nodes.drop (n0 + (j + 1))) f) _
        ((g.nodes[n0 + j]).cl val (sweep val (g.nodes.drop (n0 + (j + 1))) f)))
      (Spec.receive (backFrom (j + 1) (T.drop (j + 1)) a) _ _)
    have ha : (sweep val (g.nodes.drop (n0 + (j + 1))) f) (g.nodes[n0 + j]).pos =
        backFrom (j + 1) (T.drop (j + 1)) a j := key j _ e1
    rcases hs.pass with hp | hp
    · have := hs.src
      rw [hp] at this ⊢
      cases hsrc : T[j].src with
      | nil => simpa [addAll, Spec.receive] using key
      | cons _ _ => rw [hsrc] at this; cases this
    · obtain ⟨l, hl⟩ := hf _ (mem_drop_iff.mpr ⟨j, e1⟩) (sweep val (g.nodes.drop (n0 + (j + 1))) f)
      have e3 := hp _ _ hl
      have e4 : (g.nodes[n0 + j]).cl val (sweep val (g.nodes.drop (n0 + (j + 1))) f) = l := by
        unfold Node.cl; rw [hl]; rfl
      rw [ha] at e3
      rw [e4, e3]
      exact key.receive h.inv.wf hs.src _

theorem Booked.seeded (h : Booked Z n0 T s g val adj) {adj1 : Nat → R}
    (hz : ∀ (k : Nat) nd, g.nodes[n0 + k]? = some nd → adj1 nd.pos = Arith.zero) {o : Num R} {v : Var}
    (ho : NumAt n0 o v g val) : AdjRel n0 g (upd adj1 (g.pos v) one) (seed o.ref) := by
  intro k nd hn
  have href := ho.refAt
  cases hr : o.ref with
  | none =>
    rw [hr] at href
    obtain ⟨j, x, h1, h2, h3⟩ := href
    rw [← h3, upd_ne _ _ ?_]
    · rw [hz k nd hn]; rfl
    · intro e
      have := pos_inj h.inv.wf hn h2 e
      omega
  | some k0 =>
    rw [hr] at href
    obtain ⟨x, h2, h3⟩ := href
    rw [← h3]
    by_cases hk : k = k0
    · subst hk
      rw [hn] at h2
      cases h2
      rw [upd_self]
      simp [seed]
    · rw [upd_ne _ _ ?_]
      · rw [hz k nd hn]
        simp only [seed, Option.some.injEq]
        rw [if_neg fun e => hk e.symm]
      · intro e
        have := pos_inj h.inv.wf hn h2 e
        omega

theorem Booked.row (h : Booked Z n0 T s g val adj) {s1 s2 : St W} {adj1 : Nat → R} (hi : Inv s1 g val adj1)
    (hz : ∀ (k : Nat) nd, g.nodes[n0 + k]? = some nd → adj1 nd.pos = Arith.zero) {o : Num R} {v : Var}
    (ho : NumAt n0 o v g val) (e : (v.grad : M W Unit) s1 = .ok ((), s2)) :
    ∃ m adj2, s2 = s1.withMem m ∧ Inv s2 g val adj2 ∧ AdjRel n0 g adj2 (backFrom 0 T (seed o.ref)) := by
  obtain ⟨hf, m, rfl, i⟩ := grad_run hi (fun nd hn => Or.inl (h.cok nd hn)) ho.valR.has e
  refine ⟨m, _, rfl, i, fun k nd hn => ?_⟩
  rw [sweep_drop h.inv.wf n0 _ (mem_drop_iff.mpr ⟨k, hn⟩)]
  exact h.sweeps (fun nd hn => hf nd (List.mem_of_mem_drop hn)) (h.seeded hz ho) T.length 0 (by omega) k nd hn

theorem NumsAt.adjs {xs : List (Num R)} {vs : List Var} (h : NumsAt n0 xs vs g val) {f a : Nat → R}
    (hr : AdjRel n0 g f a) : ∀ {ks : List Nat}, xs.map Num.ref = ks.map some →
    vs.map (fun v => f (g.pos v)) = ks.map a := by
  induction h with
  | nil =>
    intro ks hk
    cases ks with
    | nil => rfl
    | cons _ _ => cases hk
  | cons hx _ ih =>
    intro ks hk
    cases ks with
    | nil => cases hk
    | cons k ks =>
      simp only [List.map_cons, List.cons.injEq] at hk ⊢
      refine ⟨?_, ih hk.2⟩
      have := hx.refAt
      rw [hk.1] at this
      obtain ⟨nd, h1, h2⟩ := this
      rw [← h2]
      exact hr k nd h1

theorem input_refs (x : List R) : ∀ T : List (Step R),
    (Log.each input x T).1.map Num.ref = (List.range' T.length x.length).map some := by
  induction x with
  | nil => intro T; rfl
  | cons d x ih =>
    intro T
    have := ih (T ++ [⟨d, [], fun _ => []⟩])
    simp only [List.length_append, List.length_singleton] at this
    simp only [Log.each, Log.next, input, step, Log.ret, List.map_cons, List.map_nil, List.length_cons, List.range'_succ]
    rw [this]

/-! ## gradient and jacobian -/

theorem booked_start {c : Client W} (G : Good c g val adj) {s1 : St W} (e : (beginNested : M W Unit) c.st = .ok ((), s1)) :
    Booked Z g.nodes.length [] s1 g val adj ∧ TopAt s1 g.nodes.length := by
  obtain ⟨G', hl, -, -, hst⟩ := G.begin (c' := ⟨s1, c.env, c.env.length :: c.marks⟩) (by simp only [Call.step, e])
  have none : ∀ (k : Nat), g.nodes[g.nodes.length + k]? = none := fun k => List.getElem?_eq_none (by omega)
  refine ⟨⟨G'.inv, G'.cok, by simp, fun k nd c h _ => (by rw [none k] at h; cases h),
    fun _ k nd h => (by rw [none k] at h; cases h)⟩, ?_⟩
  have hv := G.inv.vhead
  simp only at hst
  subst hst
  exact ⟨by simp, hl, by simp [hv]⟩

theorem env_nums {ys : List R} {e : List Var} (hv : ValL ys e g val) :
    NumsAt g.nodes.length (ys.map fun y : R => ⟨none, y⟩) e g val := by
  induction hv with
  | nil => exact .nil
  | cons h _ ih => exact .cons ⟨h, h.has.2⟩ ih

theorem writes_steps (hc : Commutes R) {f : Code R} (hs : f.Sane) (hp : f.Plain) (hg : f.Regular)
    (h : Booked Z n0 [] s g val adj) {e xv outs : List Var} {ys x : List R} {s1 s2 : St W}
    (he : NumsAt n0 (ys.map fun y : R => ⟨none, y⟩) e g val)
    (e1 : (newVars x : M W (List Var)) s = .ok (xv, s1)) (e2 : (f.run (xv ++ e) : M W (List Var)) s1 = .ok (outs, s2)) :
    ∃ g' val' adj', Ext s g val s2 g' val' ∧ Booked Z n0 (f.steps ys x []).2 s2 g' val' adj' ∧
      NumsAt n0 (f.steps ys x []).1 outs g' val' ∧ ∃ xs, NumsAt n0 xs xv g' val' ∧
      xs.map Num.ref = (List.range x.length).map some := by
  obtain ⟨g1, val1, adj1, x1, b1, q1⟩ := writes_newVars h x xv s1 e1
  obtain ⟨g2, val2, adj2, x2, b2, q2⟩ := code_writes hc f b1 (List.rel_append q1 (NumsAt.later he h.inv x1)) hs hp hg outs s2 e2
  refine ⟨g2, val2, adj2, x1.trans x2, b2, q2, _, NumsAt.later q1 b1.inv x2, ?_⟩
  rw [input_refs, List.range_eq_range']; rfl

theorem book_jacLoop (h : Booked Z n0 T s g val adj) {xs : List (Num R)} {xv : List Var} (hx : NumsAt n0 xs xv g val)
    {n : Nat} (hn : xs.map Num.ref = (List.range n).map some) {os : List (Num R)} {fv : List Var}
    (ho : NumsAt n0 os fv g val) : ∀ {s1 s2 : St W} {adj1 : Nat → R} {J : List (List R)}, Inv s1 g val adj1 →
    TopAt s1 n0 → (jacLoop xv fv : M W (List (List R))) s1 = .ok (J, s2) → J = os.map (rowOf T n) := by
  induction ho with
  | nil => intro s1 s2 adj1 J _ _ e; cases e; rfl
  | @cons o v os fv ho _ ih =>
    intro s1 s2 adj1 J hi ht e
    unfold jacLoop at e
    obtain ⟨_, s3, e3, e⟩ := bind_inv e
    obtain ⟨_, s4, e4, e⟩ := bind_inv e
    obtain ⟨row, s5, e5, e⟩ := bind_inv e
    obtain ⟨rows, s6, e6, e⟩ := bind_inv e
    cases e
    have hl := h.len
    obtain ⟨m, adj3, rfl, i3, z3, -⟩ := TopAt.zero_inv hi ht (by omega) e3
    obtain ⟨m', adj4, rfl, i4, r4⟩ := h.row i3 (fun k nd hk => z3 nd (mem_drop_iff.mpr ⟨k, hk⟩)) ho e4
    rw [i4.varAdjs hx.valL.has] at e5
    cases e5
    rw [ih i4 ((ht.mem _).mem _) e6, List.map_cons, hx.adjs r4 hn]
    rfl

/-- `gradient` gives the numbers of the book -/
theorem gradient_book {c : Client W} (hc : Commutes R) (G : Good c g val adj) {e : List Var} {f : Code R}
    (hs : f.Sane) (hp : f.Plain) (hb : f.Regular) {ys : List R} (hv : ValL ys e g val) {x df : List R} {y : R} {s' : St W}
    (hg : gradient (f.scalar e) x c.st = .ok ((y, df), s')) :
    f.bookGradient ys x = some (y, df) := by
  obtain ⟨s1, s2, e1, hg⟩ := gradient_body hg
  obtain ⟨b1, -⟩ := booked_start (Z := True) G e1
  unfold gradBody at hg
  obtain ⟨xv, s3, e3, hg⟩ := Fz.bind_inv hg
  obtain ⟨fv, s4, e4, hg⟩ := Fz.bind_inv hg
  obtain ⟨z, s5, e5, hg⟩ := Fz.bind_inv hg
  obtain ⟨_, s6, e6, hg⟩ := Fz.bind_inv hg
  obtain ⟨d, s7, e7, hg⟩ := Fz.bind_inv hg
  cases hg
  unfold Code.scalar at e4
  obtain ⟨outs, s8, e8, e4⟩ := Fz.bind_inv e4
  obtain ⟨g', val', adj', -, b2, ho, xs, hx, hn⟩ := writes_steps hc hs hp hb b1 (env_nums hv) e3 e8
  cases outs with
  | nil => cases e4
  | cons v os =>
    cases e4
    unfold Code.bookGradient
    generalize f.steps ys x [] = r at b2 ho
    obtain ⟨os', T⟩ := r
    cases ho with
    | @cons o _ os'' _ ho _ =>
      rw [ho.valR.read b2.inv] at e5
      cases e5
      obtain ⟨m, adj2, rfl, i2, r2⟩ := b2.row b2.inv (b2.zero trivial) ho e6
      rw [i2.varAdjs hx.valL.has] at e7
      cases e7
      rw [hx.adjs r2 hn]
      rfl

/-- `jacobian` gives the numbers of the book -/
theorem jacobian_book {c : Client W} (hc : Commutes R) (G : Good c g val adj) {e : List Var} {f : Code R}
    (hs : f.Sane) (hp : f.Plain) (hb : f.Regular) {ys : List R} (hv : ValL ys e g val) {n : Nat} {x fx : List R}
    {J : List (List R)} {s' : St W} (hg : jacobian (f.vector e) n x c.st = .ok ((fx, J), s')) :
    f.bookJacobian ys x = (fx, J) := by
  obtain ⟨s1, s2, e1, hg⟩ := jacobian_body hg
  obtain ⟨b1, ht⟩ := booked_start (Z := True) G e1
  unfold jacBody at hg
  obtain ⟨xv, s3, e3, hg⟩ := Fz.bind_inv hg
  obtain ⟨outs, s4, e4, hg⟩ := Fz.bind_inv hg
  obtain ⟨o, s5, e5, hg⟩ := Fz.bind_inv hg
  obtain ⟨z, s6, e6, hg⟩ := Fz.bind_inv hg
  obtain ⟨rows, s7, e7, hg⟩ := Fz.bind_inv hg
  cases hg
  have : o = outs ∧ s5 = s4 := by
    unfold confN at e5
    split at e5
    · cases e5; exact ⟨rfl, rfl⟩
    · cases e5
  obtain ⟨rfl, rfl⟩ := this
  obtain ⟨g', val', adj', ext, b2, ho, xs, hx, hn⟩ := writes_steps hc hs hp hb b1 (env_nums hv) e3 e4
  rw [ho.valL.read b2.inv] at e6
  cases e6
  have hJ := book_jacLoop b2 hx hn ho b2.inv (ht.keep ext.keep) e7
  unfold Code.bookJacobian
  rw [hJ]

end Fz
