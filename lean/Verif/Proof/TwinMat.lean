import Verif.Proof.TwinOps

/-!
# Matrix products and user functions keep the two runs together
-/

set_option linter.unusedSectionVars false

namespace Fz
open Arith Spec

variable {W1 W2 R : Type} [Arith R] [Rep W1 R] [LawfulRep W1 R] [Rep W2 R] [LawfulRep W2 R]
variable {B : Base} {a a' : Side W1 R} {b b' : Side W2 R}
variable {α β γ δ : Type}

section creators
variable {W : Type} [Rep W R] [LawfulRep W R] {s : St W} {g : Graph R} {val adj : Nat → R}

theorem pushVarMat_inv (h : Inv s g val adj) {a : Mat Var} (ha : Inv.MatHas g a)
    (hr : a.nrow ≤ int32Max) (hc : a.ncol ≤ int32Max) {r : Nat} {s' : St W}
    (e : (pushVarMat a : M W Nat) s = .ok (r, s')) :
    r = s.tape.head ∧ Inv.GrownB s g val adj (.vb s.tape.head a.nrow a.ncol (a.flat.map g.pos)) s' := by
  by_cases hcap : s.tape.head + (2 + a.nrow * a.ncol) ≤ cap
  · obtain ⟨s1, e1, gr⟩ := h.pushVarMat_ok ha hr hc hcap
    rw [e1] at e
    cases e
    exact ⟨rfl, gr⟩
  · exfalso
    unfold pushVarMat at e
    rw [bind_ok (h.varIdxs ha.flat)] at e
    obtain ⟨x, hx⟩ := pushTape_err (s := s) (f := fun t => t.pushIntArray ([a.nrow, a.ncol] ++ a.flat.map g.pos))
      (Tape.pushIntArray_err (R := R) h.ok _ (by simp [Inv.flat_length]; omega))
    rw [hx] at e; cases e

theorem pushDataMat_inv (h : Inv s g val adj) {a : Mat R}
    (hr : a.nrow ≤ int32Max) (hc : a.ncol ≤ int32Max) {r : Nat} {s' : St W}
    (e : (pushDataMat a : M W Nat) s = .ok (r, s')) :
    r = s.tape.head ∧ Inv.GrownB s g val adj (.db s.tape.head a.nrow a.ncol a.flat) s' := by
  by_cases hcap : s.tape.head + (2 + 2 * (a.nrow * a.ncol)) ≤ cap
  · obtain ⟨s1, e1, gr⟩ := h.pushDataMat_ok hr hc hcap
    rw [e1] at e
    cases e
    exact ⟨rfl, gr⟩
  · exfalso
    unfold pushDataMat at e
    by_cases h2 : s.tape.head + 2 ≤ cap
    · obtain ⟨t1, e1, x1⟩ := Tape.pushIntArray_ok (R := R) h.ok [a.nrow, a.ncol] (by simpa using h2)
      rw [bind_ok (pushTape_ok e1)] at e
      obtain ⟨x, hx⟩ := pushTape_err (s := { s with tape := t1 }) (f := fun t => t.pushRealArray a.flat)
        (Tape.pushRealArray_err x1.ok _ (by rw [x1.head, Inv.flat_length]; simp; omega))
      rw [bind_err hx] at e; cases e
    · obtain ⟨x, hx⟩ := pushTape_err (s := s) (f := fun t => t.pushIntArray [a.nrow, a.ncol])
        (Tape.pushIntArray_err (R := R) h.ok _ (by simp; omega))
      rw [bind_err hx] at e; cases e

end creators

/-- both push a block of the same length -/
theorem Twin.grownB (t : Twin B a b) {x y : Block R} (hl : x.len = y.len) {s1 : St W1} {s2 : St W2}
    (g1 : Inv.GrownB a.s a.g a.val a.adj x s1) (g2 : Inv.GrownB b.s b.g b.val b.adj y s2) :
    Twin B ⟨s1, a.g.pushB x, a.val, a.adj⟩ ⟨s2, b.g.pushB y, b.val, b.adj⟩ := by
  obtain ⟨d, hd1, hd2⟩ := t.off
  exact ⟨g1.inv, g2.inv, t.cok1, t.cok2, ⟨d + x.len, by simp only [g1.head, hd1]; omega,
    by simp only [g2.head, hd2, hl]; omega⟩, t.len, t.old1, t.old2, t.new, t.vals, t.adjs, t.outer,
    fun hn => (t.nest1 hn).keep g1.keep, fun hn => (t.nest2 hn).keep g2.keep⟩

/-- blocks of variables that stand for each other -/
def VB (B : Base) (m n : Nat) : Nat → Nat → Side W1 R → Side W2 R → Prop := fun la lb a b =>
  ∃ ids ids', Block.vb la m n ids ∈ a.g.blocks ∧ Block.vb lb m n ids' ∈ b.g.blocks ∧ List.Forall₂ B.PR ids ids' ∧
    (∀ p ∈ ids, ∃ nd ∈ a.g.nodes, nd.pos = p) ∧ ∀ p ∈ ids', ∃ nd ∈ b.g.nodes, nd.pos = p

/-- the same block of reals -/
def DB (m n : Nat) (xs : List R) : Nat → Nat → Side W1 R → Side W2 R → Prop := fun la lb a b =>
  Block.db la m n xs ∈ a.g.blocks ∧ Block.db lb m n xs ∈ b.g.blocks

theorem VB.later {m n la lb : Nat} (h : VB B m n la lb a b) (l1 : Since a a') (l2 : Since b b') :
    VB B m n la lb a' b' := by
  obtain ⟨ids, ids', h1, h2, h3, h4, h5⟩ := h
  exact ⟨ids, ids', l1.blocks.subset h1, l2.blocks.subset h2, h3, fun p hp => l1.memPos (h4 p hp),
    fun p hp => l2.memPos (h5 p hp)⟩

theorem DB.later {m n la lb : Nat} {xs : List R} (h : DB m n xs la lb a b) (l1 : Since a a') (l2 : Since b b') :
    DB m n xs la lb a' b' :=
  ⟨l1.blocks.subset h.1, l2.blocks.subset h.2⟩

/-- matrices of variables that stand for each other -/
structure MatRel (B : Base) (a : Side W1 R) (b : Side W2 R) (x y : Mat Var) : Prop where
  nrow : x.nrow = y.nrow
  ncol : x.ncol = y.ncol
  get : ∀ i < x.nrow, ∀ j < x.ncol, VarRel B a b (x.get i j) (y.get i j)

variable {x y : Mat Var}

theorem MatRel.later (h : MatRel B a b x y) (l1 : Since a a') (l2 : Since b b') : MatRel B a' b' x y :=
  ⟨h.nrow, h.ncol, fun i hi j hj => (h.get i hi j hj).later l1 l2⟩

theorem MatRel.has1 (h : MatRel B a b x y) : Inv.MatHas a.g x := fun i hi j hj => (h.get i hi j hj).has1

theorem MatRel.has2 (h : MatRel B a b x y) : Inv.MatHas b.g y :=
  fun i hi j hj => (h.get i (h.nrow ▸ hi) j (h.ncol ▸ hj)).has2

theorem forall₂_map_mem {P : γ → δ → Prop} {f : α → γ} {f' : α → δ} {l : List α} (h : ∀ x ∈ l, P (f x) (f' x)) :
    List.Forall₂ P (l.map f) (l.map f') := by
  induction l with
  | nil => exact .nil
  | cons x l ih => exact .cons (h x (by simp)) (ih fun y hy => h y (by simp [hy]))

theorem forall₂_flatMap {P : γ → δ → Prop} {f : α → List γ} {f' : α → List δ} {l : List α}
    (h : ∀ x ∈ l, List.Forall₂ P (f x) (f' x)) : List.Forall₂ P (l.flatMap f) (l.flatMap f') := by
  induction l with
  | nil => exact .nil
  | cons x l ih =>
    simp only [List.flatMap_cons]
    exact List.rel_append (h x (by simp)) (ih fun y hy => h y (by simp [hy]))

theorem MatRel.flat (h : MatRel B a b x y) : VarsRel B a b x.flat y.flat := by
  unfold Mat.flat VarsRel
  rw [← h.nrow, ← h.ncol]
  refine forall₂_flatMap fun j hj => forall₂_map_mem fun i hi => ?_
  exact h.get i (by simpa using hi) j (by simpa using hj)

theorem tt_pushVarMat (t : Twin B a b) (h : MatRel B a b x y) (hr : x.nrow ≤ int32Max) (hc : x.ncol ≤ int32Max) :
    TT B a b (pushVarMat x : M W1 Nat) (pushVarMat y : M W2 Nat) (VB B x.nrow x.ncol) := by
  intro r1 t1 r2 t2 e1 e2
  obtain ⟨rfl, g1⟩ := pushVarMat_inv t.inv1 h.has1 hr hc e1
  obtain ⟨rfl, g2⟩ := pushVarMat_inv t.inv2 h.has2 (h.nrow ▸ hr) (h.ncol ▸ hc) e2
  have hl := h.flat.length
  have t' := t.grownB (by simp [Block.len, hl]) g1 g2
  refine ⟨_, _, rfl, rfl, ?_, ?_, t', x.flat.map a.g.pos, y.flat.map b.g.pos, ?_, ?_, h.flat.pos, ?_, ?_⟩
  · exact a.g.erase_pushB _
  · exact b.g.erase_pushB _
  · simp [Graph.pushB]
  · simp [Graph.pushB, h.nrow, h.ncol]
  · intro p hp
    obtain ⟨v, hv, rfl⟩ := List.mem_map.mp hp
    exact (h.flat.has1 v hv).mem_pos
  · intro p hp
    obtain ⟨v, hv, rfl⟩ := List.mem_map.mp hp
    exact (h.flat.has2 v hv).mem_pos

theorem tt_pushDataMat (t : Twin B a b) (x : Mat R) (hr : x.nrow ≤ int32Max) (hc : x.ncol ≤ int32Max) :
    TT B a b (pushDataMat x : M W1 Nat) (pushDataMat x : M W2 Nat) (DB x.nrow x.ncol x.flat) := by
  intro r1 t1 r2 t2 e1 e2
  obtain ⟨rfl, g1⟩ := pushDataMat_inv t.inv1 hr hc e1
  obtain ⟨rfl, g2⟩ := pushDataMat_inv t.inv2 hr hc e2
  have t' := t.grownB (by simp [Block.len]) g1 g2
  refine ⟨_, _, rfl, rfl, ?_, ?_, t', ?_, ?_⟩
  · exact a.g.erase_pushB _
  · exact b.g.erase_pushB _
  · simp [Graph.pushB]
  · simp [Graph.pushB]

theorem TT.matVals (t : Twin B a b) {k1 : Mat R → M W1 γ} {k2 : Mat R → M W2 δ}
    {Q' : γ → δ → Side W1 R → Side W2 R → Prop}
    (h : MatRel B a b x y) (hk : ∀ z : Mat R, z.nrow = x.nrow → z.ncol = x.ncol → TT B a b (k1 z) (k2 z) Q') :
    TT B a b (Fz.matVals x >>= k1) (Fz.matVals y >>= k2) Q' := by
  unfold Fz.matVals
  simp only [bind_assoc, pure_bind]
  refine TT.valsOf t h.flat fun l => ?_
  rw [← h.nrow, ← h.ncol]
  exact hk _ rfl rfl

theorem tt_matmulLoop (c : Chain) (la lb la' lb' : Nat) (f : Nat → Nat → R)
    (P : Side W1 R → Side W2 R → Prop) (k1 k2 : Nat → Nat → Kind R)
    (hP : ∀ {a a' : Side W1 R} {b b' : Side W2 R}, Since a a' → Since b b' → P a b → P a' b')
    (ps : List (Nat × Nat))
    (hnode : ∀ {a : Side W1 R} {b : Side W2 R}, Twin B a b → P a b → ∀ p ∈ ps,
      Inv.CanPush a.g a.s.tape.head ⟨a.s.tape.head, [p.1 + 1, p.2 + 1, la, lb], [], c, k1 p.1 p.2⟩ ∧
      Inv.CanPush b.g b.s.tape.head ⟨b.s.tape.head, [p.1 + 1, p.2 + 1, la', lb'], [], c, k2 p.1 p.2⟩ ∧
      (⟨a.s.tape.head, [p.1 + 1, p.2 + 1, la, lb], [], c, k1 p.1 p.2⟩ : Node R).ChainOK ∧
      (⟨b.s.tape.head, [p.1 + 1, p.2 + 1, la', lb'], [], c, k2 p.1 p.2⟩ : Node R).ChainOK ∧
      NodeRel B ⟨a.s.tape.head, [p.1 + 1, p.2 + 1, la, lb], [], c, k1 p.1 p.2⟩
        ⟨b.s.tape.head, [p.1 + 1, p.2 + 1, la', lb'], [], c, k2 p.1 p.2⟩) :
    ∀ {a : Side W1 R} {b : Side W2 R}, Twin B a b → P a b →
    TT B a b (matmulLoop c la lb f ps : M W1 (List Var)) (matmulLoop c la' lb' f ps : M W2 (List Var)) (VL B) := by
  induction ps with
  | nil => intro a b t _; exact TT.pure t .nil
  | cons p ps ih =>
    obtain ⟨i, j⟩ := p
    intro a b t hp
    obtain ⟨c1, c2, c3, c4, c5⟩ := hnode t hp (i, j) (by simp)
    have e1 : (matmulLoop c la lb f ((i, j) :: ps) : M W1 (List Var)) =
        ((do let w ← newVarOpId (f i j) [i + 1, j + 1, la, lb]; w.setChain c; pure w) >>= fun s => do
          let ss ← matmulLoop c la lb f ps
          pure (s :: ss)) := by
      simp only [matmulLoop, bind_assoc, pure_bind]
    have e2 : (matmulLoop c la' lb' f ((i, j) :: ps) : M W2 (List Var)) =
        ((do let w ← newVarOpId (f i j) [i + 1, j + 1, la', lb']; w.setChain c; pure w) >>= fun s => do
          let ss ← matmulLoop c la' lb' f ps
          pure (s :: ss)) := by
      simp only [matmulLoop, bind_assoc, pure_bind]
    rw [e1, e2]
    have i1 := newOpId_inv t.inv1 (f i j) c1 rfl
    have i2 := newOpId_inv t.inv2 (f i j) c2 rfl
    dsimp only at i1 i2
    refine TT.bind (TT.grown t rfl rfl c5 c3 c4 i1 i2) fun v w a' b' l1 l2 t' hv => ?_
    have ih' := @ih (fun {a b} h hp q hq => hnode h hp q (List.mem_cons_of_mem _ hq))
    refine TT.bind (ih' t' (hP l1 l2 hp)) fun vs ws a'' b'' l1' l2' t'' hvs => ?_
    exact TT.pure t'' (.cons (VarRel.later hv l1' l2') hvs)

theorem forall₂_cmRow {P : α → β → Prop} {l : List α} {l' : List β} (h : List.Forall₂ P l l') (m n i : Nat) :
    List.Forall₂ P (cmRow l m n i) (cmRow l' m n i) := by
  unfold cmRow
  induction List.range n with
  | nil => exact .nil
  | cons c cs ih =>
    simp only [List.filterMap_cons]
    have := h.get (i := c * m + i)
    have hl := h.length_eq
    by_cases hc : c * m + i < l.length
    · rw [List.getElem?_eq_getElem hc, List.getElem?_eq_getElem (hl ▸ hc)]
      exact .cons (h.get hc (hl ▸ hc)) ih
    · rw [List.getElem?_eq_none (by omega), List.getElem?_eq_none (by omega)]
      exact ih

theorem forall₂_cmCol {P : α → β → Prop} {l : List α} {l' : List β} (h : List.Forall₂ P l l') (m j : Nat) :
    List.Forall₂ P (cmCol l m j) (cmCol l' m j) :=
  List.forall₂_take _ (List.forall₂_drop _ h)

theorem small4 {i j la lb m n k : Nat} (hi : i < m) (hj : j < n) (hm : m ≤ k) (hn : n ≤ k) (h1 : la ≤ k)
    (h2 : lb ≤ k) : ∀ o ∈ [i + 1, j + 1, la, lb], o ≤ k := by
  intro o ho
  simp only [List.mem_cons, List.not_mem_nil, or_false] at ho
  rcases ho with rfl | rfl | rfl | rfl <;> omega

section mm
variable (t : Twin B a b) {x' y' : Mat Var} {d : Mat R}
include t

theorem tt_matmulVV (h : MatRel B a b x y) (h' : MatRel B a b x' y') (h1 : x.nrow ≤ int32Max)
    (h2 : x.ncol ≤ int32Max) (h3 : x'.nrow ≤ int32Max) (h4 : x'.ncol ≤ int32Max) :
    TT B a b (matmulVV (R := R) x x' : M W1 (List Var)) (matmulVV (R := R) y y' : M W2 (List Var)) (VL B) := by
  unfold matmulVV
  refine TT.bind (tt_pushVarMat t h h1 h2) fun la la' a1 b1 l1 l2 t1 q1 => ?_
  refine TT.bind (tt_pushVarMat t1 (h'.later l1 l2) h3 h4) fun lb lb' a2 b2 l3 l4 t2 q2 => ?_
  refine TT.matVals t2 ((h.later l1 l2).later l3 l4) fun av _ _ => ?_
  refine TT.matVals t2 ((h'.later l1 l2).later l3 l4) fun bv _ _ => ?_
  rw [← h.nrow, ← h.ncol, ← h'.nrow, ← h'.ncol]
  split
  · rename_i hn
    obtain ⟨i1, i2, m1, m2, m3, m4, m5⟩ := q1.later l3 l4
    obtain ⟨j1, j2, n1, n2, n3, n4, n5⟩ := q2
    refine tt_matmulLoop _ la lb la' lb' _ (fun a b =>
        (Block.vb la x.nrow x.ncol i1 ∈ a.g.blocks ∧ Block.vb la' x.nrow x.ncol i2 ∈ b.g.blocks ∧
          (∀ p ∈ i1, ∃ nd ∈ a.g.nodes, nd.pos = p) ∧ ∀ p ∈ i2, ∃ nd ∈ b.g.nodes, nd.pos = p) ∧
        Block.vb lb x'.nrow x'.ncol j1 ∈ a.g.blocks ∧ Block.vb lb' x'.nrow x'.ncol j2 ∈ b.g.blocks ∧
          (∀ p ∈ j1, ∃ nd ∈ a.g.nodes, nd.pos = p) ∧ ∀ p ∈ j2, ∃ nd ∈ b.g.nodes, nd.pos = p)
      (fun i j => .mmVV (cmRow i1 x.nrow x.ncol i) (cmCol j1 x'.nrow j))
      (fun i j => .mmVV (cmRow i2 x.nrow x.ncol i) (cmCol j2 x'.nrow j)) ?_ _ ?_ t2
      ⟨⟨m1, m2, m4, m5⟩, n1, n2, n4, n5⟩
    · rintro a a' b b' l l' ⟨⟨q1, q2, q3, q4⟩, p1, p2, p3, p4⟩
      exact ⟨⟨l.blocks.subset q1, l'.blocks.subset q2, fun p hp => l.memPos (q3 p hp), fun p hp => l'.memPos (q4 p hp)⟩,
        l.blocks.subset p1, l'.blocks.subset p2, fun p hp => l.memPos (p3 p hp), fun p hp => l'.memPos (p4 p hp)⟩
    · rintro a b t ⟨⟨q1, q2, q3, q4⟩, p1, p2, p3, p4⟩ p hp
      have hpl := mem_matPairs hp
      have q1' := q1
      have q2' := q2
      rw [hn] at q1 q2 ⊢
      refine ⟨⟨rfl, ?_, small4 hpl.1 hpl.2 h1 h4 (t.inv1.block_small q1') (t.inv1.block_small p1), ?_⟩,
        ⟨rfl, ?_, small4 hpl.1 hpl.2 h1 h4 (t.inv2.block_small q2') (t.inv2.block_small p2), ?_⟩,
        ⟨rfl, Or.inl rfl⟩, ⟨rfl, Or.inl rfl⟩, ⟨t.off, rfl, rfl, forall₂_cmRow m3 _ _ _, forall₂_cmCol n3 _ _, rfl⟩⟩
      · intro q hq
        rcases List.mem_append.mp hq with hq | hq
        · exact q3 q (mem_cmRow hq)
        · exact p3 q (mem_cmCol hq)
      · exact ⟨p.1, p.2, la, x.nrow, x'.nrow, i1, lb, x'.ncol, j1, rfl, q1, p1, hpl.1, hpl.2, rfl, rfl⟩
      · intro q hq
        rcases List.mem_append.mp hq with hq | hq
        · exact q4 q (mem_cmRow hq)
        · exact p4 q (mem_cmCol hq)
      · exact ⟨p.1, p.2, la', x.nrow, x'.nrow, i2, lb', x'.ncol, j2, rfl, q2, p2, hpl.1, hpl.2, rfl, rfl⟩
  · exact TT.fail _

theorem tt_matmulVD (h : MatRel B a b x y) (h1 : x.nrow ≤ int32Max)
    (h2 : x.ncol ≤ int32Max) (h3 : d.nrow ≤ int32Max) (h4 : d.ncol ≤ int32Max) :
    TT B a b (matmulVD x d : M W1 (List Var)) (matmulVD y d : M W2 (List Var)) (VL B) := by
  unfold matmulVD
  refine TT.bind (tt_pushVarMat t h h1 h2) fun la la' a1 b1 l1 l2 t1 q1 => ?_
  refine TT.bind (tt_pushDataMat t1 d h3 h4) fun lb lb' a2 b2 l3 l4 t2 q2 => ?_
  refine TT.matVals t2 ((h.later l1 l2).later l3 l4) fun av _ _ => ?_
  rw [← h.nrow, ← h.ncol]
  split
  · rename_i hn
    obtain ⟨i1, i2, m1, m2, m3, m4, m5⟩ := q1.later l3 l4
    refine tt_matmulLoop _ la lb la' lb' _ (fun a b =>
        (Block.vb la x.nrow x.ncol i1 ∈ a.g.blocks ∧ Block.vb la' x.nrow x.ncol i2 ∈ b.g.blocks ∧
          (∀ p ∈ i1, ∃ nd ∈ a.g.nodes, nd.pos = p) ∧ ∀ p ∈ i2, ∃ nd ∈ b.g.nodes, nd.pos = p) ∧
        DB d.nrow d.ncol d.flat lb lb' a b)
      (fun i j => .mmVD (cmRow i1 x.nrow x.ncol i) (cmCol d.flat d.nrow j))
      (fun i j => .mmVD (cmRow i2 x.nrow x.ncol i) (cmCol d.flat d.nrow j)) ?_ _ ?_ t2
      ⟨⟨m1, m2, m4, m5⟩, q2⟩
    · rintro a a' b b' l l' ⟨⟨q1, q2, q3, q4⟩, p1⟩
      exact ⟨⟨l.blocks.subset q1, l'.blocks.subset q2, fun p hp => l.memPos (q3 p hp), fun p hp => l'.memPos (q4 p hp)⟩,
        p1.later l l'⟩
    · rintro a b t ⟨⟨q1, q2, q3, q4⟩, p1, p2⟩ p hp
      have hpl := mem_matPairs hp
      have q1' := q1
      have q2' := q2
      rw [hn] at q1 q2 ⊢
      refine ⟨⟨rfl, ?_, small4 hpl.1 hpl.2 h1 h4 (t.inv1.block_small q1') (t.inv1.block_small p1), ?_⟩,
        ⟨rfl, ?_, small4 hpl.1 hpl.2 h1 h4 (t.inv2.block_small q2') (t.inv2.block_small p2), ?_⟩,
        ⟨rfl, Or.inl rfl⟩, ⟨rfl, Or.inl rfl⟩, ⟨t.off, rfl, rfl, forall₂_cmRow m3 _ _ _, rfl, rfl⟩⟩
      · intro q hq
        exact q3 q (mem_cmRow hq)
      · exact ⟨p.1, p.2, la, x.nrow, d.nrow, i1, lb, d.ncol, d.flat, rfl, q1, p1, hpl.1, hpl.2, rfl, rfl⟩
      · intro q hq
        exact q4 q (mem_cmRow hq)
      · exact ⟨p.1, p.2, la', x.nrow, d.nrow, i2, lb', d.ncol, d.flat, rfl, q2, p2, hpl.1, hpl.2, rfl, rfl⟩
  · exact TT.fail _

theorem tt_matmulDV (h : MatRel B a b x y) (h1 : d.nrow ≤ int32Max)
    (h2 : d.ncol ≤ int32Max) (h3 : x.nrow ≤ int32Max) (h4 : x.ncol ≤ int32Max) :
    TT B a b (matmulDV d x : M W1 (List Var)) (matmulDV d y : M W2 (List Var)) (VL B) := by
  unfold matmulDV
  refine TT.bind (tt_pushDataMat t d h1 h2) fun la la' a1 b1 l1 l2 t1 q1 => ?_
  refine TT.bind (tt_pushVarMat t1 (h.later l1 l2) h3 h4) fun lb lb' a2 b2 l3 l4 t2 q2 => ?_
  refine TT.matVals t2 ((h.later l1 l2).later l3 l4) fun av _ _ => ?_
  rw [← h.nrow, ← h.ncol]
  split
  · rename_i hn
    obtain ⟨i1, i2, m1, m2, m3, m4, m5⟩ := q2
    refine tt_matmulLoop _ la lb la' lb' _ (fun a b =>
        (Block.vb lb x.nrow x.ncol i1 ∈ a.g.blocks ∧ Block.vb lb' x.nrow x.ncol i2 ∈ b.g.blocks ∧
          (∀ p ∈ i1, ∃ nd ∈ a.g.nodes, nd.pos = p) ∧ ∀ p ∈ i2, ∃ nd ∈ b.g.nodes, nd.pos = p) ∧
        DB d.nrow d.ncol d.flat la la' a b)
      (fun i j => .mmDV (cmRow d.flat d.nrow d.ncol i) (cmCol i1 x.nrow j))
      (fun i j => .mmDV (cmRow d.flat d.nrow d.ncol i) (cmCol i2 x.nrow j)) ?_ _ ?_ t2
      ⟨⟨m1, m2, m4, m5⟩, q1.later l3 l4⟩
    · rintro a a' b b' l l' ⟨⟨q1, q2, q3, q4⟩, p1⟩
      exact ⟨⟨l.blocks.subset q1, l'.blocks.subset q2, fun p hp => l.memPos (q3 p hp), fun p hp => l'.memPos (q4 p hp)⟩,
        p1.later l l'⟩
    · rintro a b t ⟨⟨q1, q2, q3, q4⟩, p1, p2⟩ p hp
      have hpl := mem_matPairs hp
      have p1' := p1
      have p2' := p2
      rw [hn] at p1 p2 ⊢
      refine ⟨⟨rfl, ?_, small4 hpl.1 hpl.2 h1 h4 (t.inv1.block_small p1') (t.inv1.block_small q1), ?_⟩,
        ⟨rfl, ?_, small4 hpl.1 hpl.2 h1 h4 (t.inv2.block_small p2') (t.inv2.block_small q2), ?_⟩,
        ⟨rfl, Or.inl rfl⟩, ⟨rfl, Or.inl rfl⟩, ⟨t.off, rfl, rfl, forall₂_cmCol m3 _ _, rfl, rfl⟩⟩
      · intro q hq
        exact q3 q (mem_cmCol hq)
      · exact ⟨p.1, p.2, la, d.nrow, x.nrow, d.flat, lb, x.ncol, i1, rfl, p1, q1, hpl.1, hpl.2, rfl, rfl⟩
      · intro q hq
        exact q4 q (mem_cmCol hq)
      · exact ⟨p.1, p.2, la', d.nrow, x.nrow, d.flat, lb', x.ncol, i2, rfl, p2, q2, hpl.1, hpl.2, rfl, rfl⟩
  · exact TT.fail _

end mm

/-! ## calls and user functions -/

theorem VarsRel.nth {vs ws : List Var} (h : VarsRel B a b vs ws) {i : Nat} (hi : i < vs.length) :
    VarRel B a b (nth vs i) (nth ws i) := by
  have hl := h.length
  unfold Spec.nth
  rw [List.getD_eq_getElem?_getD, List.getD_eq_getElem?_getD, List.getElem?_eq_getElem hi,
    List.getElem?_eq_getElem (hl ▸ hi)]
  exact List.Forall₂.get h hi (hl ▸ hi)

theorem VarsRel.nths {vs ws : List Var} (h : VarsRel B a b vs ws) {is : List Nat} (hi : ∀ i ∈ is, i < vs.length) :
    VarsRel B a b (is.map (Spec.nth vs)) (is.map (Spec.nth ws)) :=
  forall₂_map_mem fun i hm => h.nth (hi i hm)

theorem VarsRel.mat {vs ws : List Var} (h : VarsRel B a b vs ws) {m : Matrix' Nat}
    (hi : ∀ i ∈ m.list, i < vs.length) :
    MatRel B a b ⟨m.nrow, m.ncol, fun i j => Spec.nth vs (m.get i j)⟩
      ⟨m.nrow, m.ncol, fun i j => Spec.nth ws (m.get i j)⟩ := by
  refine ⟨rfl, rfl, fun i hi' j hj' => h.nth (hi _ ?_)⟩
  unfold Matrix'.list entries
  simp only [List.mem_map, List.mem_flatMap, List.mem_range]
  exact ⟨(i, j), ⟨j, hj', i, hi', rfl⟩, rfl⟩

theorem tt_make (t : Twin B a b) {vs ws : List Var} (h : VarsRel B a b vs ws) (m : Make R)
    (ha : ∀ i ∈ m.args, i < vs.length) (hs : m.Sane) :
    TT B a b (m.call vs : M W1 (List Var)) (m.call ws : M W2 (List Var)) (VL B) := by
  cases m with
  | new0 => exact tt_single t (tt_newVar0 t)
  | new d => exact tt_single t (tt_newVar t d)
  | newVals ds => exact tt_newVars t ds
  | newArr n => exact tt_newVar1d n t
  | fn f i => exact tt_single t (tt_fn t (h.nth (ha i (by simp [Make.args]))) f)
  | fnArr f is =>
    exact tt_mapM (fun a b v w => VarRel B a b v w) (fun l1 l2 h => h.later l1 l2) (fun t h => tt_fn t h f) t
      (h.nths ha)
  | bin f i j =>
    exact tt_single t (tt_binVV t (h.nth (ha i (by simp [Make.args]))) (h.nth (ha j (by simp [Make.args]))) f)
  | binArr f is js =>
    exact tt_elemental2 f t (h.nths fun i hi => ha i (by simp [Make.args, hi]))
      (h.nths fun i hi => ha i (by simp [Make.args, hi]))
  | binVD f i d =>
    refine tt_single t (tt_binVD t (h.nth (ha i (by simp [Make.args]))) f d ?_)
    cases f <;> exact hs
  | binDV f d i =>
    refine tt_single t (tt_binDV t (h.nth (ha i (by simp [Make.args]))) f d ?_)
    cases f <;> exact hs
  | sum is => exact tt_single t (tt_reduceV t (h.nths ha) _ (by decide))
  | norm2 is => exact tt_single t (tt_reduceV t (h.nths ha) _ (by decide))
  | logSumExp is => exact tt_single t (tt_reduceV t (h.nths ha) _ (by decide))
  | dotVV is js =>
    exact tt_single t (tt_dotVV t (h.nths fun i hi => ha i (by simp [Make.args, hi]))
      (h.nths fun i hi => ha i (by simp [Make.args, hi])))
  | dotVD is ds => exact tt_single t (tt_dotVD t (h.nths ha) ds)
  | dotDV ds is => exact tt_single t (tt_dotDV t (h.nths ha) ds)
  | matmulVV x y =>
    simp only [Make.Sane] at hs
    exact tt_matmulVV t (h.mat fun i hi => ha i (by simp [Make.args, hi]))
      (h.mat fun i hi => ha i (by simp [Make.args, hi]))
      (by simp only [int32Max]; omega) (by simp only [int32Max]; omega)
      (by simp only [int32Max]; omega) (by simp only [int32Max]; omega)
  | matmulVD x y =>
    simp only [Make.Sane] at hs
    exact tt_matmulVD t (h.mat ha)
      (by simp only [int32Max]; omega) (by simp only [int32Max]; omega)
      (by simp only [int32Max]; omega) (by simp only [int32Max]; omega)
  | matmulDV x y =>
    simp only [Make.Sane] at hs
    exact tt_matmulDV t (h.mat ha)
      (by simp only [int32Max]; omega) (by simp only [int32Max]; omega)
      (by simp only [int32Max]; omega) (by simp only [int32Max]; omega)
  | lpdfVV d ys m' s' =>
    have h1 := h.nth (ha m' (by simp [Make.args]))
    have h2 := h.nth (ha s' (by simp [Make.args]))
    refine tt_single t ?_
    cases d
    · exact tt_lpdfVV t h1 h2 _ _ _ _
    · exact tt_lpdfVV t h1 h2 _ _ _ _
  | lpdfVD d ys m' s' =>
    have h1 := h.nth (ha m' (by simp [Make.args]))
    refine tt_single t ?_
    cases d
    · exact tt_lpdfVD t h1 _ _ _ _
    · exact tt_lpdfVD t h1 _ _ _ _
  | lpdfDV d ys m' s' =>
    have h1 := h.nth (ha s' (by simp [Make.args]))
    refine tt_single t ?_
    cases d
    · exact tt_lpdfDV t h1 _ _ _ _
    · exact tt_lpdfDV t h1 _ _ _ _
  | partials x is ds => exact tt_single t (tt_varWithPartials t (h.nths ha) x ds)
  | user x r is ds => exact tt_single t (tt_userOp t (h.nths ha) x r ds)

theorem tt_code (f : Code R) : ∀ {a : Side W1 R} {b : Side W2 R} {vs ws : List Var}, f.Sane → Twin B a b →
    VarsRel B a b vs ws → TT B a b (f.run vs : M W1 (List Var)) (f.run ws : M W2 (List Var)) (VL B) := by
  induction f with
  | ret is =>
    intro a b vs ws _ t h
    unfold Code.run
    rw [← h.length]
    split
    · rename_i hi
      exact TT.pure t (h.nths hi)
    · exact TT.fail _
  | make m k ih =>
    intro a b vs ws hs t h
    unfold Code.run
    rw [← h.length]
    split
    · rename_i hi
      refine TT.bind (tt_make t h m hi hs.1) fun v w a' b' l1 l2 t' hv => ?_
      exact ih hs.2 t' (VarsRel.append t' (h.later l1 l2) hv)
    · exact TT.fail _
  | look i k ih =>
    intro a b vs ws hs t h
    unfold Code.run
    rw [← h.length]
    split
    · rename_i hi
      exact TT.val t (h.nth hi) fun x => ih x (hs x) t h
    · exact TT.fail _

end Fz
