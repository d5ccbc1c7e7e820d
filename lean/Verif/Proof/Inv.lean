import Verif.Proof.TapeLemmas
import Mathlib.Data.List.Pairwise

/-!
# The tape invariant

A ghost `Graph` lists the records (`Node`) and matrix blocks (`Block`) the tape holds;
`Inv s g val adj` says that the words of the state `s` represent `g` with values `val` and
adjoints `adj` (functions of the tape position).
-/

set_option linter.unusedSectionVars false

namespace Fz

/-- `mem` holds the words `ws` from position `p` on -/
def HasWords {W : Type} (mem : Nat → W) (p : Nat) (ws : List W) : Prop :=
  ∀ j (h : j < ws.length), mem (p + j) = ws[j]

namespace HasWords
variable {W : Type} {mem : Nat → W} {p : Nat} {ws us : List W}

theorem nil : HasWords mem p ([] : List W) := by intro j h; simp at h

theorem append : HasWords mem p (ws ++ us) ↔ HasWords mem p ws ∧ HasWords mem (p + ws.length) us := by
  constructor
  · intro h
    refine ⟨fun j hj => ?_, fun j hj => ?_⟩
    · have := h j (by simp; omega)
      rwa [List.getElem_append_left hj] at this
    · have := h (ws.length + j) (by simp; omega)
      rw [List.getElem_append_right (by omega)] at this
      simpa [Nat.add_assoc] using this
  · rintro ⟨h1, h2⟩ j hj
    by_cases h : j < ws.length
    · rw [List.getElem_append_left h]; exact h1 j h
    · rw [List.getElem_append_right (by omega)]
      have := h2 (j - ws.length) (by simp at hj; omega)
      rw [← this]; congr 1; omega

theorem cons {w : W} : HasWords mem p (w :: ws) ↔ mem p = w ∧ HasWords mem (p + 1) ws := by
  have := append (mem := mem) (p := p) (ws := [w]) (us := ws)
  simp only [List.singleton_append, List.length_singleton] at this
  rw [this]
  constructor
  · rintro ⟨h1, h2⟩; exact ⟨h1 0 (by simp), h2⟩
  · rintro ⟨h1, h2⟩
    refine ⟨?_, h2⟩
    intro j hj
    simp at hj; subst hj; simpa using h1

theorem overlay_self : HasWords (overlay mem p ws) p ws := fun _ hj => overlay_get hj

theorem overlay_of_disjoint {q : Nat} (h : HasWords mem p ws)
    (hd : p + ws.length ≤ q ∨ q + us.length ≤ p) : HasWords (overlay mem q us) p ws := by
  intro j hj
  rw [← h j hj]
  rcases hd with hd | hd
  · exact overlay_lt (by omega)
  · exact overlay_ge (by omega)

theorem congr {mem' : Nat → W} (h : HasWords mem p ws)
    (he : ∀ k, p ≤ k → k < p + ws.length → mem' k = mem k) : HasWords mem' p ws := by
  intro j hj
  rw [he _ (by omega) (by omega)]; exact h j hj

end HasWords

/-- how the operands of a record are to be read: `plain` records list tape positions of operands;
the entries of a matrix product refer to matrix blocks -/
inductive Kind (R : Type) where
  | plain
  | mmVV (row col : List Nat)
  | mmVD (row : List Nat) (col : List R)
  | mmDV (row : List R) (col : List Nat)

/-- ghost description of a record -/
structure Node (R : Type) where
  pos : Nat
  ops : List Nat
  dops : List R
  chain : Chain
  kind : Kind R

/-- number of words of the record -/
def Node.len {R : Type} (nd : Node R) : Nat := 6 + nd.ops.length + 2 * nd.dops.length

/-- positions of the variables the record depends on -/
def Node.args {R : Type} (nd : Node R) : List Nat :=
  match nd.kind with
  | .plain => nd.ops
  | .mmVV r c => r ++ c
  | .mmVD r _ => r
  | .mmDV _ c => c

/-- the data the record's derivative uses -/
def Node.data {R : Type} (nd : Node R) : List R :=
  match nd.kind with
  | .plain => nd.dops
  | .mmVV _ _ => []
  | .mmVD _ c => c
  | .mmDV r _ => r

/-- a matrix stored in the tape: of variables (tape positions) or of reals, column by column -/
inductive Block (R : Type) where
  | vb (loc m n : Nat) (ids : List Nat)
  | db (loc m n : Nat) (xs : List R)

/-- row `i` of a column-major `m × n` array -/
def cmRow {α : Type} (l : List α) (m n i : Nat) : List α :=
  (List.range n).filterMap fun c => l[c * m + i]?
/-- column `j` of a column-major `m × n` array -/
def cmCol {α : Type} (l : List α) (m j : Nat) : List α := (l.drop (j * m)).take m

namespace Block
variable {R : Type}
/-- first position -/
def loc : Block R → Nat
  | vb l _ _ _ => l
  | db l _ _ _ => l
/-- number of words -/
def len : Block R → Nat
  | vb _ _ _ ids => 2 + ids.length
  | db _ _ _ xs => 2 + 2 * xs.length
/-- sizes agree and integers are representable -/
def Good : Block R → Prop
  | vb _ m n ids => ids.length = m * n ∧ m ≤ int32Max ∧ n ≤ int32Max ∧ ∀ k ∈ ids, k ≤ int32Max
  | db _ m n xs => xs.length = m * n ∧ m ≤ int32Max ∧ n ≤ int32Max
/-- the words -/
def words {W : Type} [Rep W R] : Block R → List W
  | vb _ m n ids => ([m, n] ++ ids).map Rep.ofNat
  | db _ m n xs => [m, n].map Rep.ofNat ++ Tape.realWords xs
end Block

/-- ghost description of the tape -/
structure Graph (R : Type) where
  nodes : List (Node R)
  blocks : List (Block R)

/-- the operands of a matrix-product record point into the blocks -/
def KindOK {R : Type} (bs : List (Block R)) (nd : Node R) : Prop :=
  match nd.kind with
  | .plain => True
  | .mmVV row col => ∃ i j la m n ids lb k ids',
      nd.ops = [i + 1, j + 1, la, lb] ∧ Block.vb la m n ids ∈ bs ∧ Block.vb lb n k ids' ∈ bs ∧
      i < m ∧ j < k ∧ row = cmRow ids m n i ∧ col = cmCol ids' n j
  | .mmVD row col => ∃ i j la m n ids lb k xs,
      nd.ops = [i + 1, j + 1, la, lb] ∧ Block.vb la m n ids ∈ bs ∧ Block.db lb n k xs ∈ bs ∧
      i < m ∧ j < k ∧ row = cmRow ids m n i ∧ col = cmCol xs n j
  | .mmDV row col => ∃ i j la m n xs lb k ids',
      nd.ops = [i + 1, j + 1, la, lb] ∧ Block.db la m n xs ∈ bs ∧ Block.vb lb n k ids' ∈ bs ∧
      i < m ∧ j < k ∧ row = cmRow xs m n i ∧ col = cmCol ids' n j

/-- static well-formedness of the ghost graph below the tape head -/
structure Graph.WF {R : Type} (g : Graph R) (head : Nat) : Prop where
  sorted : g.nodes.Pairwise fun a b => a.pos + a.len ≤ b.pos
  below : ∀ nd ∈ g.nodes, 1 ≤ nd.pos ∧ nd.pos + nd.len ≤ head
  args : ∀ nd ∈ g.nodes, ∀ p ∈ nd.args, p < nd.pos ∧ ∃ nd' ∈ g.nodes, nd'.pos = p
  opsSmall : ∀ nd ∈ g.nodes, ∀ o ∈ nd.ops, o ≤ int32Max
  kinds : ∀ nd ∈ g.nodes, KindOK g.blocks nd
  bbelow : ∀ b ∈ g.blocks, 1 ≤ b.loc ∧ b.loc + b.len ≤ head
  bgood : ∀ b ∈ g.blocks, b.Good
  bdisj : ∀ b ∈ g.blocks, ∀ nd ∈ g.nodes,
    nd.pos + nd.len ≤ b.loc ∨ b.loc + b.len ≤ nd.pos

variable {W R : Type} [Arith R] [Rep W R]

/-- the state represents the graph `g` with values `val` and adjoints `adj` -/
structure Inv (s : St W) (g : Graph R) (val adj : Nat → R) : Prop where
  ok : s.tape.OK
  wf : g.WF s.tape.head
  vhead : s.vhead = g.nodes.length + 1
  vcap : s.vhead ≤ s.nVaris + 1
  vmax : s.nVaris ≤ int32Max
  vform : s.nVaris = 0 ∨ ∃ k, s.nVaris = initVariStackSize * 2 ^ k
  vdef : ∀ k, k = 0 ∨ s.nVaris < k → s.varis k = {}
  tab : ∀ k nd, g.nodes[k]? = some nd → s.varis (k + 1) = ⟨nd.pos, nd.chain⟩
  recs : ∀ nd ∈ g.nodes,
    HasWords s.tape.mem nd.pos (Tape.recWords (val nd.pos) (adj nd.pos) nd.ops nd.dops)
  blks : ∀ b ∈ g.blocks, HasWords s.tape.mem b.loc (b.words)

/-- no variables: the start of the program -/
def Graph.empty {R : Type} : Graph R := ⟨[], []⟩

theorem inv_init (val adj : Nat → R) : Inv (St.init : St W) Graph.empty val adj := by
  refine ⟨Tape.ok_init, ?_, rfl, ?_, ?_, ?_, ?_, ?_, ?_, ?_⟩
  · constructor <;> simp [Graph.empty]
  all_goals simp [St.init, Graph.empty, int32Max]

/-- replace the tape words -/
def St.withMem (s : St W) (m : Nat → W) : St W := { s with tape := { s.tape with mem := m } }

@[simp] theorem St.withMem_withMem (s : St W) (m m' : Nat → W) :
    (s.withMem m).withMem m' = s.withMem m' := rfl

theorem St.withMem_self (s : St W) : s.withMem s.tape.mem = s := rfl

theorem bind_ok {α β : Type} {m : M W α} {f : α → M W β} {s s' : St W} {a : α}
    (h : m s = .ok (a, s')) : (m >>= f) s = f a s' := by
  show (StateT.bind m f) s = _
  simp [StateT.bind, h, bind, Except.bind]

theorem pure_ok {α : Type} (a : α) (s : St W) : (pure a : M W α) s = .ok (a, s) := rfl

theorem bind_err {α β : Type} {m : M W α} {f : α → M W β} {s : St W} {e : Err}
    (h : m s = .error e) : (m >>= f) s = .error e := by
  show (StateT.bind m f) s = _
  simp [StateT.bind, h, bind, Except.bind]

theorem get_ok (s : St W) : (get : M W (St W)) s = .ok (s, s) := rfl
theorem modify_ok (f : St W → St W) (s : St W) : (modify f : M W Unit) s = .ok ((), f s) := rfl

theorem readTape_ok {α : Type} {f : Tape W → Except Err α} {s : St W} {a : α} (h : f s.tape = .ok a) :
    readTape f s = .ok (a, s) := by simp [readTape, h]

theorem modTape_ok {f : Tape W → Except Err (Tape W)} {s : St W} {t : Tape W}
    (h : f s.tape = .ok t) : modTape f s = .ok ((), { s with tape := t }) := by simp [modTape, h]

theorem pushTape_ok {f : Tape W → Except Err (Nat × Tape W)} {s : St W} {t : Tape W} {i : Nat}
    (h : f s.tape = .ok (i, t)) : pushTape f s = .ok (i, { s with tape := t }) := by
  simp [pushTape, h]

theorem mapM_except_ok {α β : Type} {f : α → Except Err β} {g : α → β} (l : List α)
    (h : ∀ a ∈ l, f a = .ok (g a)) : l.mapM f = .ok (l.map g) := by
  induction l with
  | nil => rfl
  | cons a l ih =>
    rw [List.mapM_cons, h a (by simp), ih fun b hb => h b (by simp [hb])]
    rfl

theorem mapM_M_ok {α β : Type} {f : α → M W β} {g : α → β} {s : St W} (l : List α)
    (h : ∀ a ∈ l, f a s = .ok (g a, s)) : l.mapM f s = .ok (l.map g, s) := by
  induction l with
  | nil => rfl
  | cons a l ih =>
    rw [List.mapM_cons, bind_ok (h a (by simp)), bind_ok (ih fun b hb => h b (by simp [hb]))]
    rfl

namespace Tape
variable [LawfulRep W R] {t : Tape W}

theorem rdN_ok {p n : Nat} (h1 : 1 ≤ p) (h2 : p ≤ t.size) (hm : t.mem p = Rep.ofNat n)
    (hn : n ≤ int32Max) : t.rdN p = .ok n := by
  unfold rdN
  rw [rd_ok h1 h2, hm]
  show Except.ok (Rep.toNat (Rep.ofNat n : W)) = _
  rw [LawfulRep.toNat_ofNat n hn]

theorem rdSec_ok (ns : List Nat) : ∀ {p : Nat}, 1 ≤ p → p + ns.length ≤ t.size + 1 →
    HasWords t.mem p (ns.map Rep.ofNat) → (∀ n ∈ ns, n ≤ int32Max) →
    t.rdSec p ns.length = .ok ns := by
  induction ns with
  | nil => intros; rfl
  | cons n ns ih =>
    intro p h1 h2 hw hs
    simp only [List.map_cons, HasWords.cons] at hw
    simp only [List.length_cons] at h2
    simp only [List.length_cons, rdSec]
    rw [rdN_ok h1 (by omega) hw.1 (hs n (by simp)),
      ih (p := p + 1) (by omega) (by omega) hw.2 (fun k hk => hs k (by simp [hk]))]
    rfl

theorem getRealAt_ok {p : Nat} {r : R} (h1 : 1 ≤ p) (h2 : p + 1 ≤ t.size)
    (hw : HasWords t.mem p [Rep.lo r, Rep.hi r]) : t.getRealAt p = .ok r := by
  simp only [HasWords.cons] at hw
  unfold getRealAt
  rw [rd_ok h1 (by omega), rd_ok (by omega) h2, hw.1, hw.2.1]
  show Except.ok (Rep.join (Rep.lo r) (Rep.hi r)) = _
  rw [LawfulRep.join_lo_hi]

theorem getRealArrayAt_ok (d : List R) : ∀ {p : Nat}, 1 ≤ p → p + 2 * d.length ≤ t.size + 1 →
    HasWords t.mem p (realWords d) → t.getRealArrayAt p d.length = .ok d := by
  induction d with
  | nil => intros; rfl
  | cons r d ih =>
    intro p h1 h2 hw
    have hw' : HasWords t.mem p ([Rep.lo r, Rep.hi r] ++ realWords d) := hw
    rw [HasWords.append] at hw'
    simp only [List.length_cons] at h2
    simp only [List.length_cons, getRealArrayAt]
    rw [getRealAt_ok h1 (by omega) hw'.1, ih (p := p + 2) (by omega) (by omega) hw'.2]
    rfl

/-- a record with its words, inside the storage -/
structure RecIn (t : Tape W) (p : Nat) (v a : R) (ops : List Nat) (dops : List R) : Prop where
  pos : 1 ≤ p
  fit : p + (6 + ops.length + 2 * dops.length) ≤ t.size + 1
  szle : t.size ≤ int32Max
  small : ∀ o ∈ ops, o ≤ int32Max
  words : HasWords t.mem p (recWords v a ops dops)

namespace RecIn
variable {p : Nat} {v a : R} {ops : List Nat} {dops : List R}

theorem split (h : RecIn t p v a ops dops) :
    HasWords t.mem p [Rep.lo v, Rep.hi v] ∧ HasWords t.mem (p + 2) [Rep.lo a, Rep.hi a] ∧
    t.mem (p + 4) = Rep.ofNat ops.length ∧ HasWords t.mem (p + 5) (ops.map Rep.ofNat) ∧
    t.mem (p + 5 + ops.length) = Rep.ofNat dops.length ∧
    HasWords t.mem (p + 6 + ops.length) (realWords dops) := by
  have hw := h.words
  unfold recWords at hw
  have e : ([Rep.lo v, Rep.hi v, Rep.lo a, Rep.hi a] : List W) =
    [Rep.lo v, Rep.hi v] ++ [Rep.lo a, Rep.hi a] := rfl
  rw [e] at hw
  simp only [List.map_append, HasWords.append, List.map_cons, List.map_nil, List.length_append,
    List.length_cons, List.length_nil, List.length_map] at hw
  obtain ⟨⟨h1, h2⟩, ⟨⟨h3, h4⟩, h5⟩, h6⟩ := hw
  refine ⟨h1, h2, ?_, ?_, ?_, ?_⟩
  · simpa using h3 0 (by simp)
  · simpa [Nat.add_assoc] using h4
  · have := h5 0 (by simp)
    simp only [List.getElem_cons_zero] at this
    rw [← this]; congr 1; omega
  · have e : p + 6 + ops.length = p + (0 + 1 + 1 + (0 + 1 + 1)) + (0 + 1 + ops.length + (0 + 1)) := by
      omega
    rw [e]; exact h6

theorem valAt (h : RecIn t p v a ops dops) : t.valAt p = .ok v :=
  getRealAt_ok h.pos (by have := h.fit; omega) h.split.1

theorem adjAt (h : RecIn t p v a ops dops) : t.adjAt p = .ok a :=
  getRealAt_ok (by omega) (by have := h.fit; omega) h.split.2.1

theorem rdNop (h : RecIn t p v a ops dops) : t.rdN (p + 4) = .ok ops.length :=
  rdN_ok (by omega) (by have := h.fit; omega) h.split.2.2.1 (by have := h.fit; have := h.szle; omega)

theorem nOperand (h : RecIn t p v a ops dops) : t.nOperand p = .ok ops.length := h.rdNop

theorem rdOps (h : RecIn t p v a ops dops) : t.rdSec (p + 5) ops.length = .ok ops :=
  rdSec_ok ops (by omega) (by have := h.fit; omega) h.split.2.2.2.1 h.small

theorem operandIndex (h : RecIn t p v a ops dops) : t.operandIndex p = .ok ops := by
  unfold Tape.operandIndex
  rw [h.rdNop]
  exact h.rdOps

theorem dataOperand (h : RecIn t p v a ops dops) : t.dataOperand p = .ok dops := by
  unfold Tape.dataOperand
  rw [h.rdNop]
  show (t.rdN (p + 5 + ops.length) >>= _) = _
  rw [rdN_ok (by omega) (by have := h.fit; omega) h.split.2.2.2.2.1
    (by have := h.fit; have := h.szle; omega)]
  show t.getRealArrayAt (p + minRecSize + ops.length) dops.length = _
  exact getRealArrayAt_ok dops (by simp [minRecSize]; omega) (by have := h.fit; simp [minRecSize]; omega)
    h.split.2.2.2.2.2

theorem nDataOperand (h : RecIn t p v a ops dops) : t.nDataOperand p = .ok dops.length := by
  unfold Tape.nDataOperand
  rw [h.rdNop]
  exact rdN_ok (by omega) (by have := h.fit; omega) h.split.2.2.2.2.1
    (by have := h.fit; have := h.szle; omega)

theorem operandVal (h : RecIn t p v a ops dops) {f : Nat → R} (hf : ∀ o ∈ ops, t.valAt o = .ok (f o)) :
    t.operandVal p = .ok (ops.map f) := by
  unfold Tape.operandVal
  rw [h.rdNop]
  show (t.rdSec (p + 5) ops.length >>= fun op => op.mapM t.valAt) = _
  rw [h.rdOps]
  exact mapM_except_ok ops hf

theorem operandAdj (h : RecIn t p v a ops dops) {f : Nat → R} (hf : ∀ o ∈ ops, t.adjAt o = .ok (f o)) :
    t.operandAdj p = .ok (ops.map f) := by
  unfold Tape.operandAdj
  rw [h.rdNop]
  show (t.rdSec (p + 5) ops.length >>= fun op => op.mapM t.adjAt) = _
  rw [h.rdOps]
  exact mapM_except_ok ops hf

end RecIn

/-- overwriting the adjoint words of a record -/
theorem recWords_setAdj {mem : Nat → W} {p : Nat} {v a a' : R} {ops : List Nat} {dops : List R}
    (h : HasWords mem p (recWords v a ops dops)) :
    HasWords (overlay mem (p + 2) [Rep.lo a', Rep.hi a']) p (recWords v a' ops dops) := by
  unfold recWords at *
  have e : ∀ a : R, ([Rep.lo v, Rep.hi v, Rep.lo a, Rep.hi a] : List W) =
    [Rep.lo v, Rep.hi v] ++ [Rep.lo a, Rep.hi a] := fun _ => rfl
  rw [e, List.append_assoc, HasWords.append, HasWords.append] at *
  obtain ⟨h1, _, h3⟩ := h
  refine ⟨h1.overlay_of_disjoint (by simp), HasWords.overlay_self, h3.overlay_of_disjoint (by simp)⟩

/-- overwriting the value words of a record -/
theorem recWords_setVal {mem : Nat → W} {p : Nat} {v v' a : R} {ops : List Nat} {dops : List R}
    (h : HasWords mem p (recWords v a ops dops)) :
    HasWords (overlay mem p [Rep.lo v', Rep.hi v']) p (recWords v' a ops dops) := by
  unfold recWords at *
  have e : ∀ v : R, ([Rep.lo v, Rep.hi v, Rep.lo a, Rep.hi a] : List W) =
    [Rep.lo v, Rep.hi v] ++ [Rep.lo a, Rep.hi a] := fun _ => rfl
  rw [e, List.append_assoc, HasWords.append, HasWords.append] at *
  obtain ⟨_, h2, h3⟩ := h
  refine ⟨HasWords.overlay_self, h2.overlay_of_disjoint (by simp), h3.overlay_of_disjoint (by simp)⟩

end Tape

/-- two records of a well-formed graph are the same or do not overlap -/
theorem Graph.WF.disj {g : Graph R} {h : Nat} (wf : g.WF h) {a b : Node R} (ha : a ∈ g.nodes)
    (hb : b ∈ g.nodes) : a = b ∨ a.pos + a.len ≤ b.pos ∨ b.pos + b.len ≤ a.pos := by
  have hp : g.nodes.Pairwise fun a b => a.pos + a.len ≤ b.pos ∨ b.pos + b.len ≤ a.pos :=
    wf.sorted.imp fun h => Or.inl h
  by_cases hab : a = b
  · exact Or.inl hab
  · have : Std.Symm fun a b : Node R => a.pos + a.len ≤ b.pos ∨ b.pos + b.len ≤ a.pos :=
      ⟨fun _ _ h => h.symm⟩
    exact Or.inr (hp.forall ha hb hab)

theorem Graph.WF.pos_inj {g : Graph R} {h : Nat} (wf : g.WF h) {a b : Node R} (ha : a ∈ g.nodes)
    (hb : b ∈ g.nodes) (hp : a.pos = b.pos) : a = b := by
  rcases wf.disj ha hb with h | h | h
  · exact h
  · simp only [Node.len] at h; omega
  · simp only [Node.len] at h; omega

/-- function update -/
def upd (f : Nat → R) (p : Nat) (x : R) : Nat → R := fun k => if k = p then x else f k

@[simp] theorem upd_self (f : Nat → R) (p : Nat) (x : R) : upd f p x p = x := by simp [upd]
theorem upd_ne (f : Nat → R) {p q : Nat} (x : R) (h : q ≠ p) : upd f p x q = f q := by simp [upd, h]

namespace Inv
variable [LawfulRep W R] {s : St W} {g : Graph R} {val adj : Nat → R}

theorem recIn (h : Inv s g val adj) {nd : Node R} (hn : nd ∈ g.nodes) :
    Tape.RecIn s.tape nd.pos (val nd.pos) (adj nd.pos) nd.ops nd.dops := by
  have hb := h.wf.below nd hn
  have := h.ok.head_le
  simp only [Node.len] at hb
  exact ⟨hb.1, by omega, h.ok.size_le, h.wf.opsSmall nd hn, h.recs nd hn⟩

/-- a change of the words that keeps all records (with new values) and blocks -/
theorem withMem (h : Inv s g val adj) {m : Nat → W} {val' adj' : Nat → R}
    (hz : ∀ i, i = 0 ∨ s.tape.head ≤ i → m i = s.tape.mem i)
    (hr : ∀ nd ∈ g.nodes,
      HasWords m nd.pos (Tape.recWords (val' nd.pos) (adj' nd.pos) nd.ops nd.dops))
    (hb : ∀ b ∈ g.blocks, HasWords m b.loc b.words) : Inv (s.withMem m) g val' adj' := by
  refine ⟨⟨h.ok.head_pos, h.ok.head_le, h.ok.size_le, ?_, h.ok.form⟩, h.wf, h.vhead, h.vcap, h.vmax, h.vform, h.vdef, h.tab,
    hr, hb⟩
  intro i hi
  exact (hz i hi).trans (h.ok.zero i hi)

theorem words_len (b : Block R) : (b.words : List W).length = b.len := by
  cases b with
  | vb => simp [Block.words, Block.len]; omega
  | db => simp [Block.words, Block.len, Tape.realWords_length]; omega

/-- storing an adjoint -/
theorem setAdj (h : Inv s g val adj) {nd : Node R} (hn : nd ∈ g.nodes) (d : R) :
    ∃ m, s.tape.setAdjAt nd.pos d = .ok { s.tape with mem := m } ∧
      Inv (s.withMem m) g val (upd adj nd.pos d) := by
  have hin := h.recIn hn
  have hb := h.wf.below nd hn
  have hl := h.ok.head_le
  simp only [Node.len] at hb
  refine ⟨overlay s.tape.mem (nd.pos + 2) [Rep.lo d, Rep.hi d], ?_, ?_⟩
  · exact Tape.wrSec_ok _ s.tape (nd.pos + 2) (by omega) (by simp; omega)
  · refine h.withMem ?_ ?_ ?_
    · intro i hi
      rcases hi with hi | hi
      · exact overlay_lt (by omega)
      · exact overlay_ge (by simp; omega)
    · intro nd' hn'
      rcases h.wf.disj hn hn' with e | e | e
      · subst e
        rw [upd_self]
        exact Tape.recWords_setAdj (h.recs nd hn)
      · simp only [Node.len] at e
        rw [upd_ne _ _ (by omega)]
        exact (h.recs nd' hn').overlay_of_disjoint (Or.inr (by simp; omega))
      · simp only [Node.len] at e
        rw [upd_ne _ _ (by omega)]
        refine (h.recs nd' hn').overlay_of_disjoint (Or.inl ?_)
        rw [Tape.recWords_length]; omega
    · intro b hb'
      refine (h.blks b hb').overlay_of_disjoint ?_
      rw [words_len]
      have := h.wf.bdisj b hb' nd hn
      simp only [Node.len] at this
      simp
      omega

/-- storing a value -/
theorem setVal (h : Inv s g val adj) {nd : Node R} (hn : nd ∈ g.nodes) (d : R) :
    ∃ m, s.tape.setValAt nd.pos d = .ok { s.tape with mem := m } ∧
      Inv (s.withMem m) g (upd val nd.pos d) adj := by
  have hin := h.recIn hn
  have hb := h.wf.below nd hn
  have hl := h.ok.head_le
  simp only [Node.len] at hb
  refine ⟨overlay s.tape.mem nd.pos [Rep.lo d, Rep.hi d], ?_, ?_⟩
  · exact Tape.wrSec_ok _ s.tape nd.pos (by omega) (by simp; omega)
  · refine h.withMem ?_ ?_ ?_
    · intro i hi
      rcases hi with hi | hi
      · exact overlay_lt (by omega)
      · exact overlay_ge (by simp; omega)
    · intro nd' hn'
      rcases h.wf.disj hn hn' with e | e | e
      · subst e
        rw [upd_self]
        exact Tape.recWords_setVal (h.recs nd hn)
      · simp only [Node.len] at e
        rw [upd_ne _ _ (by omega)]
        exact (h.recs nd' hn').overlay_of_disjoint (Or.inr (by simp; omega))
      · simp only [Node.len] at e
        rw [upd_ne _ _ (by omega)]
        refine (h.recs nd' hn').overlay_of_disjoint (Or.inl ?_)
        rw [Tape.recWords_length]; omega
    · intro b hb'
      refine (h.blks b hb').overlay_of_disjoint ?_
      rw [words_len]
      have := h.wf.bdisj b hb' nd hn
      simp only [Node.len] at this
      simp
      omega

theorem getVari (h : Inv s g val adj) {k : Nat} {nd : Node R} (hk : g.nodes[k]? = some nd) :
    Fz.getVari (k + 1) s = .ok (⟨nd.pos, nd.chain⟩, s) := by
  have hlt : k < g.nodes.length := (List.getElem?_eq_some_iff.mp hk).1
  have := h.vhead
  have := h.vcap
  unfold Fz.getVari
  rw [if_pos (by omega), h.tab k nd hk]

end Inv
end Fz
