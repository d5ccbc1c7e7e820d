import Verif.Proof.Entries
import Verif.Props.Storage

/-!
# C55: everything written to the storage is read back as written

First for a tape by itself and every sequence of the procedures that write to it (`Spec/Cells.lean`: a tape is a list
of items), then for the records that a history of calls leaves: number and list of operands, number and list of data,
values and adjoints of the operands, and for an entry of a matrix product its row, its column and the two matrices.
-/

set_option linter.unusedSectionVars false

namespace Props
open Fz Spec

section generic
variable {W R : Type} [Arith R] [Rep W R] [LawfulRep W R]
variable {h : List (Call R)} {c : Client W}

/-- **C55** (a tape by itself): every sequence of pushes and stores that fits completes; the pushes return the places
of the items, one after the other; the head is after the last item; and every item is read by every reading procedure
as the sequence has left it, wherever it lies and however often the storage was enlarged. -/
theorem C55_tape {os : List (TapeOp R)} {cs : List (Cell R)} (hd : doAll os [] = some cs)
    (room : start cs cs.length ≤ tapeLimit) :
    ∃ ids t, runAll os (([], Tape.init) : Tapes W) = .ok (ids, t) ∧ ids = (List.range cs.length).map (start cs) ∧
      t.head = start cs cs.length ∧ ∀ (k : Nat) (c : Cell R), cs[k]? = some c → c.ReadAt t (start cs k) := by
  obtain ⟨⟨ids, t⟩, e, hh⟩ := (holds_init (W := W)).runAll hd (by rw [start_eq, List.take_length] at room; exact room)
  exact ⟨ids, t, e, hh.ids, by rw [start_eq, List.take_length]; exact hh.head, fun k c hk => hh.readAt hk⟩

theorem _root_.Fz.Tape.RecIn.operandValOf {t : Tape W} {p : Nat} {v a : R} {α : Type} {us : List α} {f : α → Nat}
    {dop : List R} (hr : Tape.RecIn t p v a (us.map f) dop) {x : α → R} (hx : ∀ u ∈ us, t.valAt (f u) = .ok (x u)) :
    t.operandVal p = .ok (us.map x) := by
  unfold Tape.operandVal
  rw [hr.rdNop]
  show (t.rdSec (p + 5) _ >>= fun op => op.mapM t.valAt) = _
  rw [hr.rdOps]
  show (us.map f).mapM t.valAt = _
  rw [List.mapM_map]
  exact mapM_except_ok us hx

theorem _root_.Fz.Tape.RecIn.operandAdjOf {t : Tape W} {p : Nat} {v a : R} {α : Type} {us : List α} {f : α → Nat}
    {dop : List R} (hr : Tape.RecIn t p v a (us.map f) dop) {x : α → R} (hx : ∀ u ∈ us, t.adjAt (f u) = .ok (x u)) :
    t.operandAdj p = .ok (us.map x) := by
  unfold Tape.operandAdj
  rw [hr.rdNop]
  show (t.rdSec (p + 5) _ >>= fun op => op.mapM t.adjAt) = _
  rw [hr.rdOps]
  show (us.map f).mapM t.adjAt = _
  rw [List.mapM_map]
  exact mapM_except_ok us hx

/-- **C55** (a tape by itself): when the operands of a record are places of records, its operand values and operand
adjoints are the values and adjoints that those records have in the end. -/
theorem C55_operands {os : List (TapeOp R)} {cs : List (Cell R)} (hd : doAll os [] = some cs)
    (room : start cs cs.length ≤ tapeLimit) {k : Nat} {v a : R} {js : List Nat} {dop : List R}
    (hk : cs[k]? = some (.record v a (js.map (start cs)) dop)) {x y : Nat → R}
    (hj : ∀ j ∈ js, ∃ op d, cs[j]? = some (.record (x j) (y j) op d)) :
    ∃ ids t, runAll os (([], Tape.init) : Tapes W) = .ok (ids, t) ∧ t.operandVal (start cs k) = .ok (js.map x) ∧
      t.operandAdj (start cs k) = .ok (js.map y) := by
  obtain ⟨⟨ids, t⟩, e, hh⟩ := (holds_init (W := W)).runAll hd (by rw [start_eq, List.take_length] at room; exact room)
  have hr := hh.recIn hk
  have hv : ∀ j ∈ js, t.valAt (start cs j) = .ok (x j) := fun j hm => by
    obtain ⟨op, d, hx⟩ := hj j hm
    exact (hh.recIn hx).valAt
  have ha : ∀ j ∈ js, t.adjAt (start cs j) = .ok (y j) := fun j hm => by
    obtain ⟨op, d, hx⟩ := hj j hm
    exact (hh.recIn hx).adjAt
  exact ⟨ids, t, e, hr.operandValOf hv, hr.operandAdjOf ha⟩

/-- **C55** (records): what the procedures of `vari.F90` and `tape.F90` read about a variable agrees with each other,
in every reachable state: numbers and lists of operands and of data, and the section `operand_info` of the record that
holds them. -/
theorem C55_record (hr : Reach h c) {v : Var} (hv : v ∈ existing c.st) :
    ∃ (w : View R) (r : Vari), seen c.st v = .ok w ∧ (variAt v.vi : M W Vari) c.st = .ok (r, c.st) ∧
      (r.val : M W R) c.st = .ok (w.val, c.st) ∧ (r.adj : M W R) c.st = .ok (w.adj, c.st) ∧
      (r.operandIndex : M W (List Nat)) c.st = .ok (w.ops, c.st) ∧
      (r.dataOperand : M W (List R)) c.st = .ok (w.data, c.st) ∧
      c.st.tape.nOperand r.i = .ok w.ops.length ∧ c.st.tape.nDataOperand r.i = .ok w.data.length ∧
      c.st.tape.operandInfo r.i (w.ops.length + 2) = .ok (w.ops.length :: w.ops ++ [w.data.length]) := by
  obtain ⟨g, val, adj, G⟩ := hr.good
  obtain ⟨nd, h1, h2⟩ := ((mem_existing G.inv).mp hv).at
  have hi := G.inv.recIn h1.mem
  refine ⟨_, ⟨nd.pos, nd.chain⟩, G.inv.seen h1, G.inv.getV h1, ?_, ?_, ?_, ?_, hi.nOperand, hi.nDataOperand, hi.operandInfo⟩
  · exact readTape_ok (f := fun t => t.valAt nd.pos) hi.valAt
  · exact readTape_ok (f := fun t => t.adjAt nd.pos) hi.adjAt
  · exact readTape_ok (f := fun t => t.operandIndex nd.pos) hi.operandIndex
  · exact readTape_ok (f := fun t => t.dataOperand nd.pos) hi.dataOperand

/-- **C55** (records): when the operands of a variable are the records of the variables `us`, its operand values and
operand adjoints are the values and the adjoints of `us`. -/
theorem C55_operand_values (hr : Reach h c) {v : Var} (hv : v ∈ existing c.st) {w : View R} (hw : seen c.st v = .ok w)
    {us : List Var} (hu : ∀ u ∈ us, u ∈ existing c.st) (ho : w.ops = us.map (place c.st)) :
    ∃ (r : Vari) (ws : List (View R)), (variAt v.vi : M W Vari) c.st = .ok (r, c.st) ∧ us.mapM (seen c.st) = .ok ws ∧
      (r.operandVal : M W (List R)) c.st = .ok (ws.map View.val, c.st) ∧
      c.st.tape.operandAdj r.i = .ok (ws.map View.adj) := by
  obtain ⟨g, val, adj, G⟩ := hr.good
  obtain ⟨nd, h1, h2⟩ := ((mem_existing G.inv).mp hv).at
  have hi := G.inv.recIn h1.mem
  rw [G.inv.seen h1] at hw
  cases hw
  have hp : ∀ u ∈ us, ∃ nd, g.At u nd ∧ place c.st u = nd.pos := fun u hm => by
    have hh := (mem_existing G.inv).mp (hu u hm)
    obtain ⟨x, q1, q2⟩ := hh.at
    exact ⟨x, q1, by rw [q2]; exact seen_pos G.inv hh⟩
  obtain ⟨ws, hws⟩ : ∃ f : Var → View R, ∀ u ∈ us, seen c.st u = .ok (f u) ∧ c.st.tape.valAt (place c.st u) = .ok (f u).val ∧
      c.st.tape.adjAt (place c.st u) = .ok (f u).adj := by
    refine ⟨fun u => match seen c.st u with | .ok w => w | .error _ => ⟨Arith.zero, Arith.zero, [], []⟩, fun u hm => ?_⟩
    obtain ⟨x, q1, q2⟩ := hp u hm
    have hx := G.inv.recIn q1.mem
    simp only [G.inv.seen q1, q2]
    exact ⟨trivial, hx.valAt, hx.adjAt⟩
  have ho' : nd.ops = us.map (place c.st) := ho
  rw [ho'] at hi
  refine ⟨⟨nd.pos, nd.chain⟩, us.map ws, G.inv.getV h1, mapM_except_ok us fun u hm => (hws u hm).1, ?_, ?_⟩
  · refine readTape_ok (f := fun t => t.operandVal nd.pos) ?_
    rw [List.map_map]
    exact hi.operandValOf fun u hm => (hws u hm).2.1
  · rw [List.map_map]
    exact hi.operandAdjOf fun u hm => (hws u hm).2.2

theorem place_flat {s : St W} {g : Graph R} {val adj : Nat → R} (hi : Inv s g val adj) {a : Mat Var} (ha : Inv.MatHas g a) :
    (⟨a.nrow, a.ncol, fun i j => place s (a.get i j)⟩ : Mat Nat).flat = a.flat.map g.pos := by
  rw [mat_map_flat a (place s)]
  exact List.map_congr_left fun u hu => seen_pos hi (ha.flat u hu)

/-- the entries of a product, in the order in which `matmul` makes them (column by column): the operand list of entry
`(i, j)` is its row and its column, numbered from one, and the places of the two matrices -/
def Entries (s : St W) (la lb m n : Nat) (vs : List Var) : Prop :=
  vs.length = m * n ∧ ∀ i < m, ∀ j < n, ∃ v ∈ vs[j * m + i]?, ∃ r : Vari, (variAt v.vi : M W Vari) s = .ok (r, s) ∧
    (r.operandIndex : M W (List Nat)) s = .ok ([i + 1, j + 1, la, lb], s) ∧
    (r.matrixOperand1Index : M W Nat) s = .ok (la, s) ∧ (r.matrixOperand2Index : M W Nat) s = .ok (lb, s)

theorem matPairs_get {m n i j : Nat} (hi : i < m) (hj : j < n) : (matPairs m n)[j * m + i]? = some (i, j) := by
  unfold matPairs
  induction n with
  | zero => omega
  | succ n ih =>
    have hlen : ((List.range n).flatMap fun j => (List.range m).map fun i => (i, j)).length = m * n := matPairs_length m n
    rw [List.range_succ, List.flatMap_append]
    by_cases h : j < n
    · have := Nat.mul_le_mul_left m (show j + 1 ≤ n from h)
      rw [Nat.mul_add, Nat.mul_comm m j] at this
      rw [List.getElem?_append_left (by rw [hlen]; omega)]
      exact ih h
    · obtain rfl : j = n := by omega
      rw [List.getElem?_append_right (by rw [hlen, Nat.mul_comm]; omega), hlen, Nat.mul_comm m j, Nat.add_sub_cancel_left]
      simp [hi]

theorem entries_of {s : St W} {g : Graph R} {val adj : Nat → R} (hi : Inv s g val adj) {la lb m n : Nat} {vs : List Var}
    (he : EntriesAt la lb (matPairs m n) vs g) : Entries s la lb m n vs := by
  have hl := he.length_eq
  rw [matPairs_length] at hl
  refine ⟨hl, fun i h1 j h2 => ?_⟩
  have hlt : j * m + i < m * n := by
    have := Nat.mul_le_mul_left m (show j + 1 ≤ n from h2)
    rw [Nat.mul_add, Nat.mul_comm m j] at this
    omega
  have hp : (matPairs m n)[j * m + i]? = some (i, j) := matPairs_get h1 h2
  obtain ⟨hq, hp'⟩ := List.getElem?_eq_some_iff.mp hp
  obtain ⟨nd, q1, q2⟩ := (List.forall₂_iff_get.mp he).2 (j * m + i) (by omega) hq
  simp only [List.get_eq_getElem, hp'] at q1 q2
  refine ⟨_, List.getElem?_eq_some_iff.mpr ⟨by omega, rfl⟩, entry_read hi q1 q2⟩

/-- **C55** (matrix products): every entry of `matmul` of two matrices of variables holds its row and column and the
places of copies of both matrices; the copies are read back as the matrices were. -/
theorem C55_matmul (hr : Reach h c) {a b : Mat Var} (ha : ∀ i < a.nrow, ∀ j < a.ncol, a.get i j ∈ existing c.st)
    (hb : ∀ i < b.nrow, ∀ j < b.ncol, b.get i j ∈ existing c.st) (hn : a.ncol = b.nrow)
    (hm : a.nrow < 2 ^ 31 ∧ a.ncol < 2 ^ 31 ∧ b.nrow < 2 ^ 31 ∧ b.ncol < 2 ^ 31)
    (room : c.st.tape.head + ((2 + a.nrow * a.ncol) + (2 + b.nrow * b.ncol) + 10 * (a.nrow * b.ncol)) ≤ tapeLimit) :
    ∃ la lb vs s', (matmulVV (R := R) a b : M W (List Var)) c.st = .ok (vs, s') ∧ Entries s' la lb a.nrow b.ncol vs ∧
      VarsAt s'.tape la ⟨a.nrow, a.ncol, fun i j => place c.st (a.get i j)⟩ ∧
      VarsAt s'.tape lb ⟨b.nrow, b.ncol, fun i j => place c.st (b.get i j)⟩ := by
  obtain ⟨g, val, adj, G⟩ := hr.good
  have small : ∀ {n : Nat}, n < 2 ^ 31 → n ≤ int32Max := fun h => by simp only [int32Max]; omega
  have hha : Inv.MatHas g a := fun i hi j hj => (mem_existing G.inv).mp (ha i hi j hj)
  have hhb : Inv.MatHas g b := fun i hi j hj => (mem_existing G.inv).mp (hb i hi j hj)
  obtain ⟨la, lb, vs, s', g', val', adj', e, ev, he, b1, b2⟩ := entries_VV G.inv hha hhb (small hm.1) (small hm.2.1)
    (small hm.2.2.1) (small hm.2.2.2) hn room
  refine ⟨la, lb, vs, s', e, entries_of ev.inv he, vblk_varsAt ?_, vblk_varsAt ?_⟩
  · rw [place_flat G.inv hha]
    exact ev.inv.vblk b1
  · rw [place_flat G.inv hhb]
    exact ev.inv.vblk b2

/-- **C55** (matrix products): the same with reals on the right -/
theorem C55_matmul_real_right (hr : Reach h c) {a : Mat Var} {b : Mat R}
    (ha : ∀ i < a.nrow, ∀ j < a.ncol, a.get i j ∈ existing c.st) (hn : a.ncol = b.nrow)
    (hm : a.nrow < 2 ^ 31 ∧ a.ncol < 2 ^ 31 ∧ b.nrow < 2 ^ 31 ∧ b.ncol < 2 ^ 31)
    (room : c.st.tape.head + ((2 + a.nrow * a.ncol) + (2 + 2 * (b.nrow * b.ncol)) + 10 * (a.nrow * b.ncol)) ≤ tapeLimit) :
    ∃ la lb vs s', (matmulVD (R := R) a b : M W (List Var)) c.st = .ok (vs, s') ∧ Entries s' la lb a.nrow b.ncol vs ∧
      VarsAt s'.tape la ⟨a.nrow, a.ncol, fun i j => place c.st (a.get i j)⟩ ∧ DataAt s'.tape lb b := by
  obtain ⟨g, val, adj, G⟩ := hr.good
  have small : ∀ {n : Nat}, n < 2 ^ 31 → n ≤ int32Max := fun h => by simp only [int32Max]; omega
  have hha : Inv.MatHas g a := fun i hi j hj => (mem_existing G.inv).mp (ha i hi j hj)
  obtain ⟨la, lb, vs, s', g', val', adj', e, ev, he, b1, b2⟩ := entries_VD G.inv hha (small hm.1) (small hm.2.1)
    (small hm.2.2.1) (small hm.2.2.2) hn room
  refine ⟨la, lb, vs, s', e, entries_of ev.inv he, vblk_varsAt ?_, dblk_dataAt (ev.inv.dblk b2)⟩
  rw [place_flat G.inv hha]
  exact ev.inv.vblk b1

/-- **C55** (matrix products): the same with reals on the left -/
theorem C55_matmul_real_left (hr : Reach h c) {a : Mat R} {b : Mat Var}
    (hb : ∀ i < b.nrow, ∀ j < b.ncol, b.get i j ∈ existing c.st) (hn : a.ncol = b.nrow)
    (hm : a.nrow < 2 ^ 31 ∧ a.ncol < 2 ^ 31 ∧ b.nrow < 2 ^ 31 ∧ b.ncol < 2 ^ 31)
    (room : c.st.tape.head + ((2 + 2 * (a.nrow * a.ncol)) + (2 + b.nrow * b.ncol) + 10 * (a.nrow * b.ncol)) ≤ tapeLimit) :
    ∃ la lb vs s', (matmulDV (R := R) a b : M W (List Var)) c.st = .ok (vs, s') ∧ Entries s' la lb a.nrow b.ncol vs ∧
      DataAt s'.tape la a ∧ VarsAt s'.tape lb ⟨b.nrow, b.ncol, fun i j => place c.st (b.get i j)⟩ := by
  obtain ⟨g, val, adj, G⟩ := hr.good
  have small : ∀ {n : Nat}, n < 2 ^ 31 → n ≤ int32Max := fun h => by simp only [int32Max]; omega
  have hhb : Inv.MatHas g b := fun i hi j hj => (mem_existing G.inv).mp (hb i hi j hj)
  obtain ⟨la, lb, vs, s', g', val', adj', e, ev, he, b1, b2⟩ := entries_DV G.inv hhb (small hm.1) (small hm.2.1)
    (small hm.2.2.1) (small hm.2.2.2) hn room
  refine ⟨la, lb, vs, s', e, entries_of ev.inv he, dblk_dataAt (ev.inv.dblk b1), vblk_varsAt ?_⟩
  rw [place_flat G.inv hhb]
  exact ev.inv.vblk b2

/-! ## arrays of rank two, and single entries of the table -/

theorem newVar1d_add (a b : Nat) : (newVar1d (R := R) (a + b) : M W (List Var)) =
    (newVar1d (R := R) a >>= fun x => newVar1d (R := R) b >>= fun y => pure (x ++ y)) := by
  induction a with
  | zero => simp [newVar1d]
  | succ a ih =>
    rw [show a + 1 + b = (a + b) + 1 by omega]
    simp only [newVar1d, ih, bind_assoc, pure_bind, List.cons_append]

theorem newVar1d_length (n : Nat) {s s' : St W} {vs : List Var} (e : (newVar1d (R := R) n : M W (List Var)) s = .ok (vs, s')) :
    vs.length = n := by
  induction n generalizing s s' vs with
  | zero => cases e; rfl
  | succ n ih =>
    obtain ⟨x, s1, e1, e⟩ := Fz.bind_inv e
    obtain ⟨y, s2, e2, e⟩ := Fz.bind_inv e
    cases e
    simp [ih e2]

/-- **C04**: `var(m, n)` completes and returns `n` columns of `m` variables, all different, new and zero -/
theorem C04_matrix (hr : Reach h c) (m n : Nat) (room : c.st.tape.head + 6 * (m * n) ≤ tapeLimit) :
    ∃ vs s', (newVar2d (R := R) m n : M W (List (List Var))) c.st = .ok (vs, s') ∧ vs.length = n ∧
      (∀ v ∈ vs, v.length = m) ∧ vs.flatten.Nodup ∧ (∀ v ∈ vs.flatten, v ∉ existing c.st) ∧
      ∀ v ∈ vs.flatten, seen s' v = .ok (⟨Arith.zero, Arith.zero, [], []⟩ : View R) := by
  have key : ∀ (n : Nat) {s s' : St W} {us : List Var}, (newVar1d (R := R) (m * n) : M W (List Var)) s = .ok (us, s') →
      ∃ vs, (newVar2d (R := R) m n : M W (List (List Var))) s = .ok (vs, s') ∧ vs.length = n ∧ (∀ v ∈ vs, v.length = m) ∧
        vs.flatten = us := by
    intro n
    induction n with
    | zero => intro s s' us e; cases e; exact ⟨[], rfl, rfl, by simp, rfl⟩
    | succ n ih =>
      intro s s' us e
      rw [Nat.mul_succ, Nat.add_comm, newVar1d_add] at e
      obtain ⟨x, s1, e1, e⟩ := Fz.bind_inv e
      obtain ⟨y, s2, e2, e⟩ := Fz.bind_inv e
      cases e
      obtain ⟨vs, e3, h1, h2, h3⟩ := ih e2
      refine ⟨x :: vs, ?_, by simp [h1], ?_, by simp [h3]⟩
      · show (newVar1d (R := R) m >>= _) s = _
        rw [bind_ok e1, bind_ok e3]
        rfl
      · intro v hv
        rcases List.mem_cons.mp hv with rfl | hv
        · exact newVar1d_length m e1
        · exact h2 v hv
  obtain ⟨us, s', e, h1, h2, h3, h4⟩ := C04_array_default hr (m * n) room
  obtain ⟨vs, e', h5, h6, rfl⟩ := key n e
  exact ⟨vs, s', e', h5, h6, h2, h3, h4⟩

theorem assign1d_append (v1 : List Var) : ∀ (d1 : List R) (v2 : List Var) (d2 : List R), v1.length = d1.length →
    (Var.assign1d (v1 ++ v2) (d1 ++ d2) : M W Unit) = (Var.assign1d v1 d1 >>= fun _ => Var.assign1d v2 d2) := by
  induction v1 with
  | nil => intro d1 v2 d2 hl; obtain rfl : d1 = [] := List.length_eq_zero_iff.mp hl.symm; simp [Var.assign1d]
  | cons v v1 ih =>
    intro d1 v2 d2 hl
    cases d1 with
    | nil => simp at hl
    | cons d d1 =>
      simp only [List.cons_append, Var.assign1d, bind_assoc]
      rw [ih d1 v2 d2 (by simpa using hl)]

/-- **C13**: the assignment of a matrix of reals to a matrix of variables of the same shape gives every variable its
element (`assignedTo` names it, also when a variable occurs twice) and changes nothing else. -/
theorem C13_assign_matrix (hr : Reach h c) {vs : List (List Var)} (hv : ∀ v ∈ vs.flatten, v ∈ existing c.st)
    {ds : List (List R)} (hs : List.Forall₂ (fun v d => v.length = d.length) vs ds) :
    ∃ s', (Var.assign2d vs ds : M W Unit) c.st = .ok ((), s') ∧ existing s' = existing c.st ∧
      (∃ mem, s' = c.st.withMem mem) ∧
      ∀ u ∈ existing c.st, ∃ w : View R, seen c.st u = .ok w ∧
        seen s' u = .ok { w with val := (assignedTo vs.flatten ds.flatten u).getD w.val } := by
  have key : (Var.assign2d vs ds : M W Unit) = Var.assign1d vs.flatten ds.flatten := by
    clear hv
    induction hs with
    | nil => rfl
    | cons hl _ ih =>
      rw [List.flatten_cons, List.flatten_cons, assign1d_append _ _ _ _ hl, ← ih]
      rfl
  have hl : vs.flatten.length = ds.flatten.length := by
    clear hv key
    induction hs with
    | nil => rfl
    | cons hl _ ih => simp only [List.flatten_cons, List.length_append, hl, ih]
  rw [key]
  exact C13_assign_array hr hv _ (le_of_eq hl)

/-- **C13**: the assignment of one real to a matrix of variables gives it to every variable of the matrix -/
theorem C13_assign_matrix_all (hr : Reach h c) {vs : List (List Var)} (hv : ∀ v ∈ vs.flatten, v ∈ existing c.st) (d : R) :
    ∃ s', (Var.assign2dFrom0d vs d : M W Unit) c.st = .ok ((), s') ∧ existing s' = existing c.st ∧
      (∃ mem, s' = c.st.withMem mem) ∧
      ∀ u ∈ existing c.st, ∃ w : View R, seen c.st u = .ok w ∧
        seen s' u = .ok { w with val := if u ∈ vs.flatten then d else w.val } := by
  have key : ∀ vs : List (List Var), (Var.assign2dFrom0d vs d : M W Unit) = Var.assign1dFrom0d vs.flatten d := by
    intro vs
    induction vs with
    | nil => rfl
    | cons v vs ih =>
      show (Var.assign1dFrom0d v d >>= fun _ => Var.assign2dFrom0d vs d : M W Unit) = _
      rw [ih, List.flatten_cons]
      unfold Var.assign1dFrom0d
      exact (List.forM_append (l₁ := v) (l₂ := vs.flatten)).symm
  rw [key]
  exact C13_assign_all hr hv d

/-- **C07**: storing through an entry of the table (`entry = d`, `set_val`) is storing through the variable -/
theorem C07_entry_value (hr : Reach h c) {v : Var} (hv : v ∈ existing c.st) (d : R) :
    ∃ r s', (variAt v.vi : M W Vari) c.st = .ok (r, c.st) ∧ (r.assign d : M W Unit) c.st = .ok ((), s') ∧
      (∃ w : View R, seen c.st v = .ok w ∧ seen s' v = .ok { w with val := d }) ∧
      ∀ u ∈ existing c.st, u ≠ v → seen (R := R) s' u = seen c.st u := by
  obtain ⟨s', e, h1, h2, -⟩ := C07_set_value hr hv d
  obtain ⟨w, r, -, e1, -⟩ := C55_record hr hv
  refine ⟨r, s', e1, ?_, h1, h2⟩
  have : (variAt v.vi >>= fun r => r.setVal d : M W Unit) c.st = .ok ((), s') := e
  rw [bind_ok e1] at this
  exact this

/-- **C07**: `set_zero_adj` makes the adjoint zero and changes nothing else -/
theorem C07_entry_zero (hr : Reach h c) {v : Var} (hv : v ∈ existing c.st) :
    ∃ r s', (variAt v.vi : M W Vari) c.st = .ok (r, c.st) ∧ (r.setZeroAdj (R := R) : M W Unit) c.st = .ok ((), s') ∧
      (∃ w : View R, seen c.st v = .ok w ∧ seen s' v = .ok { w with adj := Arith.zero }) ∧
      ∀ u ∈ existing c.st, u ≠ v → seen (R := R) s' u = seen c.st u := by
  obtain ⟨s', e, h1, h2, -⟩ := C07_set_adjoint hr hv (Arith.zero : R)
  obtain ⟨w, r, -, e1, -⟩ := C55_record hr hv
  refine ⟨r, s', e1, ?_, h1, h2⟩
  have : (variAt v.vi >>= fun r => r.setAdj (Arith.zero : R) : M W Unit) c.st = .ok ((), s') := e
  rw [bind_ok e1] at this
  exact this

end generic

/-! ## non-vacuity -/

/-- records, arrays and stores of all kinds -/
def tapeDemo : List (TapeOp ℝ) :=
  [.pushVal 2, .pushVal 3, .pushInts [7, 8], .pushValOp 6 [1, 7], .pushReals [1, 2, 3], .pushValOpDop 5 [7, 1, 7] [4],
    .pushN 2, .push1, .pushMatrix ⟨2, 2, fun i j => i + 2 * j⟩, .pushValDop 1 [8, 9], .setVal 1 10, .setAdj 0 11,
    .setReal 4 1 12, .setReals 4 1 [13, 14], .setReals 9 2 [15]]

example : ∃ cs : List (Cell ℝ), doAll tapeDemo [] = some cs ∧ cs.length = 11 ∧ start cs cs.length ≤ tapeLimit ∧
    cs[3]? = some (.record 6 0 ([0, 1].map (start cs)) []) ∧ cs[0]? = some (.record 2 11 [] []) ∧
    cs[1]? = some (.record 10 0 [] []) ∧ cs[4]? = some (.reals [1, 13, 14]) ∧
    cs[5]? = some (.record 5 0 ([1, 0, 1].map (start cs)) [4]) ∧ cs[9]? = some (.reals [0, 1, 15, 3]) := by
  refine ⟨[.record 2 11 [] [], .record 10 0 [] [], .ints [7, 8], .record 6 0 [1, 7] [], .reals [1, 13, 14],
    .record 5 0 [7, 1, 7] [4], .record 0 0 [] [], .record 0 0 [] [], .record 0 0 [] [], .reals [0, 1, 15, 3],
    .record 1 0 [] [8, 9]], ?_, rfl, ?_, ?_, ?_, ?_, ?_, ?_, ?_⟩
  · simp [tapeDemo, doAll, TapeOp.does, Spec.Small, Cell.blank, splice, Mat.flat, List.range_succ, Arith.zero]
    norm_num
  all_goals simp [start, Cell.len, tapeLimit]

/-- in the state after `demo` the third variable has the records of the first two as operands, and all operations above
are possible -/
example : ∃ c : Client ℝ, Reach demo c ∧ (⟨3⟩ : Var) ∈ existing c.st ∧
    (∃ w : View ℝ, seen c.st ⟨3⟩ = .ok w ∧ w.ops = [(⟨1⟩ : Var), ⟨2⟩].map (place c.st)) ∧
    (∀ i < 2, ∀ j < 3, (⟨if i = j then 3 else 1 + i⟩ : Var) ∈ existing c.st) ∧
    c.st.tape.head + ((2 + 2 * 3) + (2 + 2 * (3 * 2)) + 10 * (2 * 2)) ≤ tapeLimit ∧
    c.st.tape.head + 6 * (2 * 3) ≤ tapeLimit ∧ (∀ v ∈ [[(⟨1⟩ : Var), ⟨2⟩], [⟨3⟩, ⟨1⟩]].flatten, v ∈ existing c.st) := by
  obtain ⟨c, hr, -, -, H⟩ := demo_here (W := ℝ)
  have hex : existing c.st = [⟨1⟩, ⟨2⟩, ⟨3⟩] := by simp [existing, H.inv.vhead, demoG, List.range_succ]
  have hh : ∀ k, k < 3 → demoG.Has ⟨k + 1⟩ := fun k hk => by simp [Graph.Has, demoG]; omega
  refine ⟨c, hr, by simp [hex], ?_, fun i hi j hj => ?_, by rw [H.head]; simp [tapeLimit],
    by rw [H.head]; simp [tapeLimit], by simp [hex]⟩
  · refine ⟨_, H.inv.seen (nd := ⟨13, [1, 7], [], .mulVV, .plain⟩) ⟨by simp, rfl⟩, ?_⟩
    simp only [Node.view, List.map_cons, List.map_nil]
    rw [show place c.st ⟨1⟩ = _ from seen_pos H.inv (hh 0 (by omega)),
      show place c.st ⟨2⟩ = _ from seen_pos H.inv (hh 1 (by omega))]
    simp [Graph.pos, demoG]
  · rw [hex]
    interval_cases i <;> interval_cases j <;> simp

end Props
