import Verif.Proof.Live
import Verif.Proof.Cells
import Verif.Props.TapeArrays

/-!
# The records of the entries of a matrix product
-/

set_option linter.unusedSectionVars false

namespace Fz
open Spec Arith Props

variable {W R : Type} [Arith R] [Rep W R] [LawfulRep W R]
variable {s s' : St W} {g : Graph R} {val adj : Nat → R}

/-- the results are records with the operands row, column and the places of the two matrices -/
def EntriesAt (la lb : Nat) (ps : List (Nat × Nat)) (vs : List Var) (g : Graph R) : Prop :=
  List.Forall₂ (fun v p => ∃ nd, g.At v nd ∧ nd.ops = [p.1 + 1, p.2 + 1, la, lb]) vs ps

theorem Evo.entry {φ : Nat → Prop} {g' : Graph R} {val' adj' : Nat → R} (ev : Evo φ s g val adj s' g' val' adj') {v : Var}
    {ops : List Nat} (h : ∃ nd, g.At v nd ∧ nd.ops = ops) : ∃ nd, g'.At v nd ∧ nd.ops = ops := by
  obtain ⟨nd, h1, h2⟩ := h
  obtain ⟨c, hc⟩ := ev.pre.atErase h1
  exact ⟨_, hc, h2⟩

theorem loop_entries (c : Chain) (la lb : Nat) (f : Nat → Nat → R) (P : Graph R → Prop)
    (kd : Nat → Nat → Kind R)
    (hP : ∀ {s : St W} {g : Graph R} {val adj : Nat → R} {s' : St W} {g' : Graph R} {val' adj' : Nat → R},
      Evo anyPos s g val adj s' g' val' adj' → P g → P g')
    (ps : List (Nat × Nat))
    (hnode : ∀ {s : St W} {g : Graph R} {val adj : Nat → R}, Inv s g val adj → P g → ∀ p ∈ ps,
      Inv.CanPush g s.tape.head ⟨s.tape.head, [p.1 + 1, p.2 + 1, la, lb], [], c, kd p.1 p.2⟩ ∧
      (⟨s.tape.head, [p.1 + 1, p.2 + 1, la, lb], [], c, kd p.1 p.2⟩ : Node R).ChainOK) :
    ∀ {s : St W} {g : Graph R} {val adj : Nat → R}, Inv s g val adj → P g → s.tape.head + 10 * ps.length ≤ cap →
    ∃ vs s' g' val' adj', (matmulLoop c la lb f ps : M W (List Var)) s = .ok (vs, s') ∧
      Evo anyPos s g val adj s' g' val' adj' ∧ EntriesAt la lb ps vs g' ∧ P g' := by
  induction ps with
  | nil => intro s g val adj h hp _; exact ⟨[], s, g, val, adj, rfl, Evo.refl h, .nil, hp⟩
  | cons p ps ih =>
    obtain ⟨i, j⟩ := p
    intro s g val adj h hp hcap
    simp only [List.length_cons] at hcap
    obtain ⟨c1, c2⟩ := hnode h hp (i, j) (by simp)
    have e : (matmulLoop c la lb f ((i, j) :: ps) : M W (List Var)) =
        ((do let w ← newVarOpId (f i j) [i + 1, j + 1, la, lb]; w.setChain c; pure w) >>= fun s => do
          let ss ← matmulLoop c la lb f ps
          pure (s :: ss)) := by
      simp only [matmulLoop, bind_assoc, pure_bind]
    rw [e]
    obtain ⟨s1, e1, gr⟩ := h.newOpId_ok (f i j) c1 rfl (by simp [Node.len]; omega)
    have ev := Evo.ofGrown (φ := anyPos) h gr c1.pos c2 (fun _ _ => trivial)
    have hh := gr.head
    simp only [Node.len, List.length_cons, List.length_nil] at hh
    obtain ⟨vs, s2, g2, val2, adj2, e2, ev2, he, hpe⟩ := @ih (fun {s g val adj} h hp q hq =>
      hnode h hp q (List.mem_cons_of_mem _ hq)) _ _ _ _ ev.inv (hP ev hp) (by omega)
    refine ⟨⟨s.vhead⟩ :: vs, s2, g2, val2, adj2, ?_, ev.trans ev2, .cons (ev2.entry ⟨⟨s.tape.head, [i + 1, j + 1, la, lb], [], c, kd i j⟩, ?_, rfl⟩) he,
      hpe⟩
    · rw [bind_ok e1, bind_ok e2]
      rfl
    · refine ⟨by show 1 ≤ s.vhead; rw [h.vhead]; omega, ?_⟩
      show (g.nodes ++ [_])[s.vhead - 1]? = _
      rw [h.vhead]
      simp

/-- the procedures reading the operand list of an entry -/
theorem entry_read (h : Inv s g val adj) {v : Var} {i j la lb : Nat} {nd : Node R} (hv : g.At v nd)
    (ho : nd.ops = [i, j, la, lb]) : ∃ r : Vari, (getVari v.vi : M W Vari) s = .ok (r, s) ∧
      (r.operandIndex : M W (List Nat)) s = .ok ([i, j, la, lb], s) ∧
      (r.matrixOperand1Index : M W Nat) s = .ok (la, s) ∧ (r.matrixOperand2Index : M W Nat) s = .ok (lb, s) := by
  have hr := h.recIn hv.mem
  rw [ho] at hr
  have hw := hr.split.2.2.2.1
  have hf := hr.fit
  have hl : ∀ k (hk : k < 4), s.tape.rdN (nd.pos + 5 + k) = .ok ([i, j, la, lb][k]) := by
    intro k hk
    refine Tape.rdN_ok (R := R) (by omega) (by simp at hf; omega) ?_ (hr.small _ (List.getElem_mem _))
    have := hw k (by simpa using hk)
    rw [List.getElem_map] at this
    exact this
  refine ⟨⟨nd.pos, nd.chain⟩, h.getV hv, ?_, ?_, ?_⟩
  · unfold Vari.operandIndex
    exact readTape_ok (f := fun t => t.operandIndex nd.pos) hr.operandIndex
  · unfold Vari.matrixOperand1Index
    exact readTape_ok (f := fun t => t.rdN (nd.pos + 4 + 3)) (hl 2 (by omega))
  · unfold Vari.matrixOperand2Index
    exact readTape_ok (f := fun t => t.rdN (nd.pos + 4 + 4)) (hl 3 (by omega))

open Classical in
theorem entries_VV (h : Inv s g val adj) {a : Mat Var} {b : Mat Var} (ha : Inv.MatHas g a) (hb : Inv.MatHas g b)
    (h1 : a.nrow ≤ int32Max) (h2 : a.ncol ≤ int32Max) (h3 : b.nrow ≤ int32Max) (h4 : b.ncol ≤ int32Max)
    (hn : a.ncol = b.nrow)
    (room : s.tape.head + ((2 + a.nrow * a.ncol) + (2 + b.nrow * b.ncol) + 10 * (a.nrow * b.ncol)) ≤ cap) :
    ∃ la lb vs s' g' val' adj', (matmulVV (R := R) a b : M W (List Var)) s = .ok (vs, s') ∧
      Evo anyPos s g val adj s' g' val' adj' ∧ EntriesAt la lb (matPairs a.nrow b.ncol) vs g' ∧
      Block.vb la a.nrow a.ncol (a.flat.map g.pos) ∈ g'.blocks ∧
      Block.vb lb b.nrow b.ncol (b.flat.map g.pos) ∈ g'.blocks := by
  obtain ⟨s1, e1, gr1⟩ := h.pushVarMat_ok ha h1 h2 (by omega)
  have ev1 := Evo.ofGrownB (φ := anyPos) gr1
  have k1 := gr1.head
  simp only [Block.len, List.length_map, Inv.flat_length] at k1
  have hb' : Inv.MatHas (g.pushB (Block.vb s.tape.head a.nrow a.ncol (a.flat.map g.pos))) b := hb
  obtain ⟨s2, e2, gr2⟩ := ev1.inv.pushVarMat_ok hb' h3 h4 (by omega)
  have ev2 := Evo.ofGrownB (φ := anyPos) gr2
  have k2 := gr2.head
  simp only [Block.len, List.length_map, Inv.flat_length] at k2
  have any : ∀ {g : Graph R} {x : Mat Var}, Inv.MatHas g x → MatHasF anyPos g x :=
    fun hx i hi j hj => ⟨hx i hi j hj, trivial⟩
  obtain ⟨av, hav⟩ := matVals_run ev2.inv (any (show Inv.MatHas (Graph.pushB (Graph.pushB g _) _) a from ha))
  obtain ⟨bv, hbv⟩ := matVals_run ev2.inv (any (show Inv.MatHas (Graph.pushB (Graph.pushB g _) _) b from hb))
  generalize s.tape.head = la at *
  generalize s1.tape.head = lb at *
  have mem : ∀ {x : Mat Var}, Inv.MatHas g x → ∀ p ∈ x.flat.map g.pos, ∃ nd ∈ g.nodes, nd.pos = p := by
    intro x hx p hp
    obtain ⟨v, hv, rfl⟩ := List.mem_map.mp hp
    obtain ⟨nd, q1, q2⟩ := (hx.flat v hv).at
    exact ⟨nd, q1.mem, q2⟩
  obtain ⟨vs, s3, g3, val3, adj3, e3, ev3, he, hB⟩ := loop_entries .matmulVV la lb (matmulD av bv) (fun g' =>
      (Block.vb la a.nrow a.ncol (a.flat.map g.pos) ∈ g'.blocks ∧ ∀ p ∈ a.flat.map g.pos, ∃ nd ∈ g'.nodes, nd.pos = p) ∧
      (Block.vb lb b.nrow b.ncol (b.flat.map g.pos) ∈ g'.blocks ∧ ∀ p ∈ b.flat.map g.pos, ∃ nd ∈ g'.nodes, nd.pos = p))
    (fun i j => .mmVV (cmRow (a.flat.map g.pos) a.nrow a.ncol i) (cmCol (b.flat.map g.pos) b.nrow j))
    (by rintro s g val adj s' g' val' adj' e ⟨⟨q1, q2⟩, ⟨q3, q4⟩⟩
        exact ⟨⟨e.pre.blocks.subset q1, fun p hp => e.pre.memPos (q2 p hp)⟩,
          ⟨e.pre.blocks.subset q3, fun p hp => e.pre.memPos (q4 p hp)⟩⟩)
    (matPairs a.nrow b.ncol)
    (by rintro s g val adj hi ⟨⟨q1, q2⟩, ⟨q3, q4⟩⟩ p hp
        have hpl := mem_matPairs hp
        have z1 := cmRow_length (hi.wf.bgood _ q1).1 hpl.1
        have z2 := cmCol_length (hi.wf.bgood _ q3).1 hpl.2
        refine ⟨⟨rfl, ?_, ?_, ?_⟩, ⟨rfl, Or.inl rfl⟩⟩
        · intro q hq
          rcases List.mem_append.mp hq with hq | hq
          · exact q2 q (mem_cmRow hq)
          · exact q4 q (mem_cmCol hq)
        · have l1 : la ≤ int32Max := hi.block_small q1
          have l2 : lb ≤ int32Max := hi.block_small q3
          intro o ho
          simp only [List.mem_cons, List.not_mem_nil, or_false] at ho
          rcases ho with rfl | rfl | rfl | rfl <;> omega
        · rw [hn] at q1 ⊢
          exact ⟨p.1, p.2, la, a.nrow, b.nrow, _, lb, b.ncol, _, rfl, q1, q3, hpl.1, hpl.2, rfl, rfl⟩)
    ev2.inv ⟨⟨by simp [Graph.pushB], mem ha⟩, ⟨List.mem_append_right _ (List.mem_singleton.mpr rfl), mem hb⟩⟩ (by rw [matPairs_length]; omega)
  refine ⟨la, lb, vs, s3, g3, val3, adj3, ?_, (ev1.trans ev2).trans ev3, he, ?_, ?_⟩
  · unfold matmulVV
    rw [bind_ok e1, bind_ok e2, bind_ok hav, bind_ok hbv, if_pos hn]
    exact e3
  · exact hB.1.1
  · exact hB.2.1

open Classical in
theorem entries_VD (h : Inv s g val adj) {a : Mat Var} {b : Mat R} (ha : Inv.MatHas g a)
    (h1 : a.nrow ≤ int32Max) (h2 : a.ncol ≤ int32Max) (h3 : b.nrow ≤ int32Max) (h4 : b.ncol ≤ int32Max)
    (hn : a.ncol = b.nrow)
    (room : s.tape.head + ((2 + a.nrow * a.ncol) + (2 + 2 * (b.nrow * b.ncol)) + 10 * (a.nrow * b.ncol)) ≤ cap) :
    ∃ la lb vs s' g' val' adj', (matmulVD (R := R) a b : M W (List Var)) s = .ok (vs, s') ∧
      Evo anyPos s g val adj s' g' val' adj' ∧ EntriesAt la lb (matPairs a.nrow b.ncol) vs g' ∧
      Block.vb la a.nrow a.ncol (a.flat.map g.pos) ∈ g'.blocks ∧
      Block.db lb b.nrow b.ncol b.flat ∈ g'.blocks := by
  obtain ⟨s1, e1, gr1⟩ := h.pushVarMat_ok ha h1 h2 (by omega)
  have ev1 := Evo.ofGrownB (φ := anyPos) gr1
  have k1 := gr1.head
  simp only [Block.len, List.length_map, Inv.flat_length] at k1
  obtain ⟨s2, e2, gr2⟩ := ev1.inv.pushDataMat_ok h3 h4 (by omega)
  have ev2 := Evo.ofGrownB (φ := anyPos) gr2
  have k2 := gr2.head
  simp only [Block.len, List.length_map, Inv.flat_length] at k2
  have any : ∀ {g : Graph R} {x : Mat Var}, Inv.MatHas g x → MatHasF anyPos g x :=
    fun hx i hi j hj => ⟨hx i hi j hj, trivial⟩
  obtain ⟨av, hav⟩ := matVals_run ev2.inv (any (show Inv.MatHas (Graph.pushB (Graph.pushB g _) _) a from ha))
  generalize s.tape.head = la at *
  generalize s1.tape.head = lb at *
  have mem : ∀ {x : Mat Var}, Inv.MatHas g x → ∀ p ∈ x.flat.map g.pos, ∃ nd ∈ g.nodes, nd.pos = p := by
    intro x hx p hp
    obtain ⟨v, hv, rfl⟩ := List.mem_map.mp hp
    obtain ⟨nd, q1, q2⟩ := (hx.flat v hv).at
    exact ⟨nd, q1.mem, q2⟩
  obtain ⟨vs, s3, g3, val3, adj3, e3, ev3, he, hB⟩ := loop_entries .matmulVD la lb (matmulD av b) (fun g' =>
      (Block.vb la a.nrow a.ncol (a.flat.map g.pos) ∈ g'.blocks ∧ ∀ p ∈ a.flat.map g.pos, ∃ nd ∈ g'.nodes, nd.pos = p) ∧
      Block.db lb b.nrow b.ncol b.flat ∈ g'.blocks)
    (fun i j => .mmVD (cmRow (a.flat.map g.pos) a.nrow a.ncol i) (cmCol b.flat b.nrow j))
    (by rintro s g val adj s' g' val' adj' e ⟨⟨q1, q2⟩, q3⟩
        exact ⟨⟨e.pre.blocks.subset q1, fun p hp => e.pre.memPos (q2 p hp)⟩,
          e.pre.blocks.subset q3⟩)
    (matPairs a.nrow b.ncol)
    (by rintro s g val adj hi ⟨⟨q1, q2⟩, q3⟩ p hp
        have hpl := mem_matPairs hp
        have z1 := cmRow_length (hi.wf.bgood _ q1).1 hpl.1
        have z2 := cmCol_length (hi.wf.bgood _ q3).1 hpl.2
        refine ⟨⟨rfl, ?_, ?_, ?_⟩, ⟨rfl, Or.inl rfl⟩⟩
        · intro q hq
          exact q2 q (mem_cmRow hq)
        · have l1 : la ≤ int32Max := hi.block_small q1
          have l2 : lb ≤ int32Max := hi.block_small q3
          intro o ho
          simp only [List.mem_cons, List.not_mem_nil, or_false] at ho
          rcases ho with rfl | rfl | rfl | rfl <;> omega
        · rw [hn] at q1 ⊢
          exact ⟨p.1, p.2, la, a.nrow, b.nrow, _, lb, b.ncol, _, rfl, q1, q3, hpl.1, hpl.2, rfl, rfl⟩)
    ev2.inv ⟨⟨by simp [Graph.pushB], mem ha⟩, by simp [Graph.pushB]⟩ (by rw [matPairs_length]; omega)
  refine ⟨la, lb, vs, s3, g3, val3, adj3, ?_, (ev1.trans ev2).trans ev3, he, ?_, ?_⟩
  · unfold matmulVD
    rw [bind_ok e1, bind_ok e2, bind_ok hav, if_pos hn]
    exact e3
  · exact hB.1.1
  · exact hB.2

open Classical in
theorem entries_DV (h : Inv s g val adj) {a : Mat R} {b : Mat Var} (hb : Inv.MatHas g b)
    (h1 : a.nrow ≤ int32Max) (h2 : a.ncol ≤ int32Max) (h3 : b.nrow ≤ int32Max) (h4 : b.ncol ≤ int32Max)
    (hn : a.ncol = b.nrow)
    (room : s.tape.head + ((2 + 2 * (a.nrow * a.ncol)) + (2 + b.nrow * b.ncol) + 10 * (a.nrow * b.ncol)) ≤ cap) :
    ∃ la lb vs s' g' val' adj', (matmulDV (R := R) a b : M W (List Var)) s = .ok (vs, s') ∧
      Evo anyPos s g val adj s' g' val' adj' ∧ EntriesAt la lb (matPairs a.nrow b.ncol) vs g' ∧
      Block.db la a.nrow a.ncol a.flat ∈ g'.blocks ∧
      Block.vb lb b.nrow b.ncol (b.flat.map g.pos) ∈ g'.blocks := by
  obtain ⟨s1, e1, gr1⟩ := h.pushDataMat_ok h1 h2 (by omega)
  have ev1 := Evo.ofGrownB (φ := anyPos) gr1
  have k1 := gr1.head
  simp only [Block.len, List.length_map, Inv.flat_length] at k1
  have hb' : Inv.MatHas (g.pushB (Block.db s.tape.head a.nrow a.ncol a.flat)) b := hb
  obtain ⟨s2, e2, gr2⟩ := ev1.inv.pushVarMat_ok hb' h3 h4 (by omega)
  have ev2 := Evo.ofGrownB (φ := anyPos) gr2
  have k2 := gr2.head
  simp only [Block.len, List.length_map, Inv.flat_length] at k2
  have any : ∀ {g : Graph R} {x : Mat Var}, Inv.MatHas g x → MatHasF anyPos g x :=
    fun hx i hi j hj => ⟨hx i hi j hj, trivial⟩
  obtain ⟨bv, hbv⟩ := matVals_run ev2.inv (any (show Inv.MatHas (Graph.pushB (Graph.pushB g _) _) b from hb))
  generalize s.tape.head = la at *
  generalize s1.tape.head = lb at *
  have mem : ∀ {x : Mat Var}, Inv.MatHas g x → ∀ p ∈ x.flat.map g.pos, ∃ nd ∈ g.nodes, nd.pos = p := by
    intro x hx p hp
    obtain ⟨v, hv, rfl⟩ := List.mem_map.mp hp
    obtain ⟨nd, q1, q2⟩ := (hx.flat v hv).at
    exact ⟨nd, q1.mem, q2⟩
  obtain ⟨vs, s3, g3, val3, adj3, e3, ev3, he, hB⟩ := loop_entries .matmulDV la lb (matmulD a bv) (fun g' =>
      Block.db la a.nrow a.ncol a.flat ∈ g'.blocks ∧
      (Block.vb lb b.nrow b.ncol (b.flat.map g.pos) ∈ g'.blocks ∧ ∀ p ∈ b.flat.map g.pos, ∃ nd ∈ g'.nodes, nd.pos = p))
    (fun i j => .mmDV (cmRow a.flat a.nrow a.ncol i) (cmCol (b.flat.map g.pos) b.nrow j))
    (by rintro s g val adj s' g' val' adj' e ⟨q1, ⟨q3, q4⟩⟩
        exact ⟨e.pre.blocks.subset q1,
          ⟨e.pre.blocks.subset q3, fun p hp => e.pre.memPos (q4 p hp)⟩⟩)
    (matPairs a.nrow b.ncol)
    (by rintro s g val adj hi ⟨q1, ⟨q3, q4⟩⟩ p hp
        have hpl := mem_matPairs hp
        have z1 := cmRow_length (hi.wf.bgood _ q1).1 hpl.1
        have z2 := cmCol_length (hi.wf.bgood _ q3).1 hpl.2
        refine ⟨⟨rfl, ?_, ?_, ?_⟩, ⟨rfl, Or.inl rfl⟩⟩
        · intro q hq
          exact q4 q (mem_cmCol hq)
        · have l1 : la ≤ int32Max := hi.block_small q1
          have l2 : lb ≤ int32Max := hi.block_small q3
          intro o ho
          simp only [List.mem_cons, List.not_mem_nil, or_false] at ho
          rcases ho with rfl | rfl | rfl | rfl <;> omega
        · rw [hn] at q1 ⊢
          exact ⟨p.1, p.2, la, a.nrow, b.nrow, _, lb, b.ncol, _, rfl, q1, q3, hpl.1, hpl.2, rfl, rfl⟩)
    ev2.inv ⟨by simp [Graph.pushB], ⟨List.mem_append_right _ (List.mem_singleton.mpr rfl), mem hb⟩⟩ (by rw [matPairs_length]; omega)
  refine ⟨la, lb, vs, s3, g3, val3, adj3, ?_, (ev1.trans ev2).trans ev3, he, ?_, ?_⟩
  · unfold matmulDV
    rw [bind_ok e1, bind_ok e2, bind_ok hbv, if_pos hn]
    exact e3
  · exact hB.1
  · exact hB.2.1

end Fz
