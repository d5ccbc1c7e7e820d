import Verif.Props.Storage
import Verif.Proof.MatStep

/-!
# C46: arrays kept in the storage

`array_in_tape(callstack%stack, a)` copies an array of variables or of reals to the tape; `nrow`, `ncol`,
`row`, `col`, `data_row`, `data_col` read it back (array_in_tape.F90, and the procedures `matrix_…` of
tape.F90, which do the same).  Matrices come back exactly; arrays of rank one do not.
-/

set_option linter.unusedSectionVars false

namespace Props
open Fz Spec

section generic
variable {W R : Type} [Arith R] [Rep W R] [LawfulRep W R]
variable {h : List (Call R)} {c : Client W}

/-- the place of the record of a variable, as array_in_tape keeps it -/
def place (s : St W) (v : Var) : Nat := (s.varis v.vi).i

/-- the matrix `a` of variables can be read back at `loc`: its shape, its rows and its columns
(rows and columns are numbered from one) -/
def VarsAt (t : Tape W) (loc : Nat) (a : Mat Nat) : Prop :=
  t.matrixNrow loc = .ok a.nrow ∧ t.matrixNcol loc = .ok a.ncol ∧
  (∀ i < a.nrow, t.matrixRowIndex loc (i + 1) = .ok (a.row i)) ∧
  ∀ j < a.ncol, t.matrixColIndex loc (j + 1) = .ok (a.col j)

/-- the same for a matrix of reals -/
def DataAt (t : Tape W) (loc : Nat) (a : Mat R) : Prop :=
  t.matrixNrow loc = .ok a.nrow ∧ t.matrixNcol loc = .ok a.ncol ∧
  (∀ i < a.nrow, t.matrixRowData loc (i + 1) = .ok (a.row i)) ∧
  ∀ j < a.ncol, t.matrixColData loc (j + 1) = .ok (a.col j)

theorem vblk_varsAt {t : Tape W} {loc : Nat} {a : Mat Nat} (hb : t.VBlk loc a.nrow a.ncol a.flat) :
    VarsAt t loc a := by
  refine ⟨hb.rdRow.1, hb.rdRow.2.1, fun i hi => ?_, fun j hj => ?_⟩
  · rw [hb.rowIndex hi, cmRow_flat a hi]
  · rw [hb.colIndex hj, cmCol_flat a hj]

theorem dblk_dataAt {t : Tape W} {loc : Nat} {a : Mat R} (hb : t.DBlk loc a.nrow a.ncol a.flat) :
    DataAt t loc a := by
  refine ⟨hb.rdRow.1, hb.rdRow.2.1, fun i hi => ?_, fun j hj => ?_⟩
  · rw [hb.rowData hi, cmRow_flat a hi]
  · rw [hb.colData hj, cmCol_flat a hj]

theorem vblk_mono {t t' : Tape W} {loc m n hd : Nat} {ids : List Nat} (hb : t.VBlk loc m n ids)
    (hhd : loc + (2 + ids.length) ≤ hd) (hm : ∀ p < hd, t'.mem p = t.mem p)
    (hs : t.size ≤ t'.size) (hz : t'.size ≤ int32Max) : t'.VBlk loc m n ids := by
  refine ⟨hb.pos, by have := hb.fit; omega, hz, hb.good, fun k hk => ?_⟩
  rw [← hb.words k hk, hm]
  simp at hk; omega

theorem dblk_mono {t t' : Tape W} {loc m n hd : Nat} {xs : List R} (hb : t.DBlk loc m n xs)
    (hhd : loc + (2 + 2 * xs.length) ≤ hd) (hm : ∀ p < hd, t'.mem p = t.mem p)
    (hs : t.size ≤ t'.size) (hz : t'.size ≤ int32Max) : t'.DBlk loc m n xs := by
  refine ⟨hb.pos, by have := hb.fit; omega, hz, hb.good, fun k hk => ?_⟩
  rw [← hb.words k hk, hm]
  simp [Tape.realWords_length] at hk; omega

theorem mat_map_flat {α β : Type} (a : Mat α) (f : α → β) :
    (⟨a.nrow, a.ncol, fun i j => f (a.get i j)⟩ : Mat β).flat = a.flat.map f := by
  simp [Mat.flat, List.map_flatMap, Function.comp_def]

theorem grownB_seen {s s' : St W} {g : Graph R} {val adj : Nat → R} {b : Block R} (hi : Inv s g val adj)
    (gr : Inv.GrownB s g val adj b s') {u : Var} (hu : g.Has u) : seen (R := R) s' u = seen s u := by
  obtain ⟨y, h1, _⟩ := hu.at
  rw [hi.seen h1, gr.inv.seen (show (g.pushB b).At u y from h1)]

/-- **C46**: a matrix of variables put on the tape is read back as it was, with its shape, for all numbers
of rows and columns (also zero); all variables can be read as before; and it is still read back after
any further call that creates variables, whether or not the storage has been enlarged in between. -/
theorem C46_variables_partial (hr : Reach h c) (a : Mat Var)
    (ha : ∀ i < a.nrow, ∀ j < a.ncol, a.get i j ∈ existing c.st)
    (hm : a.nrow < 2 ^ 31 ∧ a.ncol < 2 ^ 31) (room : c.st.tape.head + (2 + a.nrow * a.ncol) ≤ tapeLimit) :
    ∃ loc s', (pushVarMat a : M W Nat) c.st = .ok (loc, s') ∧
      VarsAt s'.tape loc ⟨a.nrow, a.ncol, fun i j => place c.st (a.get i j)⟩ ∧
      (∀ u ∈ existing c.st, u ∈ existing s' ∧ seen (R := R) s' u = seen c.st u) ∧
      ∀ (m : Make R) (vs : List Var) (s'' : St W), m.Sane → (∀ i ∈ m.args, i < c.env.length) →
        m.call c.env s' = .ok (vs, s'') →
        VarsAt s''.tape loc ⟨a.nrow, a.ncol, fun i j => place c.st (a.get i j)⟩ := by
  obtain ⟨g, val, adj, G⟩ := hr.good
  have hh : Inv.MatHas g a := fun i hi j hj => (mem_existing G.inv).mp (ha i hi j hj)
  have i1 : a.nrow ≤ int32Max := by have := hm.1; simp only [int32Max]; omega
  have i2 : a.ncol ≤ int32Max := by have := hm.2; simp only [int32Max]; omega
  obtain ⟨s', e, gr⟩ := G.inv.pushVarMat_ok hh i1 i2 room
  have hfl : (⟨a.nrow, a.ncol, fun i j => place c.st (a.get i j)⟩ : Mat Nat).flat = a.flat.map g.pos := by
    rw [mat_map_flat a (place c.st)]
    exact List.map_congr_left fun u hu => seen_pos G.inv (hh.flat u hu)
  have hb : s'.tape.VBlk c.st.tape.head a.nrow a.ncol (a.flat.map g.pos) :=
    gr.inv.vblk (by simp [Graph.pushB])
  refine ⟨_, s', e, vblk_varsAt (by rw [hfl]; exact hb), fun u hu => ?_, fun m vs s'' hs hargs hrun => ?_⟩
  · have hu' := (mem_existing G.inv).mp hu
    exact ⟨(mem_existing gr.inv).mpr hu', grownB_seen G.inv gr hu'⟩
  · obtain ⟨g2, v2, a2, ev, _⟩ := make_safe (φ := fun _ => True) gr.inv (env := c.env) m
      (fun i hi => ⟨nth_has G.has (hargs i hi), trivial⟩) hs (fun _ _ => trivial) vs s'' hrun
    refine vblk_varsAt ?_
    rw [hfl]
    exact vblk_mono hb (by rw [gr.head]; simp [Block.len]) ev.keep.mem ev.keep.size ev.inv.ok.size_le

/-- **C46**: the same for a matrix of reals, bit for bit -/
theorem C46_reals_partial (hr : Reach h c) (a : Mat R)
    (hm : a.nrow < 2 ^ 31 ∧ a.ncol < 2 ^ 31) (room : c.st.tape.head + (2 + 2 * (a.nrow * a.ncol)) ≤ tapeLimit) :
    ∃ loc s', (pushDataMat a : M W Nat) c.st = .ok (loc, s') ∧ DataAt s'.tape loc a ∧
      (∀ u ∈ existing c.st, u ∈ existing s' ∧ seen (R := R) s' u = seen c.st u) ∧
      ∀ (m : Make R) (vs : List Var) (s'' : St W), m.Sane → (∀ i ∈ m.args, i < c.env.length) →
        m.call c.env s' = .ok (vs, s'') → DataAt s''.tape loc a := by
  obtain ⟨g, val, adj, G⟩ := hr.good
  have i1 : a.nrow ≤ int32Max := by have := hm.1; simp only [int32Max]; omega
  have i2 : a.ncol ≤ int32Max := by have := hm.2; simp only [int32Max]; omega
  obtain ⟨s', e, gr⟩ := G.inv.pushDataMat_ok i1 i2 room
  have hb : s'.tape.DBlk c.st.tape.head a.nrow a.ncol a.flat := gr.inv.dblk (by simp [Graph.pushB])
  refine ⟨_, s', e, dblk_dataAt hb, fun u hu => ?_, fun m vs s'' hs hargs hrun => ?_⟩
  · have hu' := (mem_existing G.inv).mp hu
    exact ⟨(mem_existing gr.inv).mpr hu', grownB_seen G.inv gr hu'⟩
  · obtain ⟨g2, v2, a2, ev, _⟩ := make_safe (φ := fun _ => True) gr.inv (env := c.env) m
      (fun i hi => ⟨nth_has G.has (hargs i hi), trivial⟩) hs (fun _ _ => trivial) vs s'' hrun
    exact dblk_dataAt (dblk_mono hb (by rw [gr.head]; simp [Block.len]) ev.keep.mem ev.keep.size
      ev.inv.ok.size_le)

/-- **C46** (first half of a defect): the number of elements of an array of reals of rank one is not
stored.  `push(size(a))` reserves `size(a)` empty records, it does not write the number; so `nrow` of
every non-empty array is zero, in every reachable state. -/
theorem C46_vector_of_reals_refuted (hr : Reach h c) (a : List R) (hne : a ≠ [])
    (room : c.st.tape.head + 8 * a.length ≤ tapeLimit) :
    ∃ loc s', (pushDataArr a : M W Nat) c.st = .ok (loc, s') ∧ s'.tape.matrixNrow loc = .ok 0 ∧
      s'.tape.matrixColData (R := R) loc 1 = .ok [] := by
  obtain ⟨g, val, adj, G⟩ := hr.good
  have hok := G.inv.ok
  have hl : 0 < a.length := List.length_pos_iff.mpr hne
  simp only [tapeLimit] at room
  obtain ⟨sz, e1, f1, f2, f3, f4, -, k, f5⟩ := Tape.alloc_ok c.st.tape (a.length * minRecSize) hok
    (by simp only [minRecSize, cap]; omega)
  simp only [minRecSize] at f1
  have hp := hok.head_pos
  have hok1 : Tape.OK (W := W) { c.st.tape with size := sz, head := c.st.tape.head + minRecSize * a.length } :=
    ⟨by simp only; omega, by simp only [minRecSize]; omega, f3,
      fun i hi => hok.zero i (by simp only at hi; omega), Or.inr ⟨k, f5⟩⟩
  obtain ⟨t2, e2, x2⟩ := Tape.pushRealArray_ok hok1 a (by simp only [minRecSize, cap]; omega)
  have hmem : t2.mem c.st.tape.head = Rep.ofNat 0 := by
    rw [x2.mem, overlay_lt (by simp only [minRecSize]; omega)]
    exact hok.zero _ (by omega)
  have hn : t2.rdN c.st.tape.head = .ok 0 :=
    Tape.rdN_ok hok.head_pos (by have := x2.size; simp only at this; omega) hmem (by simp)
  refine ⟨c.st.tape.head, { c.st with tape := t2 }, ?_, hn, ?_⟩
  · unfold pushDataArr
    have e1' : c.st.tape.pushN a.length = .ok (c.st.tape.head,
        { c.st.tape with size := sz, head := c.st.tape.head + minRecSize * a.length }) := by
      unfold Tape.pushN
      rw [e1]; rfl
    rw [bind_ok (pushTape_ok e1'), bind_ok (pushTape_ok
      (s := { c.st with tape := { c.st.tape with size := sz, head := c.st.tape.head + minRecSize * a.length } }) e2)]
    rfl
  · show t2.matrixColData c.st.tape.head 1 = _
    unfold Tape.matrixColData
    rw [hn]; rfl

/-- **C46** (second half of the defect): of an array of variables of rank one `nrow` is right but `col(1)`
reads from the second element on: even for one variable it does not give back the place of that variable. -/
theorem C46_vector_of_variables_refuted (hr : Reach h c) {v : Var} (hv : v ∈ existing c.st)
    (room : c.st.tape.head + 2 ≤ tapeLimit) :
    ∃ loc s', (pushVarArr [v] : M W Nat) c.st = .ok (loc, s') ∧ s'.tape.matrixNrow loc = .ok 1 ∧
      s'.tape.matrixColIndex loc 1 ≠ .ok [place c.st v] := by
  obtain ⟨g, val, adj, G⟩ := hr.good
  have hok := G.inv.ok
  have hv' := (mem_existing G.inv).mp hv
  obtain ⟨t', e, ext⟩ := Tape.pushIntArray_ok hok ([1] ++ [g.pos v]) (by simpa [cap, tapeLimit] using room)
  have hw : HasWords t'.mem c.st.tape.head ([1, g.pos v].map Rep.ofNat) := by
    rw [ext.mem]; exact HasWords.overlay_self
  simp only [List.map_cons, HasWords.cons] at hw
  have hhd := ext.head
  have hle := ext.ok.head_le
  simp at hhd
  have h1 : t'.rdN c.st.tape.head = .ok 1 :=
    Tape.rdN_ok hok.head_pos (by omega) hw.1 (by simp [int32Max])
  refine ⟨c.st.tape.head, { c.st with tape := t' }, ?_, h1, ?_⟩
  · unfold pushVarArr
    rw [bind_ok (G.inv.varIdxs (vs := [v]) (by simpa using hv'))]
    exact pushTape_ok e
  · show t'.matrixColIndex c.st.tape.head 1 ≠ _
    unfold Tape.matrixColIndex
    rw [h1]
    show t'.rdSec (c.st.tape.head + 1 + (1 - 1) * 1 + 1) 1 ≠ _
    have hz : t'.mem (c.st.tape.head + 2) = Rep.ofNat 0 := ext.ok.zero _ (by omega)
    have hpos := (G.inv.wf.pos_lt hv').1
    have hpl : place c.st v = g.pos v := seen_pos G.inv hv'
    rw [hpl]
    by_cases hs : c.st.tape.head + 2 ≤ t'.size
    · have := Tape.rdSec_ok (t := t') [0] (p := c.st.tape.head + 2) (by omega) (by simp; omega)
        (by
          simp only [List.map_cons, HasWords.cons]
          exact ⟨hz, fun k hk => by simp at hk⟩) (by simp)
      simp only [List.length_singleton] at this
      show t'.rdSec (c.st.tape.head + 2) 1 ≠ _
      rw [this]
      simp; omega
    · have hoob : t'.rd (c.st.tape.head + 2) = .error .oob := by
        unfold Tape.rd
        rw [if_neg (by omega)]
      show t'.rdSec (c.st.tape.head + 2) 1 ≠ _
      simp [Tape.rdSec, Tape.rdN, hoob, bind, Except.bind]

end generic

/-- C46: after `demo` there are variables to store, in a matrix of two rows in which one occurs three
times, and there is room for it and for an array of reals -/
example : ∃ c : Client ℝ, Reach demo c ∧
    (∀ i < 2, ∀ j < 3, (⟨if i = j then 3 else 1 + i⟩ : Var) ∈ existing c.st) ∧
    c.st.tape.head + (2 + 2 * (2 * 3)) ≤ tapeLimit ∧ c.st.tape.head + 8 * [(1 : ℝ), 2].length ≤ tapeLimit := by
  obtain ⟨c, c', hr, hx, hh, he, he'⟩ := demo_next
  refine ⟨c, hr, fun i hi j hj => ?_, by rw [hh]; simp [tapeLimit], by rw [hh]; simp [tapeLimit]⟩
  rw [he]
  interval_cases i <;> interval_cases j <;> simp

end Props
