import Verif.Model.LenientMatmul
import Verif.Props.Lenient
import Verif.Props.Nesting
import Verif.Proof.Ground

/-!
# C59: matrix products in nested regions, without checks of array shapes

The properties C59-C61 ask that no matrix product is made in a nested region.  That cannot be dropped: the chain
procedure of a product takes the addresses it writes to from a local array, which it fills from the record.
-/

set_option linter.unusedSectionVars false

namespace Fz
variable {W R : Type} [Arith R] [Rep W R]
open Arith Spec

theorem refines_fill4 (K : JunkI W) (this : Vari) (l : List Nat) : Refines (fill4 K this l) (conf4 l) := by
  intro s a s' e
  unfold conf4 at e
  split at e
  · cases e; rfl
  · cases e

theorem refines_runChainM (J : Junk W R) (K : JunkI W) (this : Vari) : Refines (runChainM J K this) (runChain this) := by
  obtain ⟨i, c⟩ := this
  have side := refines_runChain J ⟨i, c⟩
  cases c
  case matmulVV => exact .bind .rfl fun i => .bind (refines_fill4 K _ i) fun _ => .rfl
  case matmulVD => exact .bind .rfl fun i => .bind (refines_fill4 K _ i) fun _ => .rfl
  case matmulDV => exact .bind .rfl fun i => .bind (refines_fill4 K _ i) fun _ => .rfl
  all_goals exact side

theorem refines_chainLoopM (J : Junk W R) (K : JunkI W) (lo : Nat) : ∀ n, Refines (chainLoopM J K lo n) (chainLoop lo n)
  | 0 => .rfl
  | n + 1 => .bind .rfl fun v => .bind (refines_runChainM J K v) fun _ => refines_chainLoopM J K lo n

theorem refines_gradM (J : Junk W R) (K : JunkI W) (v : Var) : Refines (v.gradM J K) v.grad :=
  .bind .rfl fun _ => .bind .rfl fun _ => .bind .rfl fun _ => refines_chainLoopM _ _ _ _

section
variable [LawfulRep W R] {s : St W} {g : Graph R} {val adj : Nat → R} {hd : Nat} {l : List (Nat × Nat)} {fr : Nat → Chain}

/-- the two factors of a product of numbers, and the product -/
def Graph.mm (g : Graph R) (hd p q : Nat) : Graph R :=
  ((g.pushB (.vb hd 1 1 [p])).pushB (.vb (hd + 3) 1 1 [q])).push
    ⟨hd + 6, [1, 1, hd, hd + 3], [], .matmulVV, .mmVV [p] [q]⟩

theorem Here.block (h : Here s g val adj hd l fr) {a : Mat Var} (ha : Inv.MatHas g a) (hr : a.nrow ≤ int32Max)
    (hc : a.ncol ≤ int32Max) (hcap : hd + (2 + a.nrow * a.ncol) ≤ cap) :
    ∃ s', (pushVarMat a : M W Nat) s = .ok (hd, s') ∧
      Here s' (g.pushB (.vb hd a.nrow a.ncol (a.flat.map g.pos))) val adj (hd + (2 + a.nrow * a.ncol)) l fr := by
  obtain ⟨s', e, gr⟩ := h.inv.pushVarMat_ok ha hr hc (by rw [h.head]; exact hcap)
  rw [h.head] at e gr
  refine ⟨s', e, gr.inv, ?_, ?_, ?_⟩
  · rw [gr.head, h.head]
    have : (a.flat.map g.pos).length = a.nrow * a.ncol := by rw [List.length_map, Inv.flat_length]
    simp only [Block.len, this]
  · intro k hk
    rw [gr.keep.slots k hk]
    exact h.free k (by have := gr.vhead; omega)
  · rw [gr.keep.level, gr.keep.nestTape, gr.keep.nestVari]
    exact h.marks

theorem Here.matmul11 (h : Here s g val adj hd l fr) {x y : Var} (hx : g.Has x) (hy : g.Has y) (hc : hd + 16 ≤ cap) :
    ∃ s' v, (matmulVV ⟨1, 1, fun _ _ => x⟩ ⟨1, 1, fun _ _ => y⟩ : M W (List Var)) s = .ok ([⟨g.nodes.length + 1⟩], s') ∧
      Here s' (g.mm hd (g.pos x) (g.pos y)) (upd val (hd + 6) v) (upd adj (hd + 6) zero) (hd + 16) l fr := by
  have hi : (1 : Nat) ≤ int32Max := by simp [int32Max]
  obtain ⟨s1, e1, H1⟩ := h.block (a := ⟨1, 1, fun _ _ => x⟩) (fun _ _ _ _ => hx) hi hi (by simp only; omega)
  obtain ⟨s2, e2, H2⟩ := H1.block (a := ⟨1, 1, fun _ _ => y⟩) (fun _ _ _ _ => hy) hi hi (by simp only; omega)
  have hax : ∀ v ∈ (⟨1, 1, fun _ _ => x⟩ : Mat Var).flat, Graph.Has ((g.pushB (.vb hd 1 1 [g.pos x])).pushB (.vb (hd + 3) 1 1 [g.pos y])) v := by
    intro v hv
    simp [Mat.flat] at hv
    rw [hv]
    exact hx
  have hay : ∀ v ∈ (⟨1, 1, fun _ _ => y⟩ : Mat Var).flat, Graph.Has ((g.pushB (.vb hd 1 1 [g.pos x])).pushB (.vb (hd + 3) 1 1 [g.pos y])) v := by
    intro v hv
    simp [Mat.flat] at hv
    rw [hv]
    exact hy
  have H2' : Here s2 ((g.pushB (.vb hd 1 1 [g.pos x])).pushB (.vb (hd + 3) 1 1 [g.pos y])) val adj (hd + 6) l fr := H2
  have ex := H2'.inv.varVals hax
  have ey := H2'.inv.varVals hay
  have hb : hd + 6 ≤ int32Max := by
    have : cap ≤ int32Max := by simp [cap, int32Max, initTapeSize]
    omega
  have cp : Inv.CanPush ((g.pushB (.vb hd 1 1 [g.pos x])).pushB (.vb (hd + 3) 1 1 [g.pos y])) s2.tape.head
      ⟨hd + 6, [1, 1, hd, hd + 3], [], .matmulVV, .mmVV [g.pos x] [g.pos y]⟩ := by
    refine ⟨H2'.head.symm, ?_, ?_, ?_⟩
    · intro p hp
      simp only [Node.args, List.cons_append, List.nil_append, List.mem_cons, List.not_mem_nil, or_false] at hp
      rcases hp with rfl | rfl
      · exact hx.mem_pos
      · exact hy.mem_pos
    · intro o ho
      simp only [List.mem_cons, List.not_mem_nil, or_false] at ho
      rcases ho with rfl | rfl | rfl | rfl <;> omega
    · exact ⟨0, 0, hd, 1, 1, [g.pos x], hd + 3, 1, [g.pos y], rfl, by simp [Graph.pushB], by simp [Graph.pushB], by omega, by omega, rfl, rfl⟩
  have hcap : s2.tape.head + Node.len (⟨hd + 6, [1, 1, hd, hd + 3], [], .matmulVV, .mmVV [g.pos x] [g.pos y]⟩ : Node R) ≤ cap := by
    rw [H2'.head]; simp [Node.len]; omega
  obtain ⟨s3, e3, gr⟩ := H2'.inv.newOpId_ok (matmulD ⟨1, 1, fun i j => ([val (g.pos x)]).getD (j * 1 + i) zero⟩
      ⟨1, 1, fun i j => ([val (g.pos y)]).getD (j * 1 + i) zero⟩ 0 0) cp rfl hcap
  refine ⟨s3, _, ?_, H2'.grown gr rfl⟩
  rw [H2'.inv.vhead] at e3
  have e4 := bind_inv e3
  obtain ⟨w, s4, e4, e5⟩ := e4
  obtain ⟨u, s5, e5, e6⟩ := bind_inv e5
  unfold matmulVV
  rw [bind_ok e1, bind_ok e2]
  unfold matVals
  rw [bind_ok (bind_ok ex), bind_ok (bind_ok ey), if_pos rfl]
  show (matmulLoop _ _ _ _ [(0, 0)] : M W (List Var)) s2 = _
  unfold matmulLoop
  refine (bind_ok e4).trans ((bind_ok e5).trans ?_)
  cases e6
  rfl

/-- a chain procedure of a product works on the rows it is given, wherever they come from -/
theorem Inv.dotStray (h : Inv s g val adj) {nd : Node R} (hn : nd ∈ g.nodes) (c : Chain) (r k : List Nat)
    (hr : ∀ p ∈ r, ∃ nd ∈ g.nodes, nd.pos = p) (hk : ∀ p ∈ k, ∃ nd ∈ g.nodes, nd.pos = p) (hnr : nd.pos ∉ r)
    (hl : r.length = k.length) :
    ∃ m, (chainDotProductVV ⟨nd.pos, c⟩ r k : M W Unit) s = .ok ((), s.withMem m) ∧
      Inv (s.withMem m) g val (addAll (addAll adj r ((k.map val).map fun x => adj nd.pos *. x)) k
        ((r.map val).map fun x => adj nd.pos *. x)) := by
  obtain ⟨m, e, i⟩ := setByIndex (g := g) (val := val) ⟨nd.pos, c⟩ r
    ((k.map val).map fun x => adj nd.pos *. x) h hr (by simp [hl])
  have hadj : (Vari.adj ⟨nd.pos, c⟩ : M W R) (s.withMem m) = .ok (adj nd.pos, s.withMem m) := by
    have := i.adjM hn c
    rwa [addAll_ne r adj _ hnr] at this
  obtain ⟨m', e', i'⟩ := setByIndex (g := g) (val := val) ⟨nd.pos, c⟩ k
    ((r.map val).map fun x => adj nd.pos *. x) i hk (by simp [hl])
  refine ⟨m', ?_, i'⟩
  unfold chainDotProductVV
  rw [bind_ok (h.adjM hn c), bind_ok (h.valsAt k hk)]
  have hcf : (confN r.length ((k.map val).map fun x => adj nd.pos *. x) : M W (List R)) s =
      .ok (((k.map val).map fun x => adj nd.pos *. x), s) := by
    unfold confN; rw [if_pos (by simp [hl])]; rfl
  rw [bind_ok hcf, bind_ok e, bind_ok hadj, bind_ok (i.valsAt r hr)]
  exact e'

end
end Fz

namespace Props
open Fz Spec Arith
variable {W : Type} [Rep W ℝ] [LawfulRep W ℝ]

/-- **C59**: where the sweep with checks completes, the sweep without any checks of array shapes does the same, also in
the chain procedures of matrix products, whatever is in memory. -/
theorem C59_agree_products {R : Type} [Arith R] [Rep W R] (J : Junk W R) (K : JunkI W) {v : Var} {s s' : St W}
    (e : (v.grad : M W Unit) s = .ok ((), s')) : (v.gradM J K : M W Unit) s = .ok ((), s') :=
  refines_gradM J K v _ _ _ e

/-- a sweep through a matrix product -/
example : ∃ (s s' : St W), (Var.grad ⟨3⟩ : M W Unit) s = .ok ((), s') ∧
    ∀ (J : Junk W ℝ) (K : JunkI W), (Var.gradM J K ⟨3⟩ : M W Unit) s = .ok ((), s') := by
  have H := Here.init (W := W) (fun _ => (0 : ℝ)) fun _ => 0
  obtain ⟨s1, e1, H1⟩ := H.newVar 2 (by simp [cap])
  obtain ⟨s2, e2, H2⟩ := H1.newVar 3 (by simp [cap])
  obtain ⟨s3, v3, e3, H3⟩ := H2.matmul11 (x := ⟨1⟩) (y := ⟨2⟩) (by simp [Graph.Has, Graph.empty, Graph.push])
    (by simp [Graph.Has, Graph.empty, Graph.push]) (by simp [cap])
  obtain ⟨s4, e4, -⟩ := H3.grad (v := ⟨3⟩) (by simp [Graph.Has, Graph.empty, Graph.push, Graph.pushB, Graph.mm]) (by
    intro nd hnd
    simp [Graph.empty, Graph.push, Graph.pushB, Graph.mm] at hnd
    rcases hnd with rfl | rfl | rfl
    · intro _; exact ⟨_, rfl⟩
    · intro _; exact ⟨_, rfl⟩
    · intro _; exact ⟨_, rfl⟩)
  exact ⟨s3, s4, e4, fun J K => C59_agree_products J K e4⟩

/-- the history of `C59_products_refuted`: `x = 2`, `y = 3`, the product of two matrices with one element, `x` and `y`;
the same product in a region; and an independent variable `w = 5` -/
noncomputable def staleProduct : List (Call ℝ) :=
  [.make (.new 2), .make (.new 3), .make (.matmulVV ⟨1, 1, fun _ _ => 0⟩ ⟨1, 1, fun _ _ => 1⟩), .begin,
    .make (.matmulVV ⟨1, 1, fun _ _ => 0⟩ ⟨1, 1, fun _ _ => 1⟩), .done, .make (.new 5)]

/-- **C59 fails** for matrix products in regions: `w` depends on nothing, but with suitable numbers in memory (those that
the chain procedure of the first product leaves there) the sweep from `w` completes and says that the derivative of `w`
by `x` is `3`. -/
theorem C59_products_refuted : ∃ c : Client W, Reach staleProduct c ∧ existing c.st = [⟨1⟩, ⟨2⟩, ⟨3⟩, ⟨4⟩] ∧
    c.env = [⟨1⟩, ⟨2⟩, ⟨3⟩, ⟨4⟩] ∧ seen c.st ⟨4⟩ = .ok (⟨5, 0, [], []⟩ : View ℝ) ∧
    ∃ K : JunkI W, ∀ J : Junk W ℝ, ∃ s',
      (do setZeroAllAdj; Var.gradM J K ⟨4⟩; Var.adj ⟨1⟩ : M W ℝ) c.st = .ok (3, s') := by
  have H := Here.init (W := W) (fun _ => (0 : ℝ)) fun _ => 0
  obtain ⟨s1, e1, H1⟩ := H.newVar 2 (by simp [cap])
  obtain ⟨s2, e2, H2⟩ := H1.newVar 3 (by simp [cap])
  obtain ⟨s3, v3, e3, H3⟩ := H2.matmul11 (x := ⟨1⟩) (y := ⟨2⟩) (by simp [Graph.Has, Graph.empty, Graph.push])
    (by simp [Graph.Has, Graph.empty, Graph.push]) (by simp [cap])
  obtain ⟨e4, H4⟩ := H3.begin (by simp [maxNestedStack])
  obtain ⟨s5, v5, e5, H5⟩ := H4.matmul11 (x := ⟨1⟩) (y := ⟨2⟩) (by simp [Graph.Has, Graph.empty, Graph.push, Graph.pushB, Graph.mm])
    (by simp [Graph.Has, Graph.empty, Graph.push, Graph.pushB, Graph.mm]) (by simp [cap])
  obtain ⟨s6, e6, -, H6⟩ := H5.done (l := []) (by simp [maxNestedStack])
    ⟨by simp [Graph.mm, Graph.push, Graph.pushB], by simp [Graph.mm, Graph.push, Graph.pushB]⟩ (H3.head ▸ H3.inv.wf) (by omega) (by omega) (by
      have := size_big H5.inv (by rw [H5.head]; omega)
      omega)
  obtain ⟨s7, e7, H7⟩ := H6.newVar 5 (by simp [cap])
  have k1 : (Call.make (R := ℝ) (.new 2)).exec (Client.init : Client W) = .ok ⟨s1, [⟨1⟩], []⟩ :=
    exec_make (c := Client.init) (vs := [⟨1⟩]) (by simp [Make.args]) (bind_ok (f := fun v => pure [v]) e1)
  have k2 : (Call.make (R := ℝ) (.new 3)).exec (⟨s1, [⟨1⟩], []⟩ : Client W) = .ok ⟨s2, [⟨1⟩, ⟨2⟩], []⟩ :=
    exec_make (c := ⟨s1, [⟨1⟩], []⟩) (vs := [⟨2⟩]) (by simp [Make.args]) (bind_ok (f := fun v => pure [v]) e2)
  have k3 : (Call.make (R := ℝ) (.matmulVV ⟨1, 1, fun _ _ => 0⟩ ⟨1, 1, fun _ _ => 1⟩)).exec
      (⟨s2, [⟨1⟩, ⟨2⟩], []⟩ : Client W) = .ok ⟨s3, [⟨1⟩, ⟨2⟩, ⟨3⟩], []⟩ :=
    exec_make (c := ⟨s2, [⟨1⟩, ⟨2⟩], []⟩) (vs := [⟨3⟩]) (by simp [Make.args, Matrix'.list, entries, List.range_succ]) e3
  have k4 : (Call.begin : Call ℝ).exec (⟨s3, [⟨1⟩, ⟨2⟩, ⟨3⟩], []⟩ : Client W) = .ok ⟨s3.begun, [⟨1⟩, ⟨2⟩, ⟨3⟩], [3]⟩ :=
    exec_begin (c := ⟨s3, [⟨1⟩, ⟨2⟩, ⟨3⟩], []⟩) e4
  have k5 : (Call.make (R := ℝ) (.matmulVV ⟨1, 1, fun _ _ => 0⟩ ⟨1, 1, fun _ _ => 1⟩)).exec
      (⟨s3.begun, [⟨1⟩, ⟨2⟩, ⟨3⟩], [3]⟩ : Client W) = .ok ⟨s5, [⟨1⟩, ⟨2⟩, ⟨3⟩, ⟨4⟩], [3]⟩ :=
    exec_make (c := ⟨s3.begun, [⟨1⟩, ⟨2⟩, ⟨3⟩], [3]⟩) (vs := [⟨4⟩]) (by simp [Make.args, Matrix'.list, entries, List.range_succ]) e5
  have k6 : (Call.done : Call ℝ).exec (⟨s5, [⟨1⟩, ⟨2⟩, ⟨3⟩, ⟨4⟩], [3]⟩ : Client W) = .ok ⟨s6, [⟨1⟩, ⟨2⟩, ⟨3⟩], []⟩ :=
    exec_done (c := ⟨s5, [⟨1⟩, ⟨2⟩, ⟨3⟩, ⟨4⟩], [3]⟩) e6 rfl
  have k7 : (Call.make (R := ℝ) (.new 5)).exec (⟨s6, [⟨1⟩, ⟨2⟩, ⟨3⟩], []⟩ : Client W) =
      .ok ⟨s7, [⟨1⟩, ⟨2⟩, ⟨3⟩, ⟨4⟩], []⟩ :=
    exec_make (c := ⟨s6, [⟨1⟩, ⟨2⟩, ⟨3⟩], []⟩) (vs := [⟨4⟩]) (by simp [Make.args]) (bind_ok (f := fun v => pure [v]) e7)
  obtain ⟨g, hg⟩ : ∃ g : Graph ℝ, g = ⟨[⟨1, [], [], .dummy, .plain⟩, ⟨7, [], [], .dummy, .plain⟩,
      ⟨19, [1, 1, 13, 16], [], .matmulVV, .mmVV [1] [7]⟩, ⟨29, [], [], .matmulVV, .plain⟩],
      [.vb 13 1 1 [1], .vb 16 1 1 [7]]⟩ := ⟨_, rfl⟩
  obtain ⟨val, adj, i0, hv1, hv7, hv29, ha29⟩ : ∃ val adj, Inv s7 g val adj ∧ val 1 = 2 ∧ val 7 = 3 ∧ val 29 = 5 ∧ adj 29 = 0 := by
    have := H7.inv
    simp [Graph.push, Graph.empty, unused, Graph.mm, Graph.pushB, Graph.pos] at this
    rw [hg]
    refine ⟨_, _, this, ?_, ?_, ?_, ?_⟩ <;> simp [upd, Arith.zero]
  refine ⟨⟨s7, [⟨1⟩, ⟨2⟩, ⟨3⟩, ⟨4⟩], []⟩, ⟨by simp [staleProduct, Call.Sane, Make.Sane], ?_⟩, ?_, rfl, ?_, ?_⟩
  · unfold staleProduct
    rw [run_one k1, run_one k2, run_one k3, run_one k4, run_one k5, run_one k6, run_one k7]
    rfl
  · have := i0.vhead
    simp [existing, this, List.range_succ, hg]
  · have := i0.seen (v := ⟨4⟩) (nd := ⟨29, [], [], .matmulVV, .plain⟩) ⟨by simp, by simp [hg]⟩
    rw [this]
    simp [Node.view, hv29, ha29]
  · refine ⟨fun _ _ i => [1, 1, 13, 16].getD i 0, fun J => ?_⟩
    obtain ⟨m, a, ez, iz, hz⟩ := i0.setZeroAllAdj_ok
    have hw : (⟨29, [], [], .matmulVV, .plain⟩ : Node ℝ) ∈ g.nodes := by simp [hg]
    have hx : (⟨1, [], [], .dummy, .plain⟩ : Node ℝ) ∈ g.nodes := by simp [hg]
    obtain ⟨m1, e1', i1⟩ := iz.setAdj hw Arith.one
    have ez1 : (Vari.initDependent ⟨29, .matmulVV⟩ : M W Unit) (s7.withMem m) = .ok ((), (s7.withMem m).withMem m1) :=
      modTape_ok (f := fun t => t.setAdjAt 29 Arith.one) (s := s7.withMem m) e1'
    have h1 : ∃ nd ∈ g.nodes, nd.pos = 1 := ⟨_, hx, rfl⟩
    have h7 : ∃ nd ∈ g.nodes, nd.pos = 7 := ⟨⟨7, [], [], .dummy, .plain⟩, by simp [hg], rfl⟩
    obtain ⟨m2, e2', i2⟩ := i1.dotStray hw .matmulVV [1] [7] (by simpa using h1) (by simpa using h7) (by simp) rfl
    have hch : (runChainM J (fun _ _ i => [1, 1, 13, 16].getD i 0) ⟨29, .matmulVV⟩ : M W Unit) ((s7.withMem m).withMem m1) =
        .ok ((), ((s7.withMem m).withMem m1).withMem m2) := by
      show (chainMatmulVVL _ ⟨29, .matmulVV⟩ : M W Unit) _ = _
      unfold chainMatmulVVL
      rw [bind_ok (i1.opIdxM hw .matmulVV)]
      have hf : (fill4 (fun _ _ i => [1, 1, 13, 16].getD i 0) ⟨29, .matmulVV⟩ [] : M W (Nat × Nat × Nat × Nat))
          ((s7.withMem m).withMem m1) = .ok ((1, 1, 13, 16), (s7.withMem m).withMem m1) := rfl
      rw [bind_ok hf]
      have b1 := (i1.vblk (loc := 13) (m := 1) (n := 1) (ids := [1]) (by simp [hg])).rowIndex (i := 0) (by omega)
      have b2 := (i1.vblk (loc := 16) (m := 1) (n := 1) (ids := [7]) (by simp [hg])).colIndex (j := 0) (by omega)
      show (readTape (fun t => t.matrixRowIndex 13 (0 + 1)) >>= _ : M W Unit) _ = _
      rw [bind_ok (readTape_ok b1)]
      show (readTape (fun t => t.matrixColIndex 16 (0 + 1)) >>= _ : M W Unit) _ = _
      rw [bind_ok (readTape_ok b2)]
      exact e2'
    obtain ⟨m3, e3', i3⟩ := Inv.chainLoop_ok 0 3 i2 (by simp [hg]) (by
      intro nd hnd
      simp [hg] at hnd
      rcases hnd with rfl | rfl | rfl
      · intro _; exact ⟨_, rfl⟩
      · intro _; exact ⟨_, rfl⟩
      · intro _; exact ⟨_, rfl⟩)
    refine ⟨(((s7.withMem m).withMem m1).withMem m2).withMem m3, ?_⟩
    rw [bind_ok ez]
    have hgr : (Var.gradM J (fun _ _ i => [1, 1, 13, 16].getD i 0) ⟨4⟩ : M W Unit) (s7.withMem m) =
        .ok ((), (((s7.withMem m).withMem m1).withMem m2).withMem m3) := by
      unfold Var.gradM
      rw [bind_ok (iz.getV (v := ⟨4⟩) (nd := ⟨29, [], [], .matmulVV, .plain⟩) ⟨by simp, by simp [hg]⟩), bind_ok ez1,
        bind_ok (get_ok _)]
      have : ((s7.withMem m).withMem m1).vhead - 1 = 3 + 1 := by
        show s7.vhead - 1 = _
        rw [i0.vhead, hg]
        rfl
      rw [this]
      unfold chainLoopM
      rw [bind_ok (i1.getV (v := ⟨4⟩) (nd := ⟨29, [], [], .matmulVV, .plain⟩) ⟨by simp, by simp [hg]⟩), bind_ok hch]
      exact refines_chainLoopM J _ 1 3 _ _ _ e3'
    rw [bind_ok hgr]
    have hr := i3.adjM hx .dummy
    have hx1 := i3.getV (v := ⟨1⟩) (nd := ⟨1, [], [], .dummy, .plain⟩) ⟨by simp, by simp [hg]⟩
    unfold Var.adj getIndexedAdj
    rw [bind_ok hx1, hr]
    congr 2
    have z1 : a 1 = 0 := hz _ hx
    have z19 : a 19 = 0 := hz ⟨19, [1, 1, 13, 16], [], .matmulVV, .mmVV [1] [7]⟩ (by simp [hg])
    simp [hg, sweep, Node.cl, Node.contrib, Node.args, contribPlain, cDot, addAll, upd, hv1, hv7, z1, z19, Arith.mul, Arith.add, Arith.one]

end Props
