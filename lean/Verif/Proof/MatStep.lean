import Verif.Proof.Steps

/-!
# Matrix products of tracked variables
-/

set_option linter.unusedSectionVars false

namespace Fz
open Arith

/-- column-major position -/
theorem flatMap_get {α : Type} (f : Nat → Nat → α) (m : Nat) : ∀ (n : Nat) {i j : Nat}, i < m → j < n →
    ((List.range n).flatMap fun j => (List.range m).map fun i => f i j)[j * m + i]? = some (f i j) := by
  intro n
  induction n with
  | zero => intro i j _ h; omega
  | succ n ih =>
    intro i j hi hj
    have hlen : ((List.range n).flatMap fun j => (List.range m).map fun i => f i j).length = n * m := by
      rw [List.length_flatMap]; simp
    rw [List.range_succ, List.flatMap_append]
    by_cases h : j < n
    · have : j * m + i < n * m := by
        calc j * m + i < j * m + m := by omega
          _ = (j + 1) * m := by rw [Nat.succ_mul]
          _ ≤ n * m := Nat.mul_le_mul_right m h
      rw [List.getElem?_append_left (by rw [hlen]; exact this)]
      exact ih hi h
    · have hjn : j = n := by omega
      subst hjn
      rw [List.getElem?_append_right (by rw [hlen]; omega), hlen]
      simp [hi]

theorem flat_get {α : Type} (a : Mat α) {i j : Nat} (hi : i < a.nrow) (hj : j < a.ncol) :
    a.flat[j * a.nrow + i]? = some (a.get i j) := flatMap_get a.get a.nrow a.ncol hi hj

theorem flat_map {α β : Type} (a : Mat α) (f : α → β) :
    a.flat.map f = (⟨a.nrow, a.ncol, fun i j => f (a.get i j)⟩ : Mat β).flat := by
  simp [Mat.flat, List.map_flatMap, Function.comp_def]

theorem cmRow_flat {α : Type} (a : Mat α) {i : Nat} (hi : i < a.nrow) :
    cmRow a.flat a.nrow a.ncol i = a.row i :=
  cmRow_eq fun _ hc => flat_get a hi hc

theorem cmCol_flat {α : Type} (a : Mat α) {j : Nat} (hj : j < a.ncol) :
    cmCol a.flat a.nrow j = a.col j := by
  have hl := Inv.flat_length a
  apply List.ext_getElem?
  intro k
  unfold cmCol Mat.col
  rw [List.getElem?_take, List.getElem?_map]
  by_cases hk : k < a.nrow
  · rw [if_pos hk, List.getElem?_drop, flat_get a hk hj, List.getElem?_range hk]
    rfl
  · rw [if_neg hk, List.getElem?_eq_none (by simp; omega)]
    rfl

theorem KindOK.mono {R : Type} {bs bs' : List (Block R)} {nd : Node R} (h : KindOK bs nd)
    (hs : ∀ b ∈ bs, b ∈ bs') : KindOK bs' nd := by
  unfold KindOK at *
  split
  · trivial
  · rename_i r c hkd
    rw [hkd] at h
    obtain ⟨i, j, la, m, n, ids, lb, k, ids', h1, h2, h3, h4⟩ := h
    exact ⟨i, j, la, m, n, ids, lb, k, ids', h1, hs _ h2, hs _ h3, h4⟩
  · rename_i r c hkd
    rw [hkd] at h
    obtain ⟨i, j, la, m, n, ids, lb, k, ids', h1, h2, h3, h4⟩ := h
    exact ⟨i, j, la, m, n, ids, lb, k, ids', h1, hs _ h2, hs _ h3, h4⟩
  · rename_i r c hkd
    rw [hkd] at h
    obtain ⟨i, j, la, m, n, ids, lb, k, ids', h1, h2, h3, h4⟩ := h
    exact ⟨i, j, la, m, n, ids, lb, k, ids', h1, hs _ h2, hs _ h3, h4⟩

variable {W : Type} [Rep W ℝ] [LawfulRep W ℝ] {lf : Prop}
variable {E : Type} [NormedAddCommGroup E] [NormedSpace ℝ E]
variable {s s' s'' : St W} {g g' g'' : Graph ℝ} {val adj val' adj' val'' adj'' : Nat → ℝ}
  {D ε D' ε' D'' ε'' : Nat → E →L[ℝ] ℝ} {x0 : E}

/-- storing a block keeps the simulation -/
theorem Sim.pushB (h : Sim s g val adj D ε) {b : Block ℝ} (gr : Inv.GrownB s g val adj b s') :
    Sim s' (g.pushB b) val adj D ε := ⟨gr.inv, h.rules⟩

theorem Sim.pushB_grows {b : Block ℝ} (gr : Inv.GrownB s g val adj b s') :
    Grows lf s g val adj D ε s' (g.pushB b) val adj D ε b.len :=
  ⟨(Graph.Prefix.refl g).pushB b, fun _ _ => rfl, fun _ _ => rfl, fun _ _ => rfl, fun _ _ => rfl,
    fun nd hn => by simp [Graph.pushB] at hn, gr.keep, gr.head⟩

/-- the record of entry `(i, j)` -/
def mmNode (c : Chain) (la lb : Nat) (K : Nat → Nat → Kind ℝ) (hd i j : Nat) : Node ℝ :=
  ⟨hd, [i + 1, j + 1, la, lb], [], c, K i j⟩

/-- what is needed to create the record of entry `(i, j)` -/
structure EntryOK (x0 : E) (g : Graph ℝ) (val : Nat → ℝ) (D : Nat → E →L[ℝ] ℝ) (c : Chain) (la lb : Nat)
    (K : Nat → Nat → Kind ℝ) (f : Nat → Nat → ℝ) (φ : Nat → Nat → E → ℝ) (i j : Nat) : Prop where
  kind : ∀ hd, KindOK g.blocks (mmNode c la lb K hd i j)
  args : ∀ hd, ∀ p ∈ (mmNode c la lb K hd i j).args, ∃ nd ∈ g.nodes, nd.pos = p
  small : i < int32Max ∧ j < int32Max ∧ la ≤ int32Max ∧ lb ≤ int32Max
  value : f i j = φ i j x0
  coefs : ∃ coefs, (∀ hd (adj' : Nat → ℝ), (mmNode c la lb K hd i j).contrib val adj' =
      some (coefs.map fun k => adj' hd * k)) ∧
    HasFDerivAt (φ i j) (zsum coefs (mmNode c la lb K 0 i j).args D) x0

theorem mmNode_args {c : Chain} {la lb : Nat} {K : Nat → Nat → Kind ℝ} (hd hd' i j : Nat) :
    (mmNode c la lb K hd i j).args = (mmNode c la lb K hd' i j).args := rfl

theorem mmNode_contrib {c : Chain} {la lb : Nat} {K : Nat → Nat → Kind ℝ} {hd i j : Nat}
    {v v' a : Nat → ℝ} (hk : K i j ≠ .plain) (h : ∀ p ∈ (mmNode c la lb K hd i j).args, v' p = v p) :
    (mmNode c la lb K hd i j).contrib v' a = (mmNode c la lb K hd i j).contrib v a := by
  unfold Node.contrib Node.args mmNode at *
  cases hK : K i j with
  | plain => exact absurd hK hk
  | mmVV r c =>
    simp only [hK] at h ⊢
    rw [List.map_congr_left h]
  | mmVD r c => rfl
  | mmDV r c => rfl

theorem EntryOK.mono {c : Chain} {la lb : Nat} {K : Nat → Nat → Kind ℝ} {f : Nat → Nat → ℝ}
    {φ : Nat → Nat → E → ℝ} {i j n : Nat} (hk : K i j ≠ .plain) (iv : Inv s g val adj)
    (gr : Grows lf s g val adj D ε s' g' val' adj' D' ε' n)
    (h : EntryOK x0 g val D c la lb K f φ i j) : EntryOK x0 g' val' D' c la lb K f φ i j := by
  have hlt : ∀ p ∈ (mmNode c la lb K 0 i j).args, p < s.tape.head := by
    intro p hp
    obtain ⟨nd, hn, rfl⟩ := h.args 0 p hp
    exact iv.node_lt hn
  refine ⟨fun hd => (h.kind hd).mono fun b hb => gr.pre.blocks.subset hb, ?_, h.small, h.value, ?_⟩
  · intro hd p hp
    obtain ⟨nd, hn, e⟩ := h.args hd p hp
    exact ⟨nd, gr.pre.nodes.subset hn, e⟩
  · obtain ⟨coefs, h1, h2⟩ := h.coefs
    refine ⟨coefs, fun hd adj' => ?_, ?_⟩
    · rw [← h1 hd adj']
      exact mmNode_contrib hk fun p hp => gr.val p (hlt p hp)
    · rw [zsum_congr _ _ fun p hp => gr.dd p (hlt p hp)]
      exact h2

theorem matLoop_step {c : Chain} {la lb : Nat} {K : Nat → Nat → Kind ℝ} {f : Nat → Nat → ℝ}
    {φ : Nat → Nat → E → ℝ} (hK : ∀ i j, K i j ≠ .plain) : ∀ (ps : List (Nat × Nat)) {s : St W}
    {g : Graph ℝ} {val adj : Nat → ℝ} {D ε : Nat → E →L[ℝ] ℝ}, Sim s g val adj D ε →
    (∀ p ∈ ps, EntryOK x0 g val D c la lb K f φ p.1 p.2) →
    s.tape.head + 10 * ps.length ≤ cap →
    ∃ vs s', (matmulLoop c la lb f ps : M W (List Var)) s = .ok (vs, s') ∧ vs.length = ps.length ∧
      ∃ g' val' adj' D' ε', Sim s' g' val' adj' D' ε' ∧
        Grows lf s g val adj D ε s' g' val' adj' D' ε' (10 * ps.length) ∧
        ∀ k (h1 : k < vs.length) (h2 : k < ps.length),
          Tracks x0 g' val' D' vs[k] (φ ps[k].1 ps[k].2) := by
  intro ps
  induction ps with
  | nil =>
    intro s g val adj D ε h _ _
    exact ⟨[], s, rfl, rfl, _, _, _, _, _, h, Grows.refl _ _ _ _ _ _, fun k h1 => by simp at h1⟩
  | cons p ps ih =>
    obtain ⟨i, j⟩ := p
    intro s g val adj D ε h he hcap
    have he0 := he (i, j) (by simp)
    simp only at he0
    simp only [List.length_cons] at hcap
    have hlen : (mmNode c la lb K s.tape.head i j).len = 10 := rfl
    obtain ⟨s1, e1, gr⟩ := h.inv.newOpId_ok (f i j) (nd := mmNode c la lb K s.tape.head i j)
      ⟨rfl, he0.args _, by
        intro o ho
        simp only [mmNode, List.mem_cons, List.not_mem_nil, or_false] at ho
        have := he0.small
        rcases ho with rfl | rfl | rfl | rfl <;> omega, he0.kind _⟩ rfl (by rw [hlen]; omega)
    obtain ⟨coefs, hc, hd⟩ := he0.coefs
    have hne : ∀ q ∈ (mmNode c la lb K s.tape.head i j).args, q ≠ s.tape.head := by
      intro q hq
      obtain ⟨nd, hn, rfl⟩ := he0.args _ q hq
      have := h.inv.node_lt hn; omega
    have hcon : ∀ adj' : Nat → ℝ, (mmNode c la lb K s.tape.head i j).contrib
        (upd val s.tape.head (f i j)) adj' = some (coefs.map fun k => adj' s.tape.head * k) := by
      intro adj'
      rw [← hc s.tape.head adj']
      exact mmNode_contrib (hK i j) fun q hq => upd_ne _ _ (hne q hq)
    have sim1 := h.push gr rfl (zsum coefs (mmNode c la lb K 0 i j).args D) 0 (by
      intro adj' l el
      rw [← Option.some.inj ((hcon adj').symm.trans el), zsum_smul, smul_zero, zero_add]; rfl)
    have gr1 := Sim.push_grows (lf := lf) (D := D) (ε := ε) gr rfl (zsum coefs (mmNode c la lb K 0 i j).args D)
      (Or.inl fun adj' => ⟨_, hcon adj'⟩)
    rw [hlen] at gr1
    have hh := gr1.head
    obtain ⟨vs, s2, e2, hl, g2, v2, a2, D2, ε2, sim2, gr2, tr⟩ := ih sim1
      (fun q hq => (he q (by simp [hq])).mono (hK _ _) h.inv gr1) (by omega)
    have hvh := h.inv.vhead
    have t0 : Tracks x0 (g.push (mmNode c la lb K s.tape.head i j))
        (upd val (mmNode c la lb K s.tape.head i j).pos (f i j))
        (updV D (mmNode c la lb K s.tape.head i j).pos (zsum coefs (mmNode c la lb K 0 i j).args D))
        ⟨s.vhead⟩ (φ i j) := by
      refine ⟨?_, ?_, ?_⟩
      · rw [hvh]; exact Graph.has_last g _
      · rw [hvh, Graph.pos_last, upd_self]; exact he0.value.symm
      · rw [hvh, Graph.pos_last, updV_self]; exact hd
    refine ⟨⟨s.vhead⟩ :: vs, s2, ?_, by simp [hl], g2, v2, a2, D2, ε2, sim2, ?_, ?_⟩
    · unfold matmulLoop
      have e1' : (do let w ← newVarOpId (f i j) [i + 1, j + 1, la, lb]; w.setChain c; pure w : M W Var) s
        = .ok (⟨s.vhead⟩, s1) := e1
      rw [show (do
        let s ← newVarOpId (f i j) [i + 1, j + 1, la, lb]
        s.setChain c
        let ss ← matmulLoop c la lb f ps
        pure (s :: ss) : M W (List Var)) = ((do
          let w ← newVarOpId (f i j) [i + 1, j + 1, la, lb]; w.setChain c; pure w : M W Var) >>= fun v => do
            let ss ← matmulLoop c la lb f ps
            pure (v :: ss)) by simp only [bind_assoc, pure_bind]]
      rw [bind_ok e1', bind_ok e2]
      rfl
    · have := gr1.trans gr2 sim1.inv
      rw [show 10 * ((i, j) :: ps).length = 10 + 10 * ps.length by simp only [List.length_cons]; omega]
      exact this
    · intro k h1 h2
      cases k with
      | zero => exact t0.mono sim1.inv gr2
      | succ k => exact tr k (by simpa using h1) (by simpa using h2)

/-! ## the three products -/

theorem matVals_ok (h : Inv s g val adj) {a : Mat Var} (ha : Inv.MatHas g a) :
    (matVals a : M W (Mat ℝ)) s = .ok (⟨a.nrow, a.ncol,
      fun i j => (a.flat.map fun v => val (g.pos v)).getD (j * a.nrow + i) zero⟩, s) := by
  unfold matVals
  rw [bind_ok (h.varVals ha.flat)]
  rfl

theorem matPairs_mem {m n : Nat} {p : Nat × Nat} (h : p ∈ matPairs m n) : p.1 < m ∧ p.2 < n := by
  simp only [matPairs, List.mem_flatMap, List.mem_map, List.mem_range] at h
  obtain ⟨j, hj, i, hi, rfl⟩ := h
  exact ⟨hi, hj⟩

theorem matPairs_length (m n : Nat) : (matPairs m n).length = m * n := by
  unfold matPairs
  rw [List.length_flatMap]
  simp [Nat.mul_comm]

/-- a matrix of tracked variables -/
def MatTracks (x0 : E) (g : Graph ℝ) (val : Nat → ℝ) (D : Nat → E →L[ℝ] ℝ) (a : Mat Var)
    (F : Nat → Nat → E → ℝ) : Prop :=
  ∀ i < a.nrow, ∀ j < a.ncol, Tracks x0 g val D (a.get i j) (F i j)

theorem MatTracks.has {a : Mat Var} {F : Nat → Nat → E → ℝ} (h : MatTracks x0 g val D a F) :
    Inv.MatHas g a := fun i hi j hj => (h i hi j hj).has

theorem MatTracks.mono {a : Mat Var} {F : Nat → Nat → E → ℝ} {n : Nat} (i : Inv s g val adj)
    (gr : Grows lf s g val adj D ε s' g' val' adj' D' ε' n) (h : MatTracks x0 g val D a F) :
    MatTracks x0 g' val' D' a F := fun k hk j hj => (h k hk j hj).mono i gr

/-- the matrix of tape positions -/
def posMat (g : Graph ℝ) (a : Mat Var) : Mat Nat := ⟨a.nrow, a.ncol, fun i j => g.pos (a.get i j)⟩

theorem flat_pos (g : Graph ℝ) (a : Mat Var) : a.flat.map g.pos = (posMat g a).flat := flat_map a g.pos

theorem matVals_get (h : Inv s g val adj) {a : Mat Var} {F : Nat → Nat → E → ℝ}
    (ha : MatTracks x0 g val D a F) {i j : Nat} (hi : i < a.nrow) (hj : j < a.ncol) :
    (a.flat.map fun v => val (g.pos v)).getD (j * a.nrow + i) zero = F i j x0 := by
  rw [List.getD_eq_getElem?_getD, List.getElem?_map, flat_get a hi hj, (ha i hi j hj).value]
  rfl

/-- results of a matrix product -/
def StepMany (lf : Prop) (x0 : E) (s : St W) (g : Graph ℝ) (val adj : Nat → ℝ) (D ε : Nat → E →L[ℝ] ℝ) (s' : St W)
    (words : Nat) (vs : List Var) (n : Nat) (φ : (k : Nat) → k < n → E → ℝ) : Prop :=
  vs.length = n ∧ ∃ g' val' adj' D' ε', Sim s' g' val' adj' D' ε' ∧
    Grows lf s g val adj D ε s' g' val' adj' D' ε' words ∧
    ∀ k (h1 : k < vs.length) (h2 : k < n), Tracks x0 g' val' D' vs[k] (φ k h2)

theorem cap_le_int32 : cap ≤ int32Max := by decide

theorem step_matmulVV (h : Sim s g val adj D ε) {a b : Mat Var} {F G : Nat → Nat → E → ℝ}
    (ta : MatTracks x0 g val D a F) (tb : MatTracks x0 g val D b G) (hab : a.ncol = b.nrow)
    (h1 : a.nrow ≤ int32Max) (h2 : a.ncol ≤ int32Max) (h3 : b.ncol ≤ int32Max)
    (hcap : s.tape.head + ((2 + a.nrow * a.ncol) + (2 + b.nrow * b.ncol) + 10 * (a.nrow * b.ncol)) ≤ cap) :
    ∃ vs s', (matmulVV a b : M W (List Var)) s = .ok (vs, s') ∧
      StepMany lf x0 s g val adj D ε s'
        ((2 + a.nrow * a.ncol) + (2 + b.nrow * b.ncol) + 10 * (a.nrow * b.ncol)) vs
        (matPairs a.nrow b.ncol).length (fun k hk x => ((List.range a.ncol).map fun l =>
          F (matPairs a.nrow b.ncol)[k].1 l x * G l (matPairs a.nrow b.ncol)[k].2 x).sum) := by
  have hpl := matPairs_length a.nrow b.ncol
  obtain ⟨s1, e1, gr1⟩ := h.inv.pushVarMat_ok ta.has h1 h2 (by omega)
  have sim1 := h.pushB gr1
  have gg1 := Sim.pushB_grows (lf := lf) (D := D) (ε := ε) gr1
  have hh1 := gr1.head
  simp only [Block.len, List.length_map, Inv.flat_length] at hh1
  have tb1 := tb.mono h.inv gg1
  obtain ⟨s2, e2, gr2⟩ := gr1.inv.pushVarMat_ok tb1.has (by omega) h3 (by omega)
  have sim2 := sim1.pushB gr2
  have gg2 := Sim.pushB_grows (lf := lf) (D := D) (ε := ε) gr2
  have hh2 := gr2.head
  simp only [Block.len, List.length_map, Inv.flat_length] at hh2
  have gg := gg1.trans gg2 gr1.inv
  have ta2 := ta.mono h.inv gg
  have tb2 := tb.mono h.inv gg
  have ci := cap_le_int32
  rw [flat_pos] at gr1 sim1 gg1 gr2 sim2 gg2 gg ta2 tb2 tb1
  rw [flat_pos] at gr2 sim2 gg2 gg ta2 tb2
  have eav := matVals_ok gr2.inv ta2.has
  have ebv := matVals_ok gr2.inv tb2.has
  set g2 := (g.pushB (.vb s.tape.head a.nrow a.ncol (posMat g a).flat)).pushB
    (.vb s1.tape.head b.nrow b.ncol
      (posMat (g.pushB (.vb s.tape.head a.nrow a.ncol (posMat g a).flat)) b).flat) with hg2
  have hpa : posMat g2 a = posMat g a := rfl
  set av : Mat ℝ := ⟨a.nrow, a.ncol,
      fun i j => (a.flat.map fun v => val (g2.pos v)).getD (j * a.nrow + i) zero⟩ with hav
  set bv : Mat ℝ := ⟨b.nrow, b.ncol,
      fun i j => (b.flat.map fun v => val (g2.pos v)).getD (j * b.nrow + i) zero⟩ with hbv
  obtain ⟨vs, s3, e3, hl, g3, v3, a3, D3, ε3, sim3, gg3, tr⟩ := matLoop_step (lf := lf) (x0 := x0)
    (c := .matmulVV) (la := s.tape.head) (lb := s1.tape.head)
    (K := fun i j => .mmVV ((posMat g2 a).row i) ((posMat g2 b).col j)) (f := matmulD av bv)
    (φ := fun i j x => ((List.range a.ncol).map fun l => F i l x * G l j x).sum)
    (by intros; simp) (matPairs a.nrow b.ncol) sim2
    (by
      intro p hp
      obtain ⟨hi, hj⟩ := matPairs_mem hp
      have hrow : ∀ q ∈ (posMat g2 a).row p.1, ∃ nd ∈ g2.nodes, nd.pos = q := by
        intro q hq
        simp only [Mat.row, posMat, List.mem_map, List.mem_range] at hq
        obtain ⟨k, hk, rfl⟩ := hq
        exact (ta2 p.1 hi k hk).has.mem_pos
      have hcol : ∀ q ∈ (posMat g2 b).col p.2, ∃ nd ∈ g2.nodes, nd.pos = q := by
        intro q hq
        simp only [Mat.col, posMat, List.mem_map, List.mem_range] at hq
        obtain ⟨k, hk, rfl⟩ := hq
        exact (tb2 k hk p.2 hj).has.mem_pos
      refine ⟨?_, ?_, ?_, ?_, ?_⟩
      · intro hd
        refine ⟨p.1, p.2, s.tape.head, a.nrow, a.ncol, (posMat g a).flat, s1.tape.head, b.ncol,
          (posMat g2 b).flat, rfl, by simp [hg2, Graph.pushB], ?_, hi, hj, ?_, ?_⟩
        · rw [hab]; exact List.mem_append_right _ (List.mem_singleton.mpr rfl)
        · rw [hpa]; exact (cmRow_flat (posMat g a) hi).symm
        · rw [hab]; exact (cmCol_flat (posMat g2 b) hj).symm
      · intro hd q hq
        rcases List.mem_append.mp hq with hq | hq
        · exact hrow q hq
        · exact hcol q hq
      · omega
      · unfold matmulD
        have r1 : av.row p.1 = (List.range a.ncol).map fun l => F p.1 l x0 := by
          refine List.map_congr_left fun l hl => ?_
          exact matVals_get gr2.inv ta2 hi (List.mem_range.mp hl)
        have r2 : bv.col p.2 = (List.range a.ncol).map fun l => G l p.2 x0 := by
          rw [hab]
          refine List.map_congr_left fun l hl => ?_
          exact matVals_get gr2.inv tb2 (List.mem_range.mp hl) hj
        rw [r1, r2, fmul_real]
      · have r1 : ((posMat g2 a).row p.1).map val = (List.range a.ncol).map fun l => F p.1 l x0 := by
          simp only [Mat.row, posMat, List.map_map]
          exact List.map_congr_left fun l hl => ((ta2 p.1 hi l (List.mem_range.mp hl)).value).symm
        have r2 : ((posMat g2 b).col p.2).map val = (List.range a.ncol).map fun l => G l p.2 x0 := by
          simp only [Mat.col, posMat, List.map_map]
          rw [hab]
          exact List.map_congr_left fun l hl => ((tb2 l (List.mem_range.mp hl) p.2 hj).value).symm
        have l1 : ((posMat g2 a).row p.1).length = a.ncol := by simp [Mat.row, posMat]
        have l2 : ((posMat g2 b).col p.2).length = a.ncol := by simp [Mat.col, posMat, hab]
        refine ⟨((List.range a.ncol).map fun l => G l p.2 x0) ++
          ((List.range a.ncol).map fun l => F p.1 l x0), ?_, ?_⟩
        · intro hd adj'
          show (if _ then _ else _) = _
          rw [if_pos ⟨rfl, by rw [l1, l2]⟩]
          congr 1
          unfold cDot
          rw [List.map_append, r1, r2, l1, List.drop_left' (by simp), List.take_left' (by simp),
            List.take_of_length_le (by simp), List.map_append]
          rfl
        · show HasFDerivAt _ (zsum _ ((posMat g2 a).row p.1 ++ (posMat g2 b).col p.2) D) x0
          rw [zsum_append _ _ _ _ _ (by rw [l1]; simp)]
          have e1 : (posMat g2 a).row p.1 = (List.range a.ncol).map fun l => g2.pos (a.get p.1 l) := rfl
          have e2 : (posMat g2 b).col p.2 = (List.range a.ncol).map fun l => g2.pos (b.get l p.2) := by
            rw [hab]; rfl
          rw [e1, e2]
          refine hasFDerivAt_dot (F p.1) (fun l => G l p.2) _ _ (List.range a.ncol) ?_ ?_
          · intro l hl; exact (ta2 p.1 hi l (List.mem_range.mp hl)).deriv
          · intro l hl; exact (tb2 l (by rw [← hab]; exact List.mem_range.mp hl) p.2 hj).deriv)
    (by rw [hpl]; omega)
  refine ⟨vs, s3, ?_, hl, g3, v3, a3, D3, ε3, sim3, ?_, tr⟩
  · unfold matmulVV
    rw [bind_ok e1, bind_ok e2, bind_ok eav, bind_ok ebv, if_pos hab]
    exact e3
  · have := gg.trans gg3 sim2.inv
    simp only [Block.len, Inv.flat_length] at this
    rw [hpl] at this
    exact this

theorem step_matmulVD (h : Sim s g val adj D ε) {a : Mat Var} {b : Mat ℝ} {F : Nat → Nat → E → ℝ}
    (ta : MatTracks x0 g val D a F) (hab : a.ncol = b.nrow)
    (h1 : a.nrow ≤ int32Max) (h2 : a.ncol ≤ int32Max) (h3 : b.ncol ≤ int32Max)
    (hcap : s.tape.head + ((2 + a.nrow * a.ncol) + (2 + 2 * (b.nrow * b.ncol)) + 10 * (a.nrow * b.ncol)) ≤ cap) :
    ∃ vs s', (matmulVD a b : M W (List Var)) s = .ok (vs, s') ∧
      StepMany lf x0 s g val adj D ε s'
        ((2 + a.nrow * a.ncol) + (2 + 2 * (b.nrow * b.ncol)) + 10 * (a.nrow * b.ncol)) vs
        (matPairs a.nrow b.ncol).length (fun k hk x => ((List.range a.ncol).map fun l =>
          F (matPairs a.nrow b.ncol)[k].1 l x * b.get l (matPairs a.nrow b.ncol)[k].2).sum) := by
  have hpl := matPairs_length a.nrow b.ncol
  obtain ⟨s1, e1, gr1⟩ := h.inv.pushVarMat_ok ta.has h1 h2 (by omega)
  have sim1 := h.pushB gr1
  have gg1 := Sim.pushB_grows (lf := lf) (D := D) (ε := ε) gr1
  have hh1 := gr1.head
  simp only [Block.len, List.length_map, Inv.flat_length] at hh1
  obtain ⟨s2, e2, gr2⟩ := gr1.inv.pushDataMat_ok (a := b) (by omega) h3 (by omega)
  have sim2 := sim1.pushB gr2
  have gg2 := Sim.pushB_grows (lf := lf) (D := D) (ε := ε) gr2
  have hh2 := gr2.head
  simp only [Block.len, Inv.flat_length] at hh2
  have gg := gg1.trans gg2 gr1.inv
  have ta2 := ta.mono h.inv gg
  have ci := cap_le_int32
  rw [flat_pos] at gr1 sim1 gg1 gr2 sim2 gg2 gg ta2
  have eav := matVals_ok gr2.inv ta2.has
  set g2 := (g.pushB (.vb s.tape.head a.nrow a.ncol (posMat g a).flat)).pushB
    (.db s1.tape.head b.nrow b.ncol b.flat) with hg2
  have hpa : posMat g2 a = posMat g a := rfl
  set av : Mat ℝ := ⟨a.nrow, a.ncol,
      fun i j => (a.flat.map fun v => val (g2.pos v)).getD (j * a.nrow + i) zero⟩ with hav
  obtain ⟨vs, s3, e3, hl, g3, v3, a3, D3, ε3, sim3, gg3, tr⟩ := matLoop_step (lf := lf) (x0 := x0)
    (c := .matmulVD) (la := s.tape.head) (lb := s1.tape.head)
    (K := fun i j => .mmVD ((posMat g2 a).row i) (b.col j)) (f := matmulD av b)
    (φ := fun i j x => ((List.range a.ncol).map fun l => F i l x * b.get l j).sum)
    (by intros; simp) (matPairs a.nrow b.ncol) sim2
    (by
      intro p hp
      obtain ⟨hi, hj⟩ := matPairs_mem hp
      have l1 : ((posMat g2 a).row p.1).length = a.ncol := by simp [Mat.row, posMat]
      have l2 : (b.col p.2).length = a.ncol := by simp [Mat.col, hab]
      refine ⟨?_, ?_, ?_, ?_, ?_⟩
      · intro hd
        refine ⟨p.1, p.2, s.tape.head, a.nrow, a.ncol, (posMat g a).flat, s1.tape.head, b.ncol,
          b.flat, rfl, by simp [hg2, Graph.pushB], ?_, hi, hj, ?_, ?_⟩
        · rw [hab]; simp [hg2, Graph.pushB]
        · rw [hpa]; exact (cmRow_flat (posMat g a) hi).symm
        · rw [hab]; exact (cmCol_flat b hj).symm
      · intro hd q hq
        have hq' : q ∈ (posMat g2 a).row p.1 := hq
        simp only [Mat.row, posMat, List.mem_map, List.mem_range] at hq'
        obtain ⟨k, hk, rfl⟩ := hq'
        exact (ta2 p.1 hi k hk).has.mem_pos
      · omega
      · unfold matmulD
        have r1 : av.row p.1 = (List.range a.ncol).map fun l => F p.1 l x0 := by
          refine List.map_congr_left fun l hl => ?_
          exact matVals_get gr2.inv ta2 hi (List.mem_range.mp hl)
        have r2 : b.col p.2 = (List.range a.ncol).map fun l => b.get l p.2 := by
          rw [hab]; rfl
        rw [r1, r2, fmul_real]
      · refine ⟨b.col p.2, ?_, ?_⟩
        · intro hd adj'
          show (if _ then _ else _) = _
          rw [if_pos ⟨rfl, by rw [l1, l2]⟩]
          rfl
        · show HasFDerivAt _ (zsum _ ((posMat g2 a).row p.1) D) x0
          have e1 : (posMat g2 a).row p.1 = (List.range a.ncol).map fun l => g2.pos (a.get p.1 l) := rfl
          have e2 : b.col p.2 = (List.range a.ncol).map fun l => b.get l p.2 := by
            rw [hab]; rfl
          rw [e1, e2]
          exact hasFDerivAt_zsum _ _ _ _ fun l hl =>
            (ta2 p.1 hi l (List.mem_range.mp hl)).deriv.mul_const _)
    (by rw [hpl]; omega)
  refine ⟨vs, s3, ?_, hl, g3, v3, a3, D3, ε3, sim3, ?_, tr⟩
  · unfold matmulVD
    rw [bind_ok e1, bind_ok e2, bind_ok eav, if_pos hab]
    exact e3
  · have := gg.trans gg3 sim2.inv
    simp only [Block.len, Inv.flat_length] at this
    rw [hpl] at this
    exact this

theorem step_matmulDV (h : Sim s g val adj D ε) {a : Mat ℝ} {b : Mat Var} {G : Nat → Nat → E → ℝ}
    (tb : MatTracks x0 g val D b G) (hab : a.ncol = b.nrow)
    (h1 : a.nrow ≤ int32Max) (h2 : a.ncol ≤ int32Max) (h3 : b.ncol ≤ int32Max)
    (hcap : s.tape.head + ((2 + 2 * (a.nrow * a.ncol)) + (2 + b.nrow * b.ncol) + 10 * (a.nrow * b.ncol)) ≤ cap) :
    ∃ vs s', (matmulDV a b : M W (List Var)) s = .ok (vs, s') ∧
      StepMany lf x0 s g val adj D ε s'
        ((2 + 2 * (a.nrow * a.ncol)) + (2 + b.nrow * b.ncol) + 10 * (a.nrow * b.ncol)) vs
        (matPairs a.nrow b.ncol).length (fun k hk x => ((List.range a.ncol).map fun l =>
          a.get (matPairs a.nrow b.ncol)[k].1 l * G l (matPairs a.nrow b.ncol)[k].2 x).sum) := by
  have hpl := matPairs_length a.nrow b.ncol
  obtain ⟨s1, e1, gr1⟩ := h.inv.pushDataMat_ok (a := a) h1 h2 (by omega)
  have sim1 := h.pushB gr1
  have gg1 := Sim.pushB_grows (lf := lf) (D := D) (ε := ε) gr1
  have hh1 := gr1.head
  simp only [Block.len, Inv.flat_length] at hh1
  have tb1 := tb.mono h.inv gg1
  obtain ⟨s2, e2, gr2⟩ := gr1.inv.pushVarMat_ok tb1.has (by omega) h3 (by omega)
  have sim2 := sim1.pushB gr2
  have gg2 := Sim.pushB_grows (lf := lf) (D := D) (ε := ε) gr2
  have hh2 := gr2.head
  simp only [Block.len, List.length_map, Inv.flat_length] at hh2
  have gg := gg1.trans gg2 gr1.inv
  have tb2 := tb.mono h.inv gg
  have ci := cap_le_int32
  rw [flat_pos] at gr2 sim2 gg2 gg tb2
  have ebv := matVals_ok gr2.inv tb2.has
  set g2 := (g.pushB (.db s.tape.head a.nrow a.ncol a.flat)).pushB
    (.vb s1.tape.head b.nrow b.ncol (posMat (g.pushB (.db s.tape.head a.nrow a.ncol a.flat)) b).flat) with hg2
  set bv : Mat ℝ := ⟨b.nrow, b.ncol,
      fun i j => (b.flat.map fun v => val (g2.pos v)).getD (j * b.nrow + i) zero⟩ with hbv
  obtain ⟨vs, s3, e3, hl, g3, v3, a3, D3, ε3, sim3, gg3, tr⟩ := matLoop_step (lf := lf) (x0 := x0)
    (c := .matmulDV) (la := s.tape.head) (lb := s1.tape.head)
    (K := fun i j => .mmDV (a.row i) ((posMat g2 b).col j)) (f := matmulD a bv)
    (φ := fun i j x => ((List.range a.ncol).map fun l => a.get i l * G l j x).sum)
    (by intros; simp) (matPairs a.nrow b.ncol) sim2
    (by
      intro p hp
      obtain ⟨hi, hj⟩ := matPairs_mem hp
      have l1 : (a.row p.1).length = a.ncol := by simp [Mat.row]
      have l2 : ((posMat g2 b).col p.2).length = a.ncol := by simp [Mat.col, posMat, hab]
      refine ⟨?_, ?_, ?_, ?_, ?_⟩
      · intro hd
        refine ⟨p.1, p.2, s.tape.head, a.nrow, a.ncol, a.flat, s1.tape.head, b.ncol,
          (posMat g2 b).flat, rfl, by simp [hg2, Graph.pushB], ?_, hi, hj, ?_, ?_⟩
        · rw [hab]; exact List.mem_append_right _ (List.mem_singleton.mpr rfl)
        · exact (cmRow_flat a hi).symm
        · rw [hab]; exact (cmCol_flat (posMat g2 b) hj).symm
      · intro hd q hq
        have hq' : q ∈ (posMat g2 b).col p.2 := hq
        simp only [Mat.col, posMat, List.mem_map, List.mem_range] at hq'
        obtain ⟨k, hk, rfl⟩ := hq'
        exact (tb2 k hk p.2 hj).has.mem_pos
      · omega
      · unfold matmulD
        have r1 : a.row p.1 = (List.range a.ncol).map fun l => a.get p.1 l := rfl
        have r2 : bv.col p.2 = (List.range a.ncol).map fun l => G l p.2 x0 := by
          rw [hab]
          refine List.map_congr_left fun l hl => ?_
          exact matVals_get gr2.inv tb2 (List.mem_range.mp hl) hj
        rw [r1, r2, fmul_real]
      · refine ⟨a.row p.1, ?_, ?_⟩
        · intro hd adj'
          show (if _ then _ else _) = _
          rw [if_pos ⟨rfl, by rw [l1, l2]⟩]
          rfl
        · show HasFDerivAt _ (zsum _ ((posMat g2 b).col p.2) D) x0
          have e1 : a.row p.1 = (List.range a.ncol).map fun l => a.get p.1 l := rfl
          have e2 : (posMat g2 b).col p.2 = (List.range a.ncol).map fun l => g2.pos (b.get l p.2) := by
            rw [hab]; rfl
          rw [e1, e2]
          exact hasFDerivAt_zsum _ _ _ _ fun l hl =>
            (tb2 l (by rw [← hab]; exact List.mem_range.mp hl) p.2 hj).deriv.const_mul _)
    (by rw [hpl]; omega)
  refine ⟨vs, s3, ?_, hl, g3, v3, a3, D3, ε3, sim3, ?_, tr⟩
  · unfold matmulDV
    rw [bind_ok e1, bind_ok e2, bind_ok ebv, if_pos hab]
    exact e3
  · have := gg.trans gg3 sim2.inv
    simp only [Block.len, Inv.flat_length] at this
    rw [hpl] at this
    exact this

end Fz
