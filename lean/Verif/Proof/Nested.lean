import Verif.Proof.OpSpec

/-!
# Matrix blocks, and nested tapes
-/

set_option linter.unusedSectionVars false

namespace Fz
variable {W R : Type} [Arith R] [Rep W R] [LawfulRep W R]
open Arith

namespace Inv
variable {s : St W} {g : Graph R} {val adj : Nat → R}

theorem wf_pushB {g : Graph R} {head : Nat} (wf : g.WF head) {b : Block R} (hl : b.loc = head)
    (hg : b.Good) (h1 : 1 ≤ head) : (g.pushB b).WF (head + b.len) := by
  have mem : ∀ {x : Block R}, x ∈ (g.pushB b).blocks → x ∈ g.blocks ∨ x = b := by
    intro x hx; simpa [Graph.pushB] using hx
  have mem' : ∀ {x : Block R}, x ∈ g.blocks → x ∈ (g.pushB b).blocks := by
    intro x hx; simp [Graph.pushB, hx]
  refine ⟨wf.sorted, ?_, wf.args, wf.opsSmall, ?_, ?_, ?_, ?_⟩
  · intro x hx
    have := wf.below x hx; omega
  · intro x hx
    have hk := wf.kinds x hx
    unfold KindOK at *
    split
    · trivial
    · rename_i r c hkd
      rw [hkd] at hk
      obtain ⟨i, j, la, m, n, ids, lb, k, ids', h1, h2, h3, h4⟩ := hk
      exact ⟨i, j, la, m, n, ids, lb, k, ids', h1, mem' h2, mem' h3, h4⟩
    · rename_i r c hkd
      rw [hkd] at hk
      obtain ⟨i, j, la, m, n, ids, lb, k, ids', h1, h2, h3, h4⟩ := hk
      exact ⟨i, j, la, m, n, ids, lb, k, ids', h1, mem' h2, mem' h3, h4⟩
    · rename_i r c hkd
      rw [hkd] at hk
      obtain ⟨i, j, la, m, n, ids, lb, k, ids', h1, h2, h3, h4⟩ := hk
      exact ⟨i, j, la, m, n, ids, lb, k, ids', h1, mem' h2, mem' h3, h4⟩
  · intro x hx
    rcases mem hx with hx | rfl
    · have := wf.bbelow x hx; omega
    · omega
  · intro x hx
    rcases mem hx with hx | rfl
    · exact wf.bgood x hx
    · exact hg
  · intro x hx nd hn
    rcases mem hx with hx | rfl
    · exact wf.bdisj x hx nd hn
    · have := (wf.below nd hn).2
      left; omega

theorem pushBlock_ok (h : Inv s g val adj) {t' : Tape W} {b : Block R}
    (ext : Tape.Ext s.tape t' b.words) (hl : b.loc = s.tape.head) (hg : b.Good) :
    Inv { s with tape := t' } (g.pushB b) val adj := by
  have hth : t'.head = s.tape.head + b.len := by rw [ext.head, words_len]
  refine ⟨ext.ok, ?_, h.vhead, h.vcap, h.vmax, h.vform, h.vdef, h.tab, ?_, ?_⟩
  · show (g.pushB b).WF t'.head
    rw [hth]; exact wf_pushB h.wf hl hg h.ok.head_pos
  · intro x hx
    show HasWords t'.mem _ _
    rw [ext.mem]
    refine (h.recs x hx).overlay_of_disjoint (Or.inl ?_)
    rw [Tape.recWords_length]
    exact (h.wf.below x hx).2
  · intro x hx
    show HasWords t'.mem _ _
    rw [ext.mem]
    have hx' : x ∈ g.blocks ∨ x = b := by simpa [Graph.pushB] using hx
    rcases hx' with hx' | rfl
    · refine (h.blks x hx').overlay_of_disjoint (Or.inl ?_)
      rw [words_len]
      exact (h.wf.bbelow x hx').2
    · rw [hl]; exact HasWords.overlay_self

/-- all entries of a matrix of variables are variables of the graph -/
def MatHas (g : Graph R) (a : Mat Var) : Prop := ∀ i < a.nrow, ∀ j < a.ncol, g.Has (a.get i j)

theorem MatHas.flat {a : Mat Var} (h : MatHas g a) : ∀ v ∈ a.flat, g.Has v := by
  intro v hv
  simp only [Mat.flat, List.mem_flatMap, List.mem_map, List.mem_range] at hv
  obtain ⟨j, hj, i, hi, rfl⟩ := hv
  exact h i hi j hj

theorem flat_length {α : Type} (a : Mat α) : a.flat.length = a.nrow * a.ncol := by
  unfold Mat.flat
  rw [List.length_flatMap]
  simp [Nat.mul_comm]

/-- result of storing a matrix block -/
structure GrownB (s : St W) (g : Graph R) (val adj : Nat → R) (b : Block R) (s' : St W) : Prop where
  inv : Inv s' (g.pushB b) val adj
  vhead : s'.vhead = s.vhead
  head : s'.tape.head = s.tape.head + b.len
  keep : Keep s s'

theorem pushVarMat_ok (h : Inv s g val adj) {a : Mat Var} (ha : MatHas g a) (hr : a.nrow ≤ int32Max)
    (hc : a.ncol ≤ int32Max) (hcap : s.tape.head + (2 + a.nrow * a.ncol) ≤ cap) :
    ∃ s', (pushVarMat a : M W Nat) s = .ok (s.tape.head, s') ∧
      GrownB s g val adj (.vb s.tape.head a.nrow a.ncol (a.flat.map g.pos)) s' := by
  obtain ⟨t', e, ext⟩ := Tape.pushIntArray_ok h.ok ([a.nrow, a.ncol] ++ a.flat.map g.pos)
    (by simp [flat_length]; omega)
  refine ⟨{ s with tape := t' }, ?_, ?_, rfl, ?_, ⟨rfl, rfl, rfl, fun _ _ => rfl, Nat.le_refl _,
      by rw [ext.head]; omega, fun p hp => by rw [ext.mem, overlay_lt hp], ext.size, Nat.le_refl _,
      fun _ _ => rfl, ext.snug, Or.inl rfl⟩⟩
  · unfold pushVarMat
    rw [bind_ok (h.varIdxs ha.flat)]
    exact pushTape_ok e
  · refine h.pushBlock_ok ext rfl ⟨by simp [flat_length], hr, hc, ?_⟩
    intro k hk
    simp only [List.mem_map] at hk
    obtain ⟨v, hv, rfl⟩ := hk
    have := (h.wf.pos_lt (ha.flat v hv)).2
    have := h.ok.head_le
    have := h.ok.size_le
    omega
  · show t'.head = _
    rw [ext.head]; simp [Block.len]; omega

theorem pushDataMat_ok (h : Inv s g val adj) {a : Mat R} (hr : a.nrow ≤ int32Max)
    (hc : a.ncol ≤ int32Max) (hcap : s.tape.head + (2 + 2 * (a.nrow * a.ncol)) ≤ cap) :
    ∃ s', (pushDataMat a : M W Nat) s = .ok (s.tape.head, s') ∧
      GrownB s g val adj (.db s.tape.head a.nrow a.ncol a.flat) s' := by
  obtain ⟨t1, e1, x1⟩ := Tape.pushIntArray_ok h.ok [a.nrow, a.ncol] (by simp; omega)
  obtain ⟨t2, e2, x2⟩ := Tape.pushRealArray_ok x1.ok a.flat (by
    rw [x1.head, flat_length]; simp; omega)
  have ext := x1.trans x2
  refine ⟨{ s with tape := t2 }, ?_, ?_, rfl, ?_, ⟨rfl, rfl, rfl, fun _ _ => rfl, Nat.le_refl _,
      by rw [ext.head]; omega, fun p hp => by rw [ext.mem, overlay_lt hp], ext.size, Nat.le_refl _,
      fun _ _ => rfl, ext.snug, Or.inl rfl⟩⟩
  · unfold pushDataMat
    rw [bind_ok (pushTape_ok e1), bind_ok (pushTape_ok (s := { s with tape := t1 }) e2)]
    rfl
  · exact h.pushBlock_ok (b := .db s.tape.head a.nrow a.ncol a.flat) ext rfl ⟨flat_length a, hr, hc⟩
  · show t2.head = _
    rw [ext.head]; simp [Block.len, Tape.realWords_length]; omega

/-- one entry of a matrix product -/
theorem newOpId_ok (h : Inv s g val adj) (x : R) {nd : Node R} (hc : CanPush g s.tape.head nd)
    (hd : nd.dops = []) (hcap : s.tape.head + nd.len ≤ cap) :
    ∃ s', (do let w ← newVarOpId x nd.ops; w.setChain nd.chain; pure w : M W Var) s =
        .ok (⟨s.vhead⟩, s') ∧ Grown s g val adj nd x s' := by
  obtain ⟨s1, s2, e1, e2, gr⟩ := h.create_ok (push := fun t => t.pushValOp x nd.ops) (v := x) hc hcap
    (by rw [hd]; exact Tape.pushValOp_ok h.ok x nd.ops (by simpa [Node.len, hd] using hcap))
  refine ⟨s2, ?_, gr⟩
  have e3 : (newVarOpId x nd.ops : M W Var) s = .ok (⟨s.vhead⟩, s1) := by
    unfold newVarOpId newVariValOp
    rw [bind_ok e1]
    rfl
  rw [bind_ok e3, bind_ok e2]
  rfl

end Inv

/-! ## nested tapes -/

theorem Tape.zeroLoop_ok (lo : Nat) : ∀ (n : Nat) (t : Tape W), 1 ≤ lo → lo + n ≤ t.size + 1 →
    t.zeroLoop lo n = .ok { t with mem := fun k => if lo ≤ k ∧ k < lo + n then Rep.ofNat 0 else t.mem k } := by
  intro n
  induction n with
  | zero =>
    intro t _ _
    have : (fun k => if lo ≤ k ∧ k < lo + 0 then Rep.ofNat 0 else t.mem k) = t.mem := by
      funext k; rw [if_neg (by omega)]
    rw [this]; rfl
  | succ n ih =>
    intro t h1 h2
    unfold Tape.zeroLoop
    rw [Tape.wr_ok (by omega) (by omega)]
    show Tape.zeroLoop _ lo n = _
    rw [ih _ h1 (by simp only; omega)]
    congr 2
    funext k
    simp only
    by_cases hk : lo ≤ k ∧ k < lo + n
    · rw [if_pos hk, if_pos (by omega)]
    · rw [if_neg hk]
      by_cases hk' : k = lo + n
      · rw [if_pos hk', if_pos (by omega)]
      · rw [if_neg hk', if_neg (by omega)]

/-- `begin_nested` -/
theorem beginNested_ok (s : St W) (h : s.level < maxNestedStack) :
    (beginNested : M W Unit) s = .ok ((), { s with
      level := s.level + 1
      nestVari := fun k => if k = s.level + 1 then s.vhead else s.nestVari k
      nestTape := fun k => if k = s.level + 1 then s.tape.head else s.nestTape k }) := by
  unfold beginNested
  simp only
  rw [if_pos (by omega)]

/-- changing only the nesting bookkeeping keeps the invariant -/
theorem Inv.nest {s : St W} {g : Graph R} {val adj : Nat → R} (h : Inv s g val adj) (l : Nat)
    (nv nt : Nat → Nat) : Inv { s with level := l, nestVari := nv, nestTape := nt } g val adj :=
  ⟨h.ok, h.wf, h.vhead, h.vcap, h.vmax, h.vform, h.vdef, h.tab, h.recs, h.blks⟩

/-- `g` starts with the records and blocks of `g0` -/
structure Graph.Prefix (g0 g : Graph R) : Prop where
  nodes : g0.nodes <+: g.nodes
  blocks : g0.blocks <+: g.blocks

theorem Graph.Prefix.refl (g : Graph R) : g.Prefix g := ⟨List.prefix_refl _, List.prefix_refl _⟩
theorem Graph.Prefix.push {g0 g : Graph R} (h : g0.Prefix g) (nd : Node R) : g0.Prefix (g.push nd) :=
  ⟨h.nodes.trans (List.prefix_append _ _), h.blocks⟩
theorem Graph.Prefix.pushB {g0 g : Graph R} (h : g0.Prefix g) (b : Block R) : g0.Prefix (g.pushB b) :=
  ⟨h.nodes, h.blocks.trans (List.prefix_append _ _)⟩
theorem Graph.Prefix.trans {a b c : Graph R} (h : a.Prefix b) (h' : b.Prefix c) : a.Prefix c :=
  ⟨h.nodes.trans h'.nodes, h.blocks.trans h'.blocks⟩

theorem Graph.Prefix.at {g0 g : Graph R} (h : g0.Prefix g) {v : Var} {nd : Node R} (hv : g0.At v nd) :
    g.At v nd := by
  refine ⟨hv.1, ?_⟩
  obtain ⟨t, ht⟩ := h.nodes
  have hlt := (List.getElem?_eq_some_iff.mp hv.2).1
  rw [← ht, List.getElem?_append_left hlt]
  exact hv.2

theorem Graph.Prefix.has {g0 g : Graph R} (h : g0.Prefix g) {v : Var} (hv : g0.Has v) : g.Has v := by
  obtain ⟨nd, h1, _⟩ := hv.at
  exact (h.at h1).has

theorem Graph.Prefix.pos {g0 g : Graph R} (h : g0.Prefix g) {v : Var} (hv : g0.Has v) :
    g.pos v = g0.pos v := by
  obtain ⟨nd, h1, h2⟩ := hv.at
  rw [(h.at h1).pos_eq, h2]

/-- `end_nested`: the state is cut back to the graph `g0` that was there at `begin_nested` -/
theorem endNested_ok {s : St W} {g g0 : Graph R} {val adj : Nat → R} (h : Inv s g val adj)
    (hp : g0.Prefix g) {lo : Nat} (hwf : g0.WF lo) (h1 : 1 ≤ lo) (h2 : lo ≤ s.tape.head)
    (hfull : s.tape.head ≤ s.tape.size) (hl0 : 0 < s.level) (hl : s.level ≤ maxNestedStack)
    (ht : s.nestTape s.level = lo) (hv : s.nestVari s.level = g0.nodes.length + 1) :
    ∃ s', (endNested : M W Unit) s = .ok ((), s') ∧ Inv s' g0 val adj ∧
      s'.level = s.level - 1 ∧ s'.tape.head = lo ∧ s'.tape.size = s.tape.size ∧
      s'.vhead = g0.nodes.length + 1 ∧ s'.nVaris = s.nVaris ∧ s'.varis = s.varis ∧
      (∀ k, k ≠ s.level → s'.nestTape k = s.nestTape k ∧ s'.nestVari k = s.nestVari k) := by
  have hz := Tape.zeroLoop_ok lo (s.tape.head + 1 - lo) s.tape h1 (by omega)
  refine ⟨⟨g0.nodes.length + 1, s.nVaris, s.varis,
    ⟨lo, s.tape.size, fun k => if lo ≤ k ∧ k < lo + (s.tape.head + 1 - lo) then Rep.ofNat 0
      else s.tape.mem k⟩,
    fun k => if k = s.level then 0 else s.nestTape k,
    fun k => if k = s.level then 0 else s.nestVari k, s.level - 1⟩, ?_, ?_, rfl, rfl, rfl, rfl, rfl,
    rfl, ?_⟩
  · unfold endNested
    rw [bind_ok (get_ok s), if_pos hl0]
    have r1 : (rdNest s.nestTape s.level : M W Nat) s = .ok (lo, s) := by
      unfold rdNest; rw [if_pos ⟨hl0, hl⟩, ht]; rfl
    have r2 : (rdNest s.nestVari s.level : M W Nat) s = .ok (g0.nodes.length + 1, s) := by
      unfold rdNest; rw [if_pos ⟨hl0, hl⟩, hv]; rfl
    rw [bind_ok r1, bind_ok r2, bind_ok (modTape_ok hz)]
    rfl
  · have hmem : ∀ k, k < lo → (if lo ≤ k ∧ k < lo + (s.tape.head + 1 - lo) then (Rep.ofNat 0 : W)
        else s.tape.mem k) = s.tape.mem k := fun k hk => by rw [if_neg (by omega)]
    have hsub : ∀ nd ∈ g0.nodes, nd ∈ g.nodes := fun nd hn => hp.nodes.subset hn
    have hsubB : ∀ b ∈ g0.blocks, b ∈ g.blocks := fun b hb => hp.blocks.subset hb
    have hlen := hp.nodes.length_le
    have hvh := h.vhead
    refine ⟨⟨h1, by simp only; omega, h.ok.size_le, ?_, h.ok.form⟩, hwf, rfl, ?_, h.vmax, h.vform, h.vdef, ?_, ?_, ?_⟩
    · intro i hi
      simp only at hi ⊢
      by_cases hk : lo ≤ i ∧ i < lo + (s.tape.head + 1 - lo)
      · rw [if_pos hk]
      · rw [if_neg hk]
        exact h.ok.zero i (by omega)
    · have := h.vcap
      simp only; omega
    · intro k nd hk
      have hlt := (List.getElem?_eq_some_iff.mp hk).1
      obtain ⟨t, ht⟩ := hp.nodes
      refine h.tab k nd ?_
      rw [← ht, List.getElem?_append_left hlt]
      exact hk
    · intro nd hn
      refine (h.recs nd (hsub nd hn)).congr ?_
      intro k _ hk
      rw [Tape.recWords_length] at hk
      have := (hwf.below nd hn).2
      simp only [Node.len] at this
      exact hmem k (by omega)
    · intro b hb
      refine (h.blks b (hsubB b hb)).congr ?_
      intro k _ hk
      rw [Inv.words_len] at hk
      have := (hwf.bbelow b hb).2
      exact hmem k (by omega)
  · intro k hk
    simp [hk]

/-- a used tape is not exactly full unless its length is an initial size times a power of two -/
theorem Tape.OK.not_full {t : Tape W} (h : t.OK) (h1 : 1 < t.head)
    (hne : ∀ k, t.head ≠ initTapeSize * 2 ^ k + 1) : t.head ≤ t.size := by
  have := h.head_le
  by_contra hc
  have he : t.head = t.size + 1 := by omega
  rcases h.form with f | ⟨k, f⟩
  · omega
  · exact hne k (by rw [he, f])

end Fz
