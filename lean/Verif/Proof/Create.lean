import Verif.Proof.ChainStep

/-!
# Creation of variables and the chain-pointer update
-/

set_option linter.unusedSectionVars false

namespace Fz
variable {W R : Type} [Arith R] [Rep W R] [LawfulRep W R]
open Arith

/-- append a record -/
def Graph.push (g : Graph R) (nd : Node R) : Graph R := { g with nodes := g.nodes ++ [nd] }
/-- append a block -/
def Graph.pushB (g : Graph R) (b : Block R) : Graph R := { g with blocks := g.blocks ++ [b] }
/-- change the chain pointer of entry `k` -/
def Graph.setChain (g : Graph R) (k : Nat) (c : Chain) : Graph R :=
  { g with nodes := g.nodes.modify k fun nd => { nd with chain := c } }

/-- the variable `v` is the record `nd` -/
def Graph.At (g : Graph R) (v : Var) (nd : Node R) : Prop :=
  1 ≤ v.vi ∧ g.nodes[v.vi - 1]? = some nd

theorem Graph.At.mem {g : Graph R} {v : Var} {nd : Node R} (h : g.At v nd) : nd ∈ g.nodes :=
  List.mem_of_getElem? h.2

theorem Graph.At.push {g : Graph R} {v : Var} {nd : Node R} (h : g.At v nd) (nd' : Node R) :
    (g.push nd').At v nd := by
  refine ⟨h.1, ?_⟩
  have := (List.getElem?_eq_some_iff.mp h.2).1
  rw [Graph.push, List.getElem?_append_left this]
  exact h.2

theorem Graph.at_last (g : Graph R) (nd : Node R) : (g.push nd).At ⟨g.nodes.length + 1⟩ nd := by
  refine ⟨by simp, ?_⟩
  simp [Graph.push]

theorem Graph.At.unique {g : Graph R} {v : Var} {a b : Node R} (h : g.At v a) (h' : g.At v b) :
    a = b := by
  have := h.2.symm.trans h'.2
  simpa using this

/-- parts of the state an operation does not touch -/
structure Keep (s s' : St W) : Prop where
  level : s'.level = s.level
  nestTape : s'.nestTape = s.nestTape
  nestVari : s'.nestVari = s.nestVari
  slots : ∀ k, s'.vhead ≤ k → s'.varis k = s.varis k
  vhead : s.vhead ≤ s'.vhead
  head : s.tape.head ≤ s'.tape.head
  mem : ∀ p < s.tape.head, s'.tape.mem p = s.tape.mem p
  size : s.tape.size ≤ s'.tape.size
  nVaris : s.nVaris ≤ s'.nVaris
  idx : ∀ k < s.vhead, (s'.varis k).i = (s.varis k).i
  snug : Snug initTapeSize s.tape.size s'.tape.size (s'.tape.head - 1)
  vsnug : Snug initVariStackSize s.nVaris s'.nVaris (s'.vhead - 1)

theorem Keep.refl (s : St W) : Keep s s :=
  ⟨rfl, rfl, rfl, fun _ _ => rfl, Nat.le_refl _, Nat.le_refl _, fun _ _ => rfl, Nat.le_refl _,
    Nat.le_refl _, fun _ _ => rfl, Or.inl rfl, Or.inl rfl⟩

theorem Keep.trans {s s' s'' : St W} (h : Keep s s') (h' : Keep s' s'') : Keep s s'' :=
  ⟨h'.level.trans h.level, h'.nestTape.trans h.nestTape, h'.nestVari.trans h.nestVari,
    fun k hk => (h'.slots k hk).trans (h.slots k (by have := h'.vhead; omega)),
    Nat.le_trans h.vhead h'.vhead, Nat.le_trans h.head h'.head,
    fun p hp => (h'.mem p (Nat.lt_of_lt_of_le hp h.head)).trans (h.mem p hp),
    Nat.le_trans h.size h'.size, Nat.le_trans h.nVaris h'.nVaris,
    fun k hk => (h'.idx k (Nat.lt_of_lt_of_le hk h.vhead)).trans (h.idx k hk),
    h.snug.trans h'.snug (by have := h'.head; omega),
    h.vsnug.trans h'.vsnug (by have := h'.vhead; omega)⟩

/-- every record takes six words or more -/
theorem Graph.WF.pos_ge {g : Graph R} {hd : Nat} (wf : g.WF hd) : ∀ k (nd : Node R),
    g.nodes[k]? = some nd → 6 * k + 1 ≤ nd.pos := by
  intro k
  induction k with
  | zero =>
    intro nd h
    have := (wf.below nd (List.mem_of_getElem? h)).1
    omega
  | succ k ih =>
    intro nd h
    obtain ⟨hk, e⟩ := List.getElem?_eq_some_iff.mp h
    have h1 := ih _ (List.getElem?_eq_getElem (by omega : k < g.nodes.length))
    have h2 := List.pairwise_iff_getElem.mp wf.sorted k (k + 1) (by omega) hk (by omega)
    rw [e] at h2
    simp only [Node.len] at h2
    omega

theorem Graph.WF.length_le {g : Graph R} {hd : Nat} (wf : g.WF hd) (h1 : 1 ≤ hd) :
    6 * g.nodes.length + 1 ≤ hd := by
  by_cases h : g.nodes.length = 0
  · omega
  · have hk : g.nodes.length - 1 < g.nodes.length := by omega
    have a := wf.pos_ge _ _ (List.getElem?_eq_getElem hk)
    have b := (wf.below _ (List.getElem_mem hk)).2
    simp only [Node.len] at b
    omega

theorem allocVarisLoop_ok (s : St W) (n : Nat) (hs : s.nVaris ≠ 0) (hn : s.vhead + n ≤ 1073741824)
    (hmax : s.nVaris ≤ int32Max)
    (hdef : ∀ k, k = 0 ∨ s.nVaris < k → s.varis k = {}) :
    ∃ z, allocVarisLoop s n = .ok { s with nVaris := z } ∧ s.vhead + n ≤ z + 1 ∧ s.nVaris ≤ z ∧
      z ≤ int32Max ∧ (z = s.nVaris ∨ z < 2 * (s.vhead + n - 1)) ∧ ∃ j, z = s.nVaris * 2 ^ j := by
  fun_induction allocVarisLoop s n with
  | case1 s h1 h2 => omega
  | case2 s h1 h2 h3 ih =>
    have hmem : (fun k => if k ≤ s.nVaris then s.varis k else {}) = s.varis := by
      funext i
      split
      · rfl
      · rw [hdef i (by omega)]
    simp only [dite_eq_ite] at ih
    rw [hmem] at ih ⊢
    obtain ⟨sz, e, a, b, c, d, j, f⟩ := ih (by show 2 * s.nVaris ≠ 0; omega) hn h3
      (fun k hk => by
        split
        · exact hdef k (by omega)
        · rfl)
    have b' : 2 * s.nVaris ≤ sz := b
    refine ⟨sz, e, a, by omega, c, ?_, j + 1, ?_⟩
    · have d' : sz = 2 * s.nVaris ∨ sz < 2 * (s.vhead + n - 1) := d
      omega
    · have f' : sz = 2 * s.nVaris * 2 ^ j := f
      rw [f', Nat.pow_succ, Nat.mul_comm 2, Nat.mul_assoc, Nat.mul_comm 2]
  | case3 s h1 h2 h3 =>
    exfalso
    simp only [int32Max] at *
    omega
  | case4 s h1 => exact ⟨s.nVaris, rfl, by omega, Nat.le_refl _, hmax, Or.inl rfl, 0, by simp⟩

namespace Inv
variable {s : St W} {g : Graph R} {val adj : Nat → R}

theorem allocVaris_ok (h : Inv s g val adj) {n : Nat} (hn : s.vhead + n ≤ 1073741824) :
    ∃ z, (allocVaris n : M W Unit) s = .ok ((), { s with nVaris := z }) ∧ s.vhead + n ≤ z + 1 ∧
      s.nVaris ≤ z ∧ z ≤ int32Max ∧ Snug initVariStackSize s.nVaris z (s.vhead + n - 1) ∧
      ∃ k, z = initVariStackSize * 2 ^ k := by
  unfold allocVaris
  by_cases h0 : s.nVaris = 0
  · have hmem : (fun _ => {}) = s.varis := by
      funext k
      rw [h.vdef k (by omega)]
    obtain ⟨z, e, a, b, c, d, j, f⟩ := allocVarisLoop_ok { s with nVaris := initVariStackSize } n
      (by simp [initVariStackSize]) hn (by simp [initVariStackSize, int32Max])
      (fun k hk => h.vdef k (by simp only at hk; omega))
    refine ⟨z, ?_, a, by omega, c, Or.inr d, j, f⟩
    rw [if_pos h0, hmem, e]
  · obtain ⟨z, e, a, b, c, d, j, f⟩ := allocVarisLoop_ok s n h0 hn h.vmax h.vdef
    obtain ⟨k, hk⟩ := h.vform.resolve_left h0
    refine ⟨z, ?_, a, b, c, d.imp id Or.inr, k + j, ?_⟩
    swap
    · rw [f, hk, Nat.pow_add, Nat.mul_assoc]
    rw [if_neg h0, e]

/-- a node fits behind the head -/
structure CanPush (g : Graph R) (head : Nat) (nd : Node R) : Prop where
  pos : nd.pos = head
  args : ∀ p ∈ nd.args, ∃ nd' ∈ g.nodes, nd'.pos = p
  small : ∀ o ∈ nd.ops, o ≤ int32Max
  kind : KindOK g.blocks nd

theorem wf_push {g : Graph R} {head : Nat} (wf : g.WF head) {nd : Node R} (hc : CanPush g head nd)
    (h1 : 1 ≤ head) : (g.push nd).WF (head + nd.len) := by
  have mem : ∀ {x : Node R}, x ∈ (g.push nd).nodes → x ∈ g.nodes ∨ x = nd := by
    intro x hx; simpa [Graph.push] using hx
  have mem' : ∀ {x : Node R}, x ∈ g.nodes → x ∈ (g.push nd).nodes := by
    intro x hx; simp [Graph.push, hx]
  refine ⟨?_, ?_, ?_, ?_, ?_, ?_, wf.bgood, ?_⟩
  · rw [Graph.push, List.pairwise_append]
    refine ⟨wf.sorted, by simp, ?_⟩
    intro a ha b hb
    simp only [List.mem_singleton] at hb
    subst hb
    have := (wf.below a ha).2
    have := hc.pos
    omega
  · intro x hx
    have := hc.pos
    rcases mem hx with hx | rfl
    · have := wf.below x hx; omega
    · omega
  · intro x hx p hp
    have := hc.pos
    rcases mem hx with hx | rfl
    · obtain ⟨a, y, hy, e⟩ := wf.args x hx p hp
      exact ⟨a, y, mem' hy, e⟩
    · obtain ⟨y, hy, e⟩ := hc.args p hp
      refine ⟨?_, y, mem' hy, e⟩
      have := (wf.below y hy).2
      simp only [Node.len] at this
      omega
  · intro x hx
    rcases mem hx with hx | rfl
    · exact wf.opsSmall x hx
    · exact hc.small
  · intro x hx
    rcases mem hx with hx | rfl
    · exact wf.kinds x hx
    · exact hc.kind
  · intro b hb
    have := wf.bbelow b hb; omega
  · intro b hb x hx
    rcases mem hx with hx | rfl
    · exact wf.bdisj b hb x hx
    · have := (wf.bbelow b hb).2
      have := hc.pos
      right; omega

/-- result of creating a record -/
structure Grown (s : St W) (g : Graph R) (val adj : Nat → R) (nd : Node R) (v : R) (s' : St W) :
    Prop where
  inv : Inv s' (g.push nd) (upd val nd.pos v) (upd adj nd.pos zero)
  vhead : s'.vhead = s.vhead + 1
  head : s'.tape.head = s.tape.head + nd.len
  keep : Keep s s'

theorem newVariWith_ok (h : Inv s g val adj) {push : Tape W → Except Err (Nat × Tape W)} {v : R}
    {nd : Node R} (hc : CanPush g s.tape.head nd) (hch : nd.chain = (s.varis s.vhead).chain)
    (hcap : s.tape.head + nd.len ≤ cap)
    (hp : ∃ t', push s.tape = .ok (s.tape.head, t') ∧
      Tape.Ext s.tape t' (Tape.recWords v zero nd.ops nd.dops)) :
    ∃ s', newVariWith push s = .ok (s.vhead, s') ∧ Grown s g val adj nd v s' := by
  obtain ⟨t', ep, ext⟩ := hp
  have hlen := h.wf.length_le h.ok.head_pos
  have hvh := h.vhead
  have hpos := hc.pos
  obtain ⟨z, ea, a, b, c, sg, fm⟩ := h.allocVaris_ok (n := 1) (by simp only [Node.len, cap] at hcap; omega)
  have hthead : t'.head = s.tape.head + nd.len := by
    rw [ext.head, Tape.recWords_length]; rfl
  refine ⟨⟨s.vhead + 1, z, fun m => if m = s.vhead then ⟨nd.pos, nd.chain⟩ else s.varis m, t',
    s.nestTape, s.nestVari, s.level⟩, ?_, ?_⟩
  · unfold newVariWith
    rw [bind_ok ea, bind_ok (pushTape_ok (s := { s with nVaris := z }) ep), bind_ok (get_ok _)]
    have hg : (Fz.getVari s.vhead : M W Vari) { s with nVaris := z, tape := t' } =
        .ok (s.varis s.vhead, { s with nVaris := z, tape := t' }) := by
      unfold Fz.getVari
      rw [if_pos (by simp only; omega)]
    show (Fz.getVari s.vhead >>= _) _ = _
    rw [bind_ok hg]
    have hsv : (setVari s.vhead { (s.varis s.vhead) with i := s.tape.head } : M W Unit)
        { s with nVaris := z, tape := t' } = .ok ((), { s with nVaris := z, tape := t', varis := fun m =>
          if m = s.vhead then { (s.varis s.vhead) with i := s.tape.head } else s.varis m }) := by
      unfold Fz.setVari
      rw [if_pos (by simp only; omega)]
    rw [bind_ok hsv, bind_ok (modify_ok _ _)]
    have he : ({ (s.varis s.vhead) with i := s.tape.head } : Vari) = ⟨nd.pos, nd.chain⟩ := by
      rw [hch, hpos]
    rw [he]
    rfl
  · refine ⟨?_, rfl, hthead, rfl, rfl, rfl, ?_, by simp, by simp only; omega, ?_, ext.size, b, ?_, ext.snug, sg⟩
    · refine ⟨ext.ok, ?_, ?_, ?_, c, Or.inr fm, ?_, ?_, ?_, ?_⟩
      · show (g.push nd).WF t'.head
        rw [hthead]
        exact wf_push h.wf hc h.ok.head_pos
      · simp [Graph.push, hvh]
      · exact a
      · intro k hk
        simp only at hk
        show (if k = s.vhead then _ else _) = _
        rw [if_neg (by omega)]
        exact h.vdef k (by omega)
      · intro k x hx
        show (if k + 1 = s.vhead then _ else _) = _
        by_cases hk : k = g.nodes.length
        · subst hk
          rw [if_pos (by omega)]
          simp [Graph.push] at hx
          subst hx; rfl
        · have hlt : k < g.nodes.length := by
            have := (List.getElem?_eq_some_iff.mp hx).1
            simp [Graph.push] at this; omega
          rw [if_neg (by omega)]
          rw [Graph.push, List.getElem?_append_left hlt] at hx
          exact h.tab k x hx
      · intro x hx
        show HasWords t'.mem _ _
        rw [ext.mem]
        have hx' : x ∈ g.nodes ∨ x = nd := by simpa [Graph.push] using hx
        rcases hx' with hx' | rfl
        · have hb := (h.wf.below x hx').2
          have hne : x.pos ≠ nd.pos := by simp only [Node.len] at hb; omega
          rw [upd_ne _ _ hne, upd_ne _ _ hne]
          refine (h.recs x hx').overlay_of_disjoint (Or.inl ?_)
          rw [Tape.recWords_length]
          exact hb
        · rw [upd_self, upd_self, hpos]
          exact HasWords.overlay_self
      · intro bl hb
        show HasWords t'.mem _ _
        rw [ext.mem]
        refine (h.blks bl hb).overlay_of_disjoint (Or.inl ?_)
        rw [words_len]
        exact (h.wf.bbelow bl hb).2
    · intro k hk
      simp only at hk
      show (if k = s.vhead then _ else _) = _
      rw [if_neg (by omega)]
    · intro p hp
      show t'.mem p = _
      rw [ext.mem, overlay_lt hp]
    · intro k hk
      show (if k = s.vhead then _ else _ : Vari).i = _
      rw [if_neg (by omega)]

omit [LawfulRep W R] in
theorem wf_modify {g : Graph R} {hd : Nat} (wf : g.WF hd) (k : Nat) (c : Chain) :
    (g.setChain k c).WF hd := by
  have mem : ∀ {x : Node R}, x ∈ (g.setChain k c).nodes → ∃ y ∈ g.nodes, x = y ∨ x = { y with chain := c } := by
    intro x hx
    obtain ⟨i, hi⟩ := List.mem_iff_getElem?.mp hx
    simp only [Graph.setChain, List.getElem?_modify] at hi
    cases hy : g.nodes[i]? with
    | none => rw [hy] at hi; simp at hi
    | some y =>
      rw [hy] at hi
      refine ⟨y, List.mem_of_getElem? hy, ?_⟩
      by_cases hk : k = i
      · right; simp [hk] at hi; exact hi.symm
      · left; simp [hk] at hi; exact hi.symm
  have mem' : ∀ {y : Node R}, y ∈ g.nodes → ∃ x ∈ (g.setChain k c).nodes, x.pos = y.pos := by
    intro y hy
    obtain ⟨i, hi⟩ := List.mem_iff_getElem?.mp hy
    refine ⟨if k = i then { y with chain := c } else y, ?_, by split <;> rfl⟩
    apply List.mem_of_getElem? (i := i)
    simp only [Graph.setChain, List.getElem?_modify, hi]
    by_cases hk : k = i <;> simp [hk]
  refine ⟨?_, ?_, ?_, ?_, ?_, wf.bbelow, wf.bgood, ?_⟩
  · rw [List.pairwise_iff_getElem]
    intro i j hi hj hij
    have hs := List.pairwise_iff_getElem.mp wf.sorted i j
      (by simpa [Graph.setChain] using hi) (by simpa [Graph.setChain] using hj) hij
    simp only [Graph.setChain, List.getElem_modify]
    split <;> split <;> simpa [Node.len] using hs
  · intro x hx
    obtain ⟨y, hy, e | e⟩ := mem hx <;> subst e
    · exact wf.below _ hy
    · exact wf.below y hy
  · intro x hx p hp
    obtain ⟨y, hy, rfl | rfl⟩ := mem hx
    · obtain ⟨a, z, hz, e⟩ := wf.args _ hy p hp
      obtain ⟨z', hz', e'⟩ := mem' hz
      exact ⟨a, z', hz', e'.trans e⟩
    · obtain ⟨a, z, hz, e⟩ := wf.args _ hy p hp
      obtain ⟨z', hz', e'⟩ := mem' hz
      exact ⟨a, z', hz', e'.trans e⟩
  · intro x hx
    obtain ⟨y, hy, e | e⟩ := mem hx <;> subst e
    · exact wf.opsSmall _ hy
    · exact wf.opsSmall y hy
  · intro x hx
    obtain ⟨y, hy, e | e⟩ := mem hx <;> subst e
    · exact wf.kinds _ hy
    · exact wf.kinds y hy
  · intro b hb x hx
    obtain ⟨y, hy, e | e⟩ := mem hx <;> subst e
    · exact wf.bdisj b hb _ hy
    · exact wf.bdisj b hb y hy

/-- `set_chain` on an existing variable -/
theorem setChain_ok (h : Inv s g val adj) {v : Var} {nd : Node R} (hv : g.At v nd) (c : Chain) :
    ∃ s', (v.setChain c : M W Unit) s = .ok ((), s') ∧ Inv s' (g.setChain (v.vi - 1) c) val adj ∧
      s'.vhead = s.vhead ∧ s'.tape = s.tape ∧ Keep s s' := by
  have hlt : v.vi - 1 < g.nodes.length := (List.getElem?_eq_some_iff.mp hv.2).1
  have hvi : v.vi - 1 + 1 = v.vi := by have := hv.1; omega
  have hvh := h.vhead
  have hvc := h.vcap
  refine ⟨{ s with varis := fun m => if m = v.vi then ⟨nd.pos, c⟩ else s.varis m }, ?_, ?_, rfl, rfl,
    rfl, rfl, rfl, ?_, Nat.le_refl _, Nat.le_refl _, fun _ _ => rfl, Nat.le_refl _, Nat.le_refl _, ?_,
    Or.inl rfl, Or.inl rfl⟩
  · have hg := h.getVari hv.2
    rw [hvi] at hg
    unfold Var.setChain setIndexedChain
    rw [bind_ok hg]
    unfold Fz.setVari
    rw [if_pos (by omega)]
  · refine ⟨h.ok, wf_modify h.wf _ _, ?_, h.vcap, h.vmax, h.vform, ?_, ?_, ?_, h.blks⟩
    · simp [Graph.setChain, hvh]
    · intro k hk
      simp only at hk
      show (if k = v.vi then _ else _) = _
      have := hv.1
      rw [if_neg (by omega)]
      exact h.vdef k hk
    · intro k x hx
      simp only [Graph.setChain, List.getElem?_modify] at hx
      show (if k + 1 = v.vi then _ else _) = _
      by_cases hk : v.vi - 1 = k
      · rw [if_pos (by omega)]
        rw [← hk, hv.2] at hx
        simp at hx
        subst hx; rfl
      · rw [if_neg (by omega)]
        cases hy : g.nodes[k]? with
        | none => rw [hy] at hx; simp at hx
        | some y =>
          rw [hy] at hx
          simp [hk] at hx
          subst hx
          exact h.tab k y hy
    · intro x hx
      obtain ⟨i, hi⟩ := List.mem_iff_getElem?.mp hx
      simp only [Graph.setChain, List.getElem?_modify] at hi
      cases hy : g.nodes[i]? with
      | none => rw [hy] at hi; simp at hi
      | some y =>
        rw [hy] at hi
        have hr := h.recs y (List.mem_of_getElem? hy)
        by_cases hk : v.vi - 1 = i
        · simp [hk] at hi; subst hi; exact hr
        · simp [hk] at hi; subst hi; exact hr
  · intro k hk
    simp only at hk
    show (if k = v.vi then _ else _) = _
    rw [if_neg (by omega)]
  · intro k hk
    show (if k = v.vi then _ else _ : Vari).i = _
    by_cases hkv : k = v.vi
    · have ht := h.tab _ _ hv.2
      rw [hvi] at ht
      rw [if_pos hkv, hkv, ht]
    · rw [if_neg hkv]

omit [LawfulRep W R] in
theorem setChain_last (g : Graph R) (nd : Node R) (c : Chain) :
    (g.push nd).setChain g.nodes.length c = g.push { nd with chain := c } := by
  unfold Graph.setChain Graph.push
  congr 1
  apply List.ext_getElem?
  intro i
  rw [List.getElem?_modify]
  by_cases hi : i < g.nodes.length
  · rw [List.getElem?_append_left hi, List.getElem?_append_left hi]
    have : g.nodes.length ≠ i := by omega
    cases g.nodes[i]? <;> simp [this]
  · rw [List.getElem?_append_right (by omega), List.getElem?_append_right (by omega)]
    by_cases hi' : i = g.nodes.length
    · subst hi'; simp
    · have : 1 ≤ i - g.nodes.length := by omega
      rw [List.getElem?_eq_none (by simpa using this), List.getElem?_eq_none (by simpa using this)]
      rfl

/-- a record is created and its chain pointer set -/
theorem create_ok (h : Inv s g val adj) {push : Tape W → Except Err (Nat × Tape W)} {v : R}
    {nd : Node R} (hc : CanPush g s.tape.head nd)
    (hcap : s.tape.head + nd.len ≤ cap)
    (hp : ∃ t', push s.tape = .ok (s.tape.head, t') ∧
      Tape.Ext s.tape t' (Tape.recWords v zero nd.ops nd.dops)) :
    ∃ s' s'', newVariWith push s = .ok (s.vhead, s') ∧
      (Var.setChain ⟨s.vhead⟩ nd.chain : M W Unit) s' = .ok ((), s'') ∧
      Grown s g val adj nd v s'' := by
  obtain ⟨s', e, gr⟩ := h.newVariWith_ok (nd := { nd with chain := (s.varis s.vhead).chain })
    (push := push) (v := v) ⟨hc.pos, hc.args, hc.small, hc.kind⟩ rfl hcap hp
  have hvh := h.vhead
  obtain ⟨s'', e', i', hv', ht', k'⟩ := gr.inv.setChain_ok (v := ⟨s.vhead⟩)
    (nd := { nd with chain := (s.varis s.vhead).chain }) (by rw [hvh]; exact Graph.at_last g _) nd.chain
  refine ⟨s', s'', e, e', ?_, ?_, ?_, gr.keep.trans k'⟩
  · have : s.vhead - 1 = g.nodes.length := by omega
    rw [this, setChain_last] at i'
    exact i'
  · rw [hv']; exact gr.vhead
  · rw [ht']; exact gr.head

end Inv
end Fz
