import Verif.Proof.Applic
import Verif.Model.Prob

/-!
# What a library call that creates variables does to the tape, for every interpretation of `real64`

`Evo`: the invariant holds again, everything that was on the tape is unchanged (except chain
pointers), everything new has adjoint zero.  Every creating function of the library, when it
completes, has this effect (`Safe`).
-/

set_option linter.unusedSectionVars false

namespace Fz
variable {W R : Type} [Arith R] [Rep W R] [LawfulRep W R]
open Arith

/-- the graph without chain pointers -/
def Graph.erase (g : Graph R) : Graph R := { g with nodes := g.nodes.map fun nd => { nd with chain := .dummy } }

@[simp] theorem Graph.erase_length (g : Graph R) : g.erase.nodes.length = g.nodes.length := by
  simp [Graph.erase]

theorem Graph.erase_setChain (g : Graph R) (k : Nat) (c : Chain) : (g.setChain k c).erase = g.erase := by
  unfold Graph.erase Graph.setChain
  congr 1
  apply List.ext_getElem?
  intro i
  simp only [List.getElem?_map, List.getElem?_modify]
  by_cases h : k = i
  · simp [h, Option.map_map, Function.comp_def]
  · simp [h]

theorem Graph.erase_push (g : Graph R) (nd : Node R) : g.erase.Prefix (g.push nd).erase :=
  ⟨by simp [Graph.erase, Graph.push], List.prefix_refl _⟩

theorem Graph.erase_pushB (g : Graph R) (b : Block R) : g.erase.Prefix (g.pushB b).erase :=
  ⟨List.prefix_refl _, List.prefix_append _ _⟩

/-- the variable `v` is on the tape, at a position satisfying `φ` -/
structure Graph.HasF (φ : Nat → Prop) (g : Graph R) (v : Var) : Prop where
  has : g.Has v
  ge : φ (g.pos v)

/-- the effect of creating variables from variables whose positions satisfy `φ` -/
structure Evo (φ : Nat → Prop) (s : St W) (g : Graph R) (val adj : Nat → R) (s' : St W) (g' : Graph R)
    (val' adj' : Nat → R) : Prop where
  inv : Inv s' g' val' adj'
  cok : (∀ nd ∈ g.nodes, nd.ChainOK) → ∀ nd ∈ g'.nodes, nd.ChainOK
  pre : g.erase.Prefix g'.erase
  val : ∀ p < s.tape.head, val' p = val p
  adj : ∀ p < s.tape.head, adj' p = adj p
  news : ∀ k nd, g.nodes.length ≤ k → g'.nodes[k]? = some nd → s.tape.head ≤ nd.pos ∧ adj' nd.pos = zero
  keep : Keep s s'
  head : s.tape.head ≤ s'.tape.head
  own : ∀ k nd, g.nodes.length ≤ k → g'.nodes[k]? = some nd → ∀ p ∈ nd.args, φ p
  chain : ∀ (k : Nat) (nd : Node R), g.nodes[k]? = some nd → ¬ φ nd.pos → g'.nodes[k]? = some nd

variable {φ : Nat → Prop} {s s' s'' : St W} {g g' g'' : Graph R} {val adj val' adj' val'' adj'' : Nat → R}

theorem Evo.refl (h : Inv s g val adj) : Evo φ s g val adj s g val adj where
  inv := h
  cok := id
  pre := Graph.Prefix.refl _
  val := fun _ _ => rfl
  adj := fun _ _ => rfl
  news := fun k nd hk he => by
    have := (List.getElem?_eq_some_iff.mp he).1
    omega
  keep := Keep.refl s
  head := Nat.le_refl _
  own := fun k nd hk he => by
    have := (List.getElem?_eq_some_iff.mp he).1
    omega
  chain := fun _ _ h _ => h

/-- entry `k` of the later graph is the same record up to its chain pointer -/
theorem Graph.Prefix.getErase (h : g.erase.Prefix g'.erase) {k : Nat} {nd : Node R}
    (hk : g.nodes[k]? = some nd) : ∃ c, g'.nodes[k]? = some { nd with chain := c } := by
  obtain ⟨t, ht⟩ := h.nodes
  have hlt := (List.getElem?_eq_some_iff.mp hk).1
  have h1 : g'.erase.nodes[k]? = some { nd with chain := .dummy } := by
    rw [← ht, List.getElem?_append_left (by simpa using hlt)]
    simp [Graph.erase, hk]
  simp only [Graph.erase, List.getElem?_map] at h1
  cases h2 : g'.nodes[k]? with
  | none => rw [h2] at h1; simp at h1
  | some y =>
    rw [h2] at h1
    simp only [Option.map_some, Option.some.injEq, Node.mk.injEq] at h1
    refine ⟨y.chain, ?_⟩
    obtain ⟨a, b, c, d, e⟩ := h1
    cases y; simp_all

theorem Graph.Prefix.lenErase (h : g.erase.Prefix g'.erase) : g.nodes.length ≤ g'.nodes.length := by
  simpa using h.nodes.length_le

theorem Graph.Prefix.hasErase (h : g.erase.Prefix g'.erase) {v : Var} (hv : g.Has v) : g'.Has v :=
  ⟨hv.1, Nat.le_trans hv.2 h.lenErase⟩

theorem Graph.Prefix.posErase (h : g.erase.Prefix g'.erase) {v : Var} (hv : g.Has v) :
    g'.pos v = g.pos v := by
  obtain ⟨nd, h1, h2⟩ := hv.at
  obtain ⟨c, hc⟩ := h.getErase h1.2
  rw [← h2]
  simp [Graph.pos, hc]

theorem Evo.trans (a : Evo φ s g val adj s' g' val' adj') (b : Evo φ s' g' val' adj' s'' g'' val'' adj'') :
    Evo φ s g val adj s'' g'' val'' adj'' where
  inv := b.inv
  cok := fun h => b.cok (a.cok h)
  pre := a.pre.trans b.pre
  val := fun p hp => by rw [b.val p (Nat.lt_of_lt_of_le hp a.head), a.val p hp]
  adj := fun p hp => by rw [b.adj p (Nat.lt_of_lt_of_le hp a.head), a.adj p hp]
  news := fun k nd hk he => by
    by_cases hk' : g'.nodes.length ≤ k
    · have := b.news k nd hk' he
      exact ⟨Nat.le_trans a.head this.1, this.2⟩
    · have hlt : k < g'.nodes.length := by omega
      have e1 := List.getElem?_eq_getElem hlt
      obtain ⟨c, hc⟩ := b.pre.getErase e1
      rw [he] at hc
      have hpos : nd.pos = (g'.nodes[k]).pos := by
        have := Option.some.inj hc
        rw [this]
      obtain ⟨h1, h2⟩ := a.news k _ hk e1
      have h3 := (a.inv.wf.below _ (List.mem_of_getElem? e1)).2
      simp only [Node.len] at h3
      rw [hpos]
      exact ⟨h1, by rw [b.adj _ (by omega), h2]⟩
  keep := a.keep.trans b.keep
  head := Nat.le_trans a.head b.head
  own := fun k nd hk he => by
    by_cases hk' : g'.nodes.length ≤ k
    · exact b.own k nd hk' he
    · have hlt : k < g'.nodes.length := by omega
      have e1 := List.getElem?_eq_getElem hlt
      obtain ⟨c, hc⟩ := b.pre.getErase e1
      rw [he] at hc
      have := Option.some.inj hc
      subst this
      exact a.own k (g'.nodes[k]) hk e1
  chain := fun k nd hk hn => b.chain k nd (a.chain k nd hk hn) hn

theorem Evo.hasV (a : Evo φ s g val adj s' g' val' adj') {v : Var} (hv : g.Has v) : g'.Has v :=
  a.pre.hasErase hv

theorem Evo.hasF (a : Evo φ s g val adj s' g' val' adj') {v : Var} (hv : g.HasF φ v) : g'.HasF φ v :=
  ⟨a.pre.hasErase hv.has, by rw [a.pre.posErase hv.has]; exact hv.ge⟩

/-- `m` has the effect `Evo` whenever it completes, and then its result satisfies `Q` -/
def Safe {α : Type} (φ : Nat → Prop) (s : St W) (g : Graph R) (val adj : Nat → R) (m : M W α) (Q : α → Graph R → Prop) :
    Prop :=
  (∀ p, s.tape.head ≤ p → φ p) → ∀ r s', m s = .ok (r, s') → ∃ g' val' adj', Evo φ s g val adj s' g' val' adj' ∧ Q r g'

section rules
variable {α β : Type} {Q : α → Graph R → Prop} {Q' : β → Graph R → Prop}

theorem Safe.pure (h : Inv s g val adj) {r : α} (hq : Q r g) :
    Safe φ s g val adj (Pure.pure r : M W α) Q := by
  intro _ r' s' e
  cases e
  exact ⟨g, val, adj, Evo.refl h, hq⟩

theorem Safe.fail (e : Err) : Safe φ s g val adj (Fz.fail e : M W α) Q := by
  intro _ r' s' h
  cases h

theorem Safe.err {m : M W α} (he : ∃ e, m s = .error e) : Safe φ s g val adj m Q := by
  intro _ r' s' h
  obtain ⟨e, he⟩ := he
  rw [he] at h; cases h

theorem Safe.bind {m : M W α} {k : α → M W β} (hm : Safe φ s g val adj m Q)
    (hk : ∀ r s' g' val' adj', Evo φ s g val adj s' g' val' adj' → Q r g' →
      Safe φ s' g' val' adj' (k r) Q') :
    Safe φ s g val adj (m >>= k) Q' := by
  intro hφ r s'' e
  cases hms : m s with
  | error x => rw [bind_err hms] at e; cases e
  | ok p =>
    obtain ⟨a, s'⟩ := p
    rw [bind_ok hms] at e
    obtain ⟨g', val', adj', ev, hq⟩ := hm hφ a s' hms
    obtain ⟨g'', val'', adj'', ev', hq'⟩ := hk a s' g' val' adj' ev hq (fun p hp => hφ p (Nat.le_trans ev.head hp)) r s'' e
    exact ⟨g'', val'', adj'', ev.trans ev', hq'⟩

theorem Safe.read {m : M W α} {k : α → M W β} {a : α} (hm : m s = .ok (a, s))
    (hk : Safe φ s g val adj (k a) Q') : Safe φ s g val adj (m >>= k) Q' := by
  intro hφ r s' e
  rw [bind_ok hm] at e
  exact hk hφ r s' e

theorem Safe.mono {m : M W α} {P : α → Graph R → Prop} (hm : Safe φ s g val adj m P)
    (hk : ∀ r g', P r g' → Q r g') : Safe φ s g val adj m Q := by
  intro hφ r s' e
  obtain ⟨g', val', adj', ev, hq⟩ := hm hφ r s' e
  exact ⟨g', val', adj', ev, hk r g' hq⟩

end rules

/-! ## failing pushes -/

namespace Tape
variable {t : Tape W}

theorem pushIntArray_err (h : t.OK) (i : List Nat) (hn : cap < t.head + i.length) :
    ∃ e, t.pushIntArray i = .error e := by
  unfold pushIntArray
  rw [alloc_fail t _ h hn]
  exact ⟨_, rfl⟩

theorem pushRealArray_err (h : t.OK) (d : List R) (hn : cap < t.head + 2 * d.length) :
    ∃ e, t.pushRealArray d = .error e := by
  unfold pushRealArray
  rw [alloc_fail t _ h hn]
  exact ⟨_, rfl⟩

theorem pushVal_err (h : t.OK) (v : R) (hn : cap < t.head + 6) : ∃ e, t.pushVal v = .error e := by
  unfold pushVal
  simp only [minRecSize]
  rw [alloc_fail t _ h hn]
  exact ⟨_, rfl⟩

theorem pushValOp_err (h : t.OK) (v : R) (ops : List Nat) (hn : cap < t.head + (6 + ops.length)) :
    ∃ e, t.pushValOp v ops = .error e := by
  unfold pushValOp
  by_cases h4 : cap < t.head + 4
  · rw [alloc_fail t _ h h4]
    exact ⟨_, rfl⟩
  · obtain ⟨sz, e, a, b, c, ne, sg, fm⟩ := alloc_ok t 4 h (by omega)
    obtain ⟨t1, e1, hsz, hh, x0⟩ := valHead_ok (h.resize b c fm) v a ne
    have x1 := x0.resize b (by simpa [hh] using sg)
    obtain ⟨er, he⟩ := pushIntArray_err x1.ok ([ops.length] ++ ops ++ [0])
      (by rw [x1.head]; simp; omega)
    rw [e]
    show ∃ e, (Tape.setValCurr { t with size := sz } v >>= _) = _
    rw [e1]
    show ∃ e, (Tape.pushIntArray { t1 with head := t1.head + 4 } _ >>= _) = _
    rw [he]
    exact ⟨_, rfl⟩

theorem pushValOpDop_err (h : t.OK) (v : R) (ops : List Nat) (dops : List R)
    (hn : cap < t.head + (6 + ops.length + 2 * dops.length)) :
    ∃ e, t.pushValOpDop v ops dops = .error e := by
  unfold pushValOpDop
  by_cases h4 : cap < t.head + 4
  · rw [alloc_fail t _ h h4]
    exact ⟨_, rfl⟩
  · obtain ⟨sz, e, a, b, c, ne, sg, fm⟩ := alloc_ok t 4 h (by omega)
    obtain ⟨t1, e1, hsz, hh, x0⟩ := valHead_ok (h.resize b c fm) v a ne
    have x1 := x0.resize b (by simpa [hh] using sg)
    rw [e]
    show ∃ e, (Tape.setValCurr { t with size := sz } v >>= _) = _
    rw [e1]
    show ∃ e, (Tape.pushIntArray { t1 with head := t1.head + 4 } _ >>= _) = _
    by_cases h5 : cap < t.head + (6 + ops.length)
    · obtain ⟨er, he⟩ := pushIntArray_err x1.ok ([ops.length] ++ ops ++ [dops.length])
        (by rw [x1.head]; simp; omega)
      rw [he]
      exact ⟨_, rfl⟩
    · obtain ⟨t2, e2, x2⟩ := pushIntArray_ok x1.ok ([ops.length] ++ ops ++ [dops.length])
        (by rw [x1.head]; simp; omega)
      obtain ⟨er, he⟩ := pushRealArray_err x2.ok dops
        (by rw [x2.head, x1.head]; simp; omega)
      rw [e2]
      show ∃ e, (Tape.pushRealArray t2 _ >>= _) = _
      rw [he]
      exact ⟨_, rfl⟩

end Tape

theorem newVariWith_err {push : Tape W → Except Err (Nat × Tape W)} (hp : ∃ e, push s.tape = .error e) :
    ∃ e, newVariWith push s = .error e := by
  unfold newVariWith
  have loop : ∀ (s s' : St W) n, allocVarisLoop s n = .ok s' → s'.tape = s.tape := by
    intro s s' n
    fun_induction allocVarisLoop s n with
    | case1 => intro h; cases h
    | case2 s h1 h2 h3 ih => intro h; exact (ih (by simpa using h))
    | case3 => intro h; cases h
    | case4 => intro h; cases h; rfl
  cases ha : (allocVaris 1 : M W Unit) s with
  | error e => exact ⟨e, bind_err ha⟩
  | ok p =>
    obtain ⟨u, s1⟩ := p
    have ht : s1.tape = s.tape := by
      unfold allocVaris at ha
      split at ha
      · rename_i s2 h2
        cases ha
        split at h2
        · exact (loop _ _ _ h2 :)
        · exact loop _ _ _ h2
      · cases ha
    rw [bind_ok ha]
    obtain ⟨e, he⟩ := hp
    have : pushTape push s1 = .error e := by simp [pushTape, ht, he]
    exact ⟨e, bind_err this⟩

end Fz
