import Verif.Spec.Queries
import Verif.Props.Storage

/-!
# C35, C37, C40: queries
-/

set_option linter.unusedSectionVars false

namespace Props
open Fz Spec

section generic
variable {W R : Type} [Arith R] [Rep W R]

/-! ## C40: queries change nothing -/

namespace Reads

theorem pure {α : Type} (a : α) : ReadsOnly (Pure.pure a : M W α) := by
  intro s r s' h
  cases h
  rfl

theorem fail {α : Type} (e : Err) : ReadsOnly (Fz.fail e : M W α) := by
  intro s r s' h
  cases h

theorem bind {α β : Type} {m : M W α} {f : α → M W β} (hm : ReadsOnly m) (hf : ∀ a, ReadsOnly (f a)) :
    ReadsOnly (m >>= f) := by
  intro s r s' h
  cases e : m s with
  | error x =>
      rw [show (m >>= f) s = .error x by show Except.bind (m s) _ = _; rw [e]; rfl] at h
      cases h
  | ok p =>
      obtain ⟨a, s1⟩ := p
      rw [bind_ok e] at h
      rw [hf a s1 r s' h, hm s a s1 e]

theorem tape {α : Type} (f : Tape W → Except Err α) : ReadsOnly (readTape f : M W α) := by
  intro s r s' h
  unfold readTape at h
  split at h <;> cases h
  rfl

theorem table (k : Nat) : ReadsOnly (getVari k : M W Vari) := by
  intro s r s' h
  unfold getVari at h
  split at h <;> cases h
  rfl

theorem get : ReadsOnly (get : M W (St W)) := by
  intro s r s' h
  cases h
  rfl

theorem mapM {α β : Type} {f : α → M W β} (hf : ∀ a, ReadsOnly (f a)) (l : List α) : ReadsOnly (l.mapM f) := by
  induction l with
  | nil => simpa using pure []
  | cons a l ih =>
      simp only [List.mapM_cons]
      exact bind (hf a) fun b => bind ih fun bs => pure _

theorem val (v : Var) : ReadsOnly (v.val : M W R) := bind (table _) fun _ => tape _

theorem adj (v : Var) : ReadsOnly (v.adj : M W R) := bind (table _) fun _ => tape _

end Reads

/-- **C40**: reading a value, an adjoint or the operands and data of a variable, `value_of`, comparing,
testing for NaN, and asking for numbers of variables leave the whole state as it is, in every state. -/
theorem C40_reading (v u : Var) (d : R) (vs : List Var) (o : RelOp) :
    ReadsOnly (v.val : M W R) ∧ ReadsOnly (v.adj : M W R) ∧
    ReadsOnly (vals vs : M W (List R)) ∧ ReadsOnly (adjs vs : M W (List R)) ∧
    (∀ a : VOrD R, ReadsOnly (valueOf a : M W R)) ∧
    ReadsOnly (relVV o v u : M W Bool) ∧ ReadsOnly (relVD o v d : M W Bool) ∧
    ReadsOnly (relDV o d v : M W Bool) ∧ ReadsOnly (isNanV v : M W Bool) ∧
    ReadsOnly (query v : M W (View R)) ∧
    ReadsOnly (variStackSize : M W Nat) ∧ ReadsOnly (currNestedVariHead : M W Nat) := by
  refine ⟨Reads.val v, Reads.adj v, Reads.mapM Reads.val vs, Reads.mapM Reads.adj vs, ?_, ?_, ?_, ?_, ?_, ?_,
    ?_, ?_⟩
  · rintro (a | a)
    · exact Reads.val a
    · exact Reads.pure a
  · exact Reads.bind (Reads.val _) fun _ => Reads.bind (Reads.val _) fun _ => Reads.pure _
  · exact Reads.bind (Reads.val _) fun _ => Reads.pure _
  · exact Reads.bind (Reads.val _) fun _ => Reads.pure _
  · exact Reads.bind (Reads.val _) fun _ => Reads.pure _
  · exact Reads.bind (Reads.val _) fun _ => Reads.bind (Reads.adj _) fun _ => Reads.bind (Reads.table _)
      fun _ => Reads.bind (Reads.tape _) fun _ => Reads.bind (Reads.tape _) fun _ => Reads.pure _
  · exact Reads.bind Reads.get fun _ => Reads.pure _
  · refine Reads.bind Reads.get fun s => ?_
    split
    · unfold rdNest
      split
      · exact Reads.pure _
      · exact Reads.fail _
    · exact Reads.pure _

/-! ## C35: the length of a record -/

section lengths
variable [LawfulRep W R] {h : List (Call R)} {c : Client W}

/-- what `record_len` reports: the number of data items is looked for at a fixed place, where the first
operand is if there is one -/
theorem reported_eq (hr : Reach h c) {v : Var} (hv : v ∈ existing c.st) {w : View R} (hw : seen c.st v = .ok w) :
    reported c.st v = .ok (6 + w.ops.length + 2 * (w.ops ++ [w.data.length]).head (by simp)) := by
  obtain ⟨g, val, adj, G⟩ := hr.good
  have hv' := (mem_existing G.inv).mp hv
  obtain ⟨nd, h1, h2⟩ := hv'.at
  rw [G.inv.seen h1] at hw
  cases hw
  have hrec := G.inv.recIn h1.mem
  unfold reported Tape.recordLen
  rw [seen_pos G.inv hv', ← h2, hrec.rdNop]
  have hs := hrec.split
  have hf := hrec.fit
  have hz := hrec.szle
  have e5 : c.st.tape.rdN (nd.pos + 5) = .ok ((nd.ops ++ [nd.dops.length]).head (by simp)) := by
    cases ho : nd.ops with
    | nil =>
        rw [ho] at hs hf
        refine Tape.rdN_ok (by omega) (by omega) ?_ ?_
        · simpa using hs.2.2.2.2.1
        · simp; simp at hf; omega
    | cons a l =>
        rw [ho] at hs hf
        simp only [List.length_cons] at hf
        refine Tape.rdN_ok (by omega) (by omega) ?_ ?_
        · simpa using hs.2.2.2.1 0 (by simp)
        · simp only [List.cons_append, List.head_cons]
          exact hrec.small a (by rw [ho]; simp)
  show (c.st.tape.rdN (nd.pos + 5) >>= _) = _
  rw [e5]
  rfl

/-- **C35**, for variables without operands: the reported length is the number of words of the record.
Missing: variables with operands, for which it fails (`C35_refuted`). -/
theorem C35_no_operands_partial (hr : Reach h c) {v : Var} (hv : v ∈ existing c.st) {w : View R}
    (hw : seen c.st v = .ok w) (ho : w.ops = []) : reported c.st v = .ok w.words := by
  rw [reported_eq hr hv hw]
  simp [ho, View.words]

/-- with operands the reported length is right exactly if the place of the first operand happens to be the
number of data items -/
theorem C35_iff (hr : Reach h c) {v : Var} (hv : v ∈ existing c.st) {w : View R}
    (hw : seen c.st v = .ok w) {p : Nat} {l : List Nat} (ho : w.ops = p :: l) :
    reported c.st v = .ok w.words ↔ p = w.data.length := by
  rw [reported_eq hr hv hw]
  simp only [ho, View.words, List.cons_append, List.head_cons, List.length_cons, Except.ok.injEq]
  omega

/-! ## C37: the record at the current position -/

theorem getReal_overlay {t : Tape W} {p : Nat} (r : R) (hp : 1 ≤ p) (hs : p + 1 ≤ t.size)
    (h0 : t.mem p = Rep.lo r) (h1 : t.mem (p + 1) = Rep.hi r) : t.getRealAt p = .ok r :=
  Tape.getRealAt_ok hp hs (by
    intro j hj
    match j with
    | 0 => exact h0
    | 1 => exact h1)

/-- **C37**: once a value `x` and an adjoint `y` have been stored at the current position, the value query
returns `x`.  Missing: the adjoint query returns `x` too, not `y` (`C37_refuted`). -/
theorem C37_stored_partial (hr : Reach h c) (room : c.st.tape.head + 3 ≤ c.st.tape.size) (x y : R) :
    ∃ t t', c.st.tape.setValCurr x = .ok t ∧ t.setAdjCurr y = .ok t' ∧
      t'.valAt t'.head = .ok x ∧ t'.adjAt t'.head = .ok y ∧ t'.valCurr = .ok x ∧ t'.adjCurr = .ok x := by
  obtain ⟨g, val, adj, G⟩ := hr.good
  have hp := G.inv.ok.head_pos
  have e1 := Tape.wrSec_ok [Rep.lo x, Rep.hi x] c.st.tape c.st.tape.head hp (by simp; omega)
  have e2 := Tape.wrSec_ok [Rep.lo y, Rep.hi y]
    { c.st.tape with mem := overlay c.st.tape.mem c.st.tape.head [Rep.lo x, Rep.hi x] }
    (c.st.tape.head + 2) (by omega) (by simp; omega)
  refine ⟨_, _, e1, e2, ?_⟩
  have hx : Tape.valAt (R := R) { c.st.tape with
      mem := overlay (overlay c.st.tape.mem c.st.tape.head [Rep.lo x, Rep.hi x])
        (c.st.tape.head + 2) [Rep.lo y, Rep.hi y] } c.st.tape.head = .ok x := by
    refine getReal_overlay x hp (by simp; omega) ?_ ?_
    · exact (overlay_lt (by omega)).trans (overlay_get (j := 0) (by simp))
    · exact (overlay_lt (by omega)).trans (overlay_get (j := 1) (by simp))
  refine ⟨hx, ?_, hx, hx⟩
  refine getReal_overlay y (by omega) (by simp; omega) ?_ ?_
  · exact overlay_get (j := 0) (by simp)
  · exact overlay_get (j := 1) (by simp)

/-- **C37**, between API calls: nothing has been stored at the current position, both queries return zero.
Missing: see `C37_refuted`. -/
theorem C37_between_partial (hr : Reach h c) (room : c.st.tape.head + 3 ≤ c.st.tape.size) :
    c.st.tape.valCurr = .ok (Arith.zero : R) ∧ c.st.tape.adjCurr = .ok (Arith.zero : R) ∧
    c.st.tape.adjAt c.st.tape.head = .ok (Arith.zero : R) := by
  obtain ⟨g, val, adj, G⟩ := hr.good
  have hp := G.inv.ok.head_pos
  have hz : ∀ p, c.st.tape.head ≤ p → c.st.tape.mem p = Rep.ofNat 0 := fun p h => G.inv.ok.zero p (Or.inr h)
  have lo := LawfulRep.lo_zero (W := W) (R := R)
  have hi := LawfulRep.hi_zero (W := W) (R := R)
  have e : c.st.tape.valCurr = .ok (Arith.zero : R) :=
    getReal_overlay _ hp (by omega) (by rw [hz _ (by omega), lo]) (by rw [hz _ (by omega), hi])
  exact ⟨e, e, getReal_overlay _ (by omega) (by omega) (by rw [hz _ (by omega), lo])
    (by rw [hz _ (by omega), hi])⟩

end lengths
end generic

/-! ## Concrete cases and counterexamples -/

/-- after `demo` (two variables and their product) -/
theorem demo_query : ∃ c : Client ℝ, Reach demo c ∧ c.st.tape.head + 3 ≤ c.st.tape.size ∧
    existing c.st = [⟨1⟩, ⟨2⟩, ⟨3⟩] ∧ seen c.st ⟨2⟩ = .ok (⟨3, 2, [], []⟩ : View ℝ) ∧
    seen c.st ⟨3⟩ = .ok (⟨6, 1, [1, 7], []⟩ : View ℝ) := by
  obtain ⟨c, hr, -, -, H⟩ := demo_here (W := ℝ)
  refine ⟨c, hr, ?_, ?_, ?_, ?_⟩
  · have h1 := H.inv.ok.head_le
    have hi : initTapeSize = 12288 := rfl
    rw [H.head] at h1 ⊢
    rcases H.inv.ok.form with h | ⟨k, h⟩
    · omega
    · have := Nat.one_le_two_pow (n := k)
      rw [h, hi]
      omega
  · simp [existing, H.inv.vhead, demoG, List.range_succ]
  · rw [H.inv.seen (nd := ⟨7, [], [], .dummy, .plain⟩) ⟨by simp, rfl⟩]
    simp [Node.view, demoV, demoA]
  · rw [H.inv.seen (nd := ⟨13, [1, 7], [], .mulVV, .plain⟩) ⟨by simp, rfl⟩]
    simp [Node.view, demoV, demoA]

/-- the hypotheses of the C35 and C37 theorems are met: the second variable has no operands -/
example : ∃ c : Client ℝ, Reach demo c ∧ (⟨2⟩ : Var) ∈ existing c.st ∧
    (∃ w : View ℝ, seen c.st ⟨2⟩ = .ok w ∧ w.ops = []) ∧ (⟨3⟩ : Var) ∈ existing c.st ∧
    (∃ w : View ℝ, seen c.st ⟨3⟩ = .ok w ∧ w.ops = 1 :: [7]) ∧ c.st.tape.head + 3 ≤ c.st.tape.size := by
  obtain ⟨c, hr, hs, he, h2, h3⟩ := demo_query
  exact ⟨c, hr, by simp [he], ⟨_, h2, rfl⟩, by simp [he], ⟨_, h3, rfl⟩, hs⟩

/-- **C35 is false of the code**: the record of a product has 8 words, reported are 10. -/
theorem C35_refuted : ¬ ∀ (h : List (Call ℝ)) (c : Client ℝ), Reach h c → ∀ v ∈ existing c.st, ∀ w : View ℝ,
    seen c.st v = .ok w → reported c.st v = .ok w.words := by
  intro hall
  obtain ⟨c, hr, hs, he, h2, h3⟩ := demo_query
  have := hall demo c hr ⟨3⟩ (by simp [he]) _ h3
  rw [C35_iff hr (by simp [he]) h3 rfl] at this
  simp at this

/-- **C37 is false of the code**: with value 1 and adjoint 2 at the current position, the query for the
adjoint there gives 1. -/
theorem C37_refuted : ∃ (h : List (Call ℝ)) (c : Client ℝ), Reach h c ∧ ∃ t t', c.st.tape.setValCurr (1 : ℝ) = .ok t ∧
    t.setAdjCurr (2 : ℝ) = .ok t' ∧ t'.adjAt t'.head = .ok (2 : ℝ) ∧ t'.adjCurr = .ok (1 : ℝ) := by
  obtain ⟨c, hr, hs, he, h2, h3⟩ := demo_query
  obtain ⟨t, t', a, b, -, d, -, e⟩ := C37_stored_partial hr hs (1 : ℝ) 2
  exact ⟨demo, c, hr, t, t', a, b, d, e⟩

/-- C40: in the state after `demo` the queries return -/
example : ∃ c : Client ℝ, Reach demo c ∧ (query ⟨3⟩ : M ℝ (View ℝ)) c.st = .ok (⟨6, 1, [1, 7], []⟩, c.st) := by
  obtain ⟨c, hr, hs, he, h2, h3⟩ := demo_query
  refine ⟨c, hr, ?_⟩
  unfold seen at h3
  split at h3
  case h_1 w s' e =>
    cases h3
    rw [e, (C40_reading (W := ℝ) (R := ℝ) ⟨3⟩ ⟨3⟩ 0 [] .eq).2.2.2.2.2.2.2.2.2.1 _ _ _ e]
  case h_2 => cases h3

end Props
