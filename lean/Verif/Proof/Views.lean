import Verif.Proof.History
import Verif.Spec.View
import Verif.Spec.Region

/-!
# Lemmas on what can be read about variables
-/

set_option linter.unusedSectionVars false

namespace Fz
variable {W R : Type} [Arith R] [Rep W R] [LawfulRep W R]
open Arith Spec
variable {s s' : St W} {g g' : Graph R} {val adj val' adj' : Nat → R}

/-- the existing variables are those of the graph -/
theorem mem_existing (h : Inv s g val adj) {v : Var} : v ∈ existing s ↔ g.Has v := by
  have := h.vhead
  simp only [existing, List.mem_map, List.mem_range]
  constructor
  · rintro ⟨k, hk, rfl⟩
    exact ⟨by simp, by simp only; omega⟩
  · intro hv
    exact ⟨v.vi - 1, by have := hv.2; have := hv.1; omega, by
      have := hv.1
      cases v
      simp only [Var.mk.injEq] at *
      omega⟩

/-- what is read about a record -/
def Node.view (nd : Node R) (val adj : Nat → R) : View R := ⟨val nd.pos, adj nd.pos, nd.ops, nd.dops⟩

theorem Inv.seen (h : Inv s g val adj) {v : Var} {nd : Node R} (hv : g.At v nd) :
    seen s v = .ok (nd.view val adj) := by
  have hh : g.Has v := ⟨hv.1, by have := (List.getElem?_eq_some_iff.mp hv.2).1; have := hv.1; omega⟩
  have hp : g.pos v = nd.pos := by
    obtain ⟨nd', h1, h2⟩ := hh.at
    rw [← h2, h1.unique hv]
  have hr := h.recIn hv.mem
  have e : (query v : M W (View R)) s = .ok (nd.view val adj, s) := by
    unfold query
    rw [bind_ok (h.varVal hh), bind_ok (h.varAdj hh), bind_ok (h.getV hv)]
    unfold Vari.operandIndex Vari.dataOperand
    rw [bind_ok (readTape_ok (f := fun t => t.operandIndex nd.pos) hr.operandIndex),
      bind_ok (readTape_ok (f := fun t => t.dataOperand nd.pos) hr.dataOperand), hp]
    rfl
  unfold Spec.seen
  rw [e]

/-- the same record, up to its chain pointer, in a later graph -/
theorem Graph.Prefix.atErase (h : g.erase.Prefix g'.erase) {v : Var} {nd : Node R} (hv : g.At v nd) :
    ∃ c, g'.At v { nd with chain := c } := by
  obtain ⟨c, hc⟩ := h.getErase hv.2
  exact ⟨c, hv.1, hc⟩

/-- creation leaves what is read about earlier variables -/
theorem Evo.seen (h : Inv s g val adj) (ev : Evo φ s g val adj s' g' val' adj') {v : Var} (hv : g.Has v) :
    seen (R := R) s' v = seen s v := by
  obtain ⟨nd, h1, _⟩ := hv.at
  obtain ⟨c, hc⟩ := ev.pre.atErase h1
  rw [h.seen h1, ev.inv.seen hc]
  have hb := (h.wf.below nd h1.mem).2
  simp only [Node.len] at hb
  simp only [Node.view]
  rw [ev.val _ (by omega), ev.adj _ (by omega)]

theorem exec_make' {c c' : Client W} {m : Make R} (hx : (Call.make m).exec c = .ok c') :
    (∀ i ∈ m.args, i < c.env.length) ∧ ∃ vs s', m.call c.env c.st = .ok (vs, s') ∧
      c' = ⟨s', c.env ++ vs, c.marks⟩ := by
  unfold Call.exec at hx
  split at hx
  case isFalse => cases hx
  rename_i ha
  refine ⟨ha, ?_⟩
  unfold Call.step at hx
  simp only at hx
  cases hc : m.call c.env c.st with
  | error e => rw [hc] at hx; cases hx
  | ok p =>
    obtain ⟨vs, s'⟩ := p
    rw [hc] at hx
    cases hx
    exact ⟨vs, s', rfl, rfl⟩

/-- value, and nothing else -/
theorem Inv.assign_seen (h : Inv s g val adj) {v : Var} (hv : g.Has v) (d : R) :
    ∃ m, (v.assign d : M W Unit) s = .ok ((), s.withMem m) ∧ Inv (s.withMem m) g (upd val (g.pos v) d) adj ∧
      ∃ p, ∀ q, q ≠ p → q ≠ p + 1 → m q = s.tape.mem q := by
  obtain ⟨nd, h1, h2⟩ := hv.at
  have hb := h.wf.below nd h1.mem
  have hl := h.ok.head_le
  simp only [Node.len] at hb
  obtain ⟨m, e, i⟩ := h.setVal h1.mem d
  have e' : s.tape.setValAt nd.pos d = .ok { s.tape with mem := overlay s.tape.mem nd.pos [Rep.lo d, Rep.hi d] } :=
    Tape.wrSec_ok _ s.tape nd.pos (by omega) (by simp; omega)
  rw [e'] at e
  injection e with e
  injection e with _ _ e
  refine ⟨m, ?_, by rw [← h2]; exact i, nd.pos, ?_⟩
  · unfold Var.assign setIndexedVal
    rw [bind_ok (h.getV h1)]
    rw [e] at e'
    exact modTape_ok (f := fun t => t.setValAt nd.pos d) (s := s) e'
  · intro q h1 h2
    rw [← e]
    by_cases hq : q < nd.pos
    · exact overlay_lt hq
    · exact overlay_ge (by simp; omega)

/-- adjoint, and nothing else -/
theorem Inv.setAdj_seen (h : Inv s g val adj) {v : Var} (hv : g.Has v) (d : R) :
    ∃ m, (setIndexedAdj v.vi d : M W Unit) s = .ok ((), s.withMem m) ∧
      Inv (s.withMem m) g val (upd adj (g.pos v) d) ∧
      ∃ p, ∀ q, q ≠ p → q ≠ p + 1 → m q = s.tape.mem q := by
  obtain ⟨nd, h1, h2⟩ := hv.at
  have hb := h.wf.below nd h1.mem
  have hl := h.ok.head_le
  simp only [Node.len] at hb
  obtain ⟨m, e, i⟩ := h.setAdj h1.mem d
  have e' : s.tape.setAdjAt nd.pos d = .ok { s.tape with mem := overlay s.tape.mem (nd.pos + 2) [Rep.lo d, Rep.hi d] } :=
    Tape.wrSec_ok _ s.tape (nd.pos + 2) (by omega) (by simp; omega)
  rw [e'] at e
  injection e with e
  injection e with _ _ e
  refine ⟨m, ?_, by rw [← h2]; exact i, nd.pos + 2, ?_⟩
  · unfold setIndexedAdj
    rw [bind_ok (h.getV h1)]
    rw [e] at e'
    exact modTape_ok (f := fun t => t.setAdjAt nd.pos d) (s := s) e'
  · intro q h1 h2
    rw [← e]
    by_cases hq : q < nd.pos + 2
    · exact overlay_lt hq
    · exact overlay_ge (by simp; omega)

theorem Graph.Has.inj {v w : Var} (hv : g.Has v) (hw : g.Has w) (hi : Inv s g val adj)
    (h : g.pos v = g.pos w) : v = w := by
  obtain ⟨a, h1, h2⟩ := hv.at
  obtain ⟨b, h3, h4⟩ := hw.at
  have hlt1 := (List.getElem?_eq_some_iff.mp h1.2).1
  have hlt2 := (List.getElem?_eq_some_iff.mp h3.2).1
  have ha := (List.getElem?_eq_some_iff.mp h1.2).2
  have hb := (List.getElem?_eq_some_iff.mp h3.2).2
  by_contra hc
  have hne : v.vi - 1 ≠ w.vi - 1 := by
    intro he
    apply hc
    have := hv.1
    have := hw.1
    cases v; cases w
    simp only [Var.mk.injEq] at *
    omega
  have hs := List.pairwise_iff_getElem.mp hi.wf.sorted
  rcases Nat.lt_or_gt_of_ne hne with hl | hl
  · have := hs _ _ hlt1 hlt2 hl
    rw [ha, hb] at this
    simp only [Node.len] at this
    omega
  · have := hs _ _ hlt2 hlt1 hl
    rw [ha, hb] at this
    simp only [Node.len] at this
    omega

end Fz
