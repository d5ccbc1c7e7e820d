import Verif.Proof.Service

/-!
# C51: the objects of the solver

`solEvents pol k sens neq ns setup flags`: what a call of `cvodes_sol` does to the objects of the solver (context, vector,
matrix, linear solver, solver memory, sensitivities), with `neq` equations, `ns` sensitivities (`sens`: a version with
variables), one flag for every output time that says whether the solver succeeds, and whether the call returns.
`ProperUse`, `NoLeak`, `ContextLast`: Spec/Trace.lean.
-/

namespace Props
open Fz Spec

/-- the versions of `cvodes_sol`: real arguments only, or variables with at least one sensitivity -/
def Version (sens : Bool) (ns : Nat) : Prop := (sens = false ∧ ns = 0) ∨ (sens = true ∧ 0 < ns)

theorem version_shape {sens : Bool} {ns : Nat} (hv : Version sens ns) (k neq : Nat) (flags : List Bool) :
    Shape k (flags.all id) (solEvents .old k sens neq ns .ok flags).1 ∧
    (solEvents .old k sens neq ns .ok flags).2 = flags.all id := by
  rcases hv with ⟨rfl, rfl⟩ | ⟨rfl, h⟩
  · exact sol_shape_plain k neq flags
  · exact sol_shape_sens k neq h flags

/-- **C51**, for compilers that finalize local variables only: whatever the flags, no object is used or released that
does not exist.  Partial: see `C51_standard_refuted`. -/
theorem C51_proper_partial {sens : Bool} {ns : Nat} (hv : Version sens ns) (k neq : Nat) (setup : Setup)
    (flags : List Bool) : ProperUse (solEvents .old k sens neq ns setup flags).1 := by
  cases setup
  case ok => exact (version_shape hv k neq flags).1.proper
  all_goals
    rw [proper_iff]
    simp [solEvents, stopEvents, From]

/-- **C51**, for compilers that finalize local variables only: if the call returns, every object it has created has been
released, once, the context after all others.  Partial: see `C51_standard_refuted`. -/
theorem C51_released_partial {sens : Bool} {ns : Nat} (hv : Version sens ns) (k neq : Nat) (setup : Setup)
    (flags : List Bool) (hret : (solEvents .old k sens neq ns setup flags).2 = true) :
    NoLeak (solEvents .old k sens neq ns setup flags).1 ∧ ContextLast (solEvents .old k sens neq ns setup flags).1 k := by
  cases setup
  case ok =>
    obtain ⟨h1, h2⟩ := version_shape hv k neq flags
    rw [h2] at hret
    rw [hret] at h1
    exact ⟨h1.noLeak, h1.contextLast⟩
  all_goals simp [solEvents] at hret

/-- the call returns if and only if nothing failed -/
theorem C51_returns {sens : Bool} {ns : Nat} (hv : Version sens ns) (k neq : Nat) (setup : Setup) (flags : List Bool) :
    (solEvents .old k sens neq ns setup flags).2 = true ↔ setup = .ok ∧ ∀ b ∈ flags, b = true := by
  cases setup
  case ok => rw [(version_shape hv k neq flags).2]; simp
  all_goals simp [solEvents]

/-- **C51 fails** with the finalizations that the Fortran standard demands: every call in which the solver is set up
releases pointers that were never defined. -/
theorem C51_standard_refuted (k : Nat) (sens : Bool) (neq ns : Nat) (flags : List Bool) :
    ¬ ProperUse (solEvents .standard k sens neq ns .ok flags).1 := by
  intro h
  have hm : Ev.free .undef ∈ (solEvents .standard k sens neq ns .ok flags).1 := by
    simp [solEvents, makeService, Policy.standard, freeService, Service.fresh]
  obtain ⟨a, b, e⟩ := List.append_of_mem hm
  obtain ⟨n, hn, -⟩ := h a _ b e .undef (Or.inr rfl)
  cases hn

/-- **C51 fails** also where only function results are finalized: the solver memory is used after its release. -/
theorem C51_result_refuted (k : Nat) (sens : Bool) (neq ns : Nat) (flags : List Bool) :
    ¬ ProperUse (solEvents ⟨false, true⟩ k sens neq ns .ok flags).1 := by
  intro h
  have hm : ∃ ev rest, (solEvents ⟨false, true⟩ k sens neq ns .ok flags).1 = ev ++ .use (.addr (k + 4)) :: rest ∧
      Ev.free (.addr (k + 4)) ∈ ev := by
    have : (newService k ns).1.mem = .addr (k + 4) := by
      unfold newService
      split <;> rfl
    cases sens
    · exact ⟨(newService k ns).2 ++ freeService (newService k ns).1, _, by simp [solEvents, makeService, this]; rfl,
        by simp [freeService, this]⟩
    · exact ⟨(newService k ns).2 ++ freeService (newService k ns).1, _, by simp [solEvents, makeService, this]; rfl,
        by simp [freeService, this]⟩
  obtain ⟨ev, rest, e, hf⟩ := hm
  obtain ⟨n, hn, -, h2⟩ := h ev _ rest e (.addr (k + 4)) (Or.inl rfl)
  cases hn
  exact h2 hf

/-- **C51 fails** with an empty list of parameters or an empty state as variables: the vectors of sensitivities are not
created, and asked for. -/
theorem C51_empty_refuted (pol : Policy) (k neq : Nat) (flags : List Bool) :
    ¬ ProperUse (solEvents pol k true neq 0 .ok (true :: flags)).1 := by
  intro h
  have hm : Ev.use .undef ∈ (solEvents pol k true neq 0 .ok (true :: flags)).1 := by
    simp [solEvents, makeService, newService_plain, outLoop, plainService]
  obtain ⟨a, b, e⟩ := List.append_of_mem hm
  obtain ⟨n, hn, -⟩ := h a _ b e .undef (Or.inl rfl)
  cases hn

/-- a call with two equations, three sensitivities, two output times -/
example : Version true 3 ∧ (solEvents .old 0 true 2 3 .ok [true, true]).2 = true ∧
    Ev.free (.addr 5) ∈ (solEvents .old 0 true 2 3 .ok [true, true]).1 := by
  refine ⟨Or.inr ⟨rfl, by omega⟩, rfl, by decide⟩

end Props
