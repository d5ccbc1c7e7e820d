import Verif.Spec.Chosen
import Verif.Proof.Unused

/-!
# The program for other places

`Code.rename` is a case of `Unused`, without further calls.
-/

set_option linter.unusedSectionVars false

namespace Spec
open Fz Arith
variable {R : Type} [Arith R]

theorem results_plain (m : Make R) (ys : List R) : (m.plain ys).length = m.results := by
  unfold Make.results
  cases m <;> simp [Make.plain]

theorem rename_unused (f : Code R) : ∀ (ys ys' : List R) (σ : Nat → Nat), Unused ys ys' σ f (f.rename σ ys.length ys'.length) := by
  induction f with
  | ret is => intro ys ys' σ; exact .ret
  | make m k ih =>
    intro ys ys' σ
    refine .make ?_
    have := ih (ys ++ m.plain ys) (ys' ++ m.plain ys) (after σ ys.length ys'.length)
    rwa [List.length_append, List.length_append, results_plain] at this
  | look i k ih =>
    intro ys ys' σ
    exact .look (ih _ ys ys' σ)

theorem make_rename_sane (m : Make R) (σ : Nat → Nat) : (m.rename σ).Sane ↔ m.Sane := by
  cases m <;> first | exact Iff.rfl | (rename_i f _ _; cases f <;> exact Iff.rfl)

theorem make_rename_plain (m : Make R) (σ : Nat → Nat) : (m.rename σ).Plain ↔ m.Plain := by
  cases m <;> first | exact Iff.rfl | (rename_i f _ _; cases f <;> exact Iff.rfl)

theorem make_rename_regular (m : Make R) (σ : Nat → Nat) : (m.rename σ).Regular ↔ m.Regular := by
  cases m <;> first | exact Iff.rfl | (rename_i f _ _; cases f <;> exact Iff.rfl)

theorem rename_sane (f : Code R) : ∀ (σ : Nat → Nat) (n n' : Nat), f.Sane → (f.rename σ n n').Sane := by
  induction f with
  | ret is => intro _ _ _ h; exact h
  | make m k ih => intro σ n n' h; exact ⟨(make_rename_sane m σ).mpr h.1, ih _ _ _ h.2⟩
  | look i k ih => intro σ n n' h x; exact ih _ _ _ _ (h x)

theorem rename_plain (f : Code R) : ∀ (σ : Nat → Nat) (n n' : Nat), f.Plain → (f.rename σ n n').Plain := by
  induction f with
  | ret is => intro _ _ _ h; exact h
  | make m k ih => intro σ n n' h; exact ⟨(make_rename_plain m σ).mpr h.1, ih _ _ _ h.2⟩
  | look i k ih => intro σ n n' h x; exact ih _ _ _ _ (h x)

theorem rename_regular (f : Code R) : ∀ (σ : Nat → Nat) (n n' : Nat), f.Regular → (f.rename σ n n').Regular := by
  induction f with
  | ret is => intro _ _ _ h; exact h
  | make m k ih => intro σ n n' h; exact ⟨(make_rename_regular m σ).mpr h.1, ih _ _ _ h.2⟩
  | look i k ih => intro σ n n' h x; exact ih _ _ _ _ (h x)

theorem make_rename_id (m : Make R) : m.rename id = m := by
  cases m <;> simp [Make.rename, Matrix'.rename]

theorem after_id (n : Nat) : after id n n = id := by
  funext i
  unfold after
  split
  · rfl
  · rw [id]
    omega

/-- the program itself, when all variables keep their places -/
theorem rename_id (f : Code R) : ∀ n : Nat, f.rename id n n = f := by
  induction f with
  | ret is => intro n; simp [Code.rename]
  | make m k ih => intro n; rw [Code.rename, after_id, ih, make_rename_id]
  | look i k ih =>
    intro n
    rw [Code.rename]
    congr 1
    funext x
    exact ih x n

end Spec
