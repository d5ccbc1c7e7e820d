import Mathlib.Data.List.Perm.Basic

/-!
# Sums in any order

The Fortran standard leaves to the compiler in which order `sum`, `dot_product` and `matmul` add (from left to right,
by several partial sums, pairwise, ...), and whether they start from zero.
-/

namespace Spec

/-- `s` is a sum of the numbers of the list by `k` additions, in some order -/
inductive Sums {α : Type} (zero : α) (add : α → α → α) : List α → Nat → α → Prop
  | none : Sums zero add [] 0 zero
  | one (x : α) : Sums zero add [x] 0 x
  | join {l₁ l₂ l : List α} {k₁ k₂ : Nat} {a b : α} : Sums zero add l₁ k₁ a → Sums zero add l₂ k₂ b →
      (l₁ ++ l₂).Perm l → Sums zero add l (k₁ + k₂ + 1) (add a b)

/-- from left to right, starting from zero -/
theorem sums_fold {α : Type} {zero : α} {add : α → α → α} (l : List α) :
    ∃ k ≤ l.length, Sums zero add l k (l.foldl add zero) := by
  have : ∀ (l l₀ : List α) (k : Nat) (a : α), Sums zero add l₀ k a →
      Sums zero add (l₀ ++ l) (k + l.length) (l.foldl add a) := by
    intro l
    induction l with
    | nil => intro l₀ k a h; simpa using h
    | cons x l ih =>
      intro l₀ k a h
      have := ih (l₀ ++ [x]) (k + 1) (add a x) (.join h (.one x) (.refl _))
      simpa [Nat.add_comm, Nat.add_left_comm, Nat.add_assoc] using this
  exact ⟨l.length, Nat.le_refl _, by simpa using this l [] 0 zero .none⟩

end Spec
