import Verif.Spec.Sums

/-! # Sums in any order: lists related entry by entry -/

namespace Fz
open Spec

theorem forall2_split {α β : Type} {P : α → β → Prop} : ∀ {l₁ l₂ : List α} {v : List β}, List.Forall₂ P (l₁ ++ l₂) v →
    ∃ v₁ v₂, v = v₁ ++ v₂ ∧ List.Forall₂ P l₁ v₁ ∧ List.Forall₂ P l₂ v₂
  | [], _, v, h => ⟨[], v, rfl, .nil, h⟩
  | _ :: l₁, l₂, _ :: v, .cons h1 h2 => by
    obtain ⟨v₁, v₂, rfl, h3, h4⟩ := forall2_split h2
    exact ⟨_ :: v₁, v₂, rfl, .cons h1 h3, h4⟩

end Fz
