import Mathlib.Analysis.Calculus.FDeriv.Pi
import Mathlib.Analysis.Calculus.Deriv.Pi
import Mathlib.Analysis.Calculus.Deriv.Comp

/-!
# What "the gradient" and "the Jacobian" mean

In the usual sense of analysis (Fréchet derivative on `ℝⁿ`), for functions of lists of `n` reals.
-/

namespace Spec

/-- `df` is the list of partial derivatives of `F` at `x`: `F` is differentiable at `x` and its
derivative is `dy ↦ Σᵢ dfᵢ dyᵢ`. -/
def IsGradAt (F : List ℝ → ℝ) (x df : List ℝ) : Prop :=
  df.length = x.length ∧
  HasFDerivAt (fun y : Fin x.length → ℝ => F (List.ofFn y))
    (∑ i : Fin x.length, df.getD i 0 • ContinuousLinearMap.proj (R := ℝ) (φ := fun _ => ℝ) i)
    (fun i => x[i])

/-- the partial derivative read off one coordinate: the derivative at `x i` of `F` along coordinate
`i`, the others fixed -/
theorem IsGradAt.partial {F : List ℝ → ℝ} {x df : List ℝ} (h : IsGradAt F x df) (i : Fin x.length) :
    HasDerivAt (fun t => F (List.ofFn (Function.update (fun j : Fin x.length => x[j]) i t)))
      (df.getD i 0) x[i] := by
  have hu : HasDerivAt (Function.update (fun j : Fin x.length => x[j]) i)
      (Pi.single i (1 : ℝ)) x[i] := hasDerivAt_update _ i _
  have he : Function.update (fun j : Fin x.length => x[j]) i x[i] = fun j => x[j] := by
    funext j; by_cases hj : j = i
    · subst hj; simp
    · simp [hj]
  have h2 := h.2
  rw [← he] at h2
  have := h2.comp_hasDerivAt (f := Function.update (fun j : Fin x.length => x[j]) i) x[i] hu
  refine this.congr_deriv ?_
  simp [ContinuousLinearMap.sum_apply, Pi.single_apply]

/-- a list of partial derivatives is determined by the function -/
theorem IsGradAt.unique {F : List ℝ → ℝ} {x df df' : List ℝ} (h : IsGradAt F x df)
    (h' : IsGradAt F x df') : df = df' := by
  apply List.ext_getElem (by rw [h.1, h'.1])
  intro n h1 h2
  have hn : n < x.length := by rw [← h.1]; exact h1
  have := (h.partial ⟨n, hn⟩).unique (h'.partial ⟨n, hn⟩)
  simpa [List.getD_eq_getElem?_getD, h1, h2] using this

end Spec
