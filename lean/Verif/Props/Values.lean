import Verif.Proof.Value
import Verif.Proof.Demo

/-!
# Forward values on the whole domain

`C03_values` needs a differentiable point.  The values themselves are right wherever the functions are
defined.
-/

set_option linter.unusedSectionVars false

namespace Props
open Fz Spec

variable {W : Type} [Rep W ℝ] [LawfulRep W ℝ]

/-- **C03**, on the whole domain: the forward values are the mathematical ones in every reachable state,
also at points where the program is not differentiable (`abs(0)`, `sqrt(0)`, `asin(1)`, a power of
base 0, `norm2` of a zero vector), where compared numbers are equal, and for `x + 0.0`, `1.0 * x`, ...;
running the program never fails. -/
theorem C03_everywhere {h : List (Call ℝ)} {c : Client W} (hr : Reach h c) {ys : List ℝ}
    (hys : vals c.env c.st = .ok (ys, c.st)) (p : Prog) (x : List ℝ) (hok : p.VOk (x ++ ys))
    (hroom : Room c.st p x ys) :
    ∃ s', (do let xv ← newVars x
              let outs ← p.run (xv ++ c.env)
              vals outs : M W (List ℝ)) c.st = .ok (p.sem (x ++ ys), s') := by
  obtain ⟨g, val, adj, G⟩ := hr.good
  exact program_value G.inv G.has (G.vals hys) hok hroom

/-- the condition is weaker than that of `C03_values` -/
theorem Ok_VOk_instr (i : Instr) (env : List ℝ) (h : i.Ok env) : i.VOk env := by
  cases i with
  | un f i =>
    refine ⟨h.1, ?_⟩
    have hd := h.2
    cases f <;> simp only [Un.vdom, Un.dom] at hd ⊢ <;> first | exact hd | exact ⟨hd.1.le, hd.2.le⟩ | exact hd.le
  | bin f i j =>
    refine ⟨h.1, h.2.1, ?_⟩
    have hd := h.2.2
    cases f <;> simp only [Bin.vdomVV, Bin.domVV] at hd ⊢ <;>
      first | exact hd | exact hd.imp id fun h => Or.inl ⟨h.1, by linarith [h.2]⟩
  | binVD f i d =>
    refine ⟨h.1, ?_⟩
    obtain ⟨-, hd, hx⟩ := h
    cases f <;> simp only [Bin.vdomVD, Bin.domVD] at hd ⊢ <;> try exact hd
    refine ⟨?_, hx⟩
    rcases lt_trichotomy (look env i) 0 with hlt | h0 | hp
    · refine Or.inr (Or.inr ⟨hlt.ne, ?_⟩)
      rcases hd with h | rfl | rfl | h | h
      · linarith
      · exact ⟨1, by norm_num⟩
      · exact ⟨2, by norm_num⟩
      · exact h.2
      · exact absurd h.1 hlt.ne
    · refine Or.inr (Or.inl ⟨h0, ?_⟩)
      rcases hd with h | rfl | rfl | h | ⟨-, rfl | h⟩
      · linarith
      · norm_num
      · norm_num
      · exact absurd h0 h.1
      · exact le_refl _
      · linarith
    · exact Or.inl hp
  | binDV f d i =>
    refine ⟨h.1, ?_⟩
    obtain ⟨-, hd, hx⟩ := h
    cases f <;> simp only [Bin.vdomDV, Bin.domDV] at hd ⊢ <;> try exact hd
    · rcases hd with h | h
      · exact Or.inl h
      · exact Or.inr (Or.inl ⟨h.1, h.2.le⟩)
    · exact Or.inl hx
  | norm2 is => exact h.1
  | partials φ dφ is => exact ⟨h.1, by simpa using h.2.1⟩
  | user φ r is ds => exact h.1
  | _ => exact h

/-- the condition is weaker than that of `C03_values` -/
theorem C03_everywhere_covers (p : Prog) (env : List ℝ) (h : p.Ok env) : p.VOk env := by
  induction p generalizing env with
  | ret outs => exact h
  | op i k ih => exact ⟨Ok_VOk_instr i env h.1, ih _ h.2⟩
  | ifVV o i j p q ihp ihq => exact ⟨h.1, h.2.1, fun hc => ihp env (h.2.2.2.1 hc), fun hc => ihq env (h.2.2.2.2 hc)⟩
  | ifVD o i d p q ihp ihq => exact ⟨h.1, fun hc => ihp env (h.2.2.1 hc), fun hc => ihq env (h.2.2.2 hc)⟩

/-- a program used at points where nothing in it is differentiable: `abs`, `sqrt` and `norm2` at 0, a
power of base 0, a comparison of equal numbers, and `x + 0.0` -/
noncomputable def corner : Prog :=
  .op (.un .abs 0) <| .op (.un .sqrt 0) <| .op (.binVD .pow 0 (1 / 2)) <| .op (.norm2 [0, 0]) <|
  .op (.binVD .add 1 0) <| .op (.un .asin 1) <|
  .ifVV .le 0 0 (.ret [5, 6, 7, 8, 9, 10]) (.ret [])

/-- the hypotheses of `C03_everywhere` are met by `corner` after the history `demo`, at `(0, 1)`, where
`corner` is not differentiable -/
example : ∃ (c : Client ℝ) (ys : List ℝ), Reach demo c ∧ vals c.env c.st = .ok (ys, c.st) ∧
    corner.VOk ([0, 1] ++ ys) ∧ ¬ corner.Ok ([0, 1] ++ ys) ∧ Room c.st corner [0, 1] ys ∧
    corner.sem ([0, 1] ++ ys) = [0, 0, 0, 0, 1, Real.pi / 2] := by
  obtain ⟨c, hr, hv, ha, hh, hl, he, -⟩ := demo_reach (W := ℝ)
  refine ⟨c, _, hr, hv, ?_, ?_, ?_, ?_⟩
  · simp [corner, Prog.VOk, Instr.VOk, Instr.sem, Un.vdom, Bin.vdomVD, powDom, look, Rel.holds]
    norm_num
  · simp [corner, Prog.Ok, Instr.Ok, Un.dom, look]
  · simp [Room, hh, corner, Prog.cost, Instr.cost, Un.cost, Bin.costVD, tapeLimit, Rel.holds, look]
  · simp [corner, Prog.sem, Instr.sem, Un.fn, Bin.fn, look, Rel.holds]

end Props
