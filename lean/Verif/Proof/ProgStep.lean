import Verif.Proof.InstrStep

/-!
# Whole programs
-/

set_option linter.unusedSectionVars false

namespace Fz
open Arith Spec

variable {W : Type} [Rep W ℝ] [LawfulRep W ℝ] {lf : Prop}
variable {E : Type} [NormedAddCommGroup E] [NormedSpace ℝ E]
variable {s s' s'' : St W} {g g' g'' : Graph ℝ} {val adj val' adj' val'' adj'' : Nat → ℝ}
  {D ε D' ε' D'' ε'' : Nat → E →L[ℝ] ℝ} {x0 : E} {env : List Var} {σ : E → List ℝ}

theorem Rel.op_cmp (o : Rel) (a b : ℝ) : o.op.cmp a b = true ↔ o.holds a b := by
  cases o <;> simp [Rel.op, RelOp.cmp, Rel.holds]

/-- the outcome of running a program -/
def StepOuts (lf : Prop) (x0 : E) (s : St W) (g : Graph ℝ) (val adj : Nat → ℝ) (D ε : Nat → E →L[ℝ] ℝ) (s' : St W)
    (words : Nat) (outs : List Var) (τ : E → List ℝ) : Prop :=
  ∃ g' val' adj' D' ε', Sim s' g' val' adj' D' ε' ∧
    Grows lf s g val adj D ε s' g' val' adj' D' ε' words ∧ outs.length = (τ x0).length ∧
    ∀ k (h : k < outs.length), Tracks x0 g' val' D' outs[k] (fun x => (τ x).getD k 0)

theorem StepOuts.congr {n : Nat} {outs : List Var} {τ τ' : E → List ℝ}
    (h : StepOuts lf x0 s g val adj D ε s' n outs τ) (he : ∀ᶠ x in nhds x0, τ' x = τ x) :
    StepOuts lf x0 s g val adj D ε s' n outs τ' := by
  obtain ⟨g', val', adj', D', ε', sim, gr, hl, tr⟩ := h
  refine ⟨g', val', adj', D', ε', sim, gr, by rw [he.self_of_nhds]; exact hl, fun k hk => ?_⟩
  exact (tr k hk).congr (he.mono fun x hx => by simp only [hx])

theorem Rel.stable (o : Rel) {a b : E → ℝ} (ha : ContinuousAt a x0) (hb : ContinuousAt b x0)
    (hne : a x0 ≠ b x0) : ∀ᶠ x in nhds x0, (o.holds (a x) (b x) ↔ o.holds (a x0) (b x0)) := by
  rcases lt_or_gt_of_ne hne with h | h
  · filter_upwards [ha.eventually_lt hb h] with x hx
    cases o <;> simp only [Rel.holds] <;> constructor <;> intro <;> linarith [hx.ne, h.ne]
  · filter_upwards [hb.eventually_lt ha h] with x hx
    cases o <;> simp only [Rel.holds] <;> constructor <;> intro <;> linarith [hx.ne, h.ne]

theorem prog_step : ∀ (p : Prog) {s : St W} {g : Graph ℝ} {val adj : Nat → ℝ} {D ε : Nat → E →L[ℝ] ℝ}
    {env : List Var} {σ : E → List ℝ}, Sim s g val adj D ε → EnvTracks x0 g val D env σ →
    p.Ok (σ x0) → s.tape.head + p.cost (σ x0) ≤ cap →
    (p.hasConst → lf) →
    ∃ outs s', (p.run env : M W (List Var)) s = .ok (outs, s') ∧
      StepOuts lf x0 s g val adj D ε s' (p.cost (σ x0)) outs (fun x => p.sem (σ x)) := by
  intro p
  induction p with
  | ret outs =>
    intro s g val adj D ε env σ h te hok _ _
    refine ⟨outs.map (lookV env), s, rfl, g, val, adj, D, ε, h, Grows.refl _ _ _ _ _ _, by simp [Prog.sem], ?_⟩
    intro k hk
    have hk' : k < outs.length := by simpa using hk
    have ht := te.tr outs[k] (by rw [← te.len x0]; exact hok _ (List.getElem_mem hk'))
    simpa [Prog.sem, List.getD_eq_getElem?_getD, List.getElem?_map, List.getElem?_eq_getElem hk'] using ht
  | op i k ih =>
    intro s g val adj D ε env σ h te hok hcap hleaf
    simp only [Prog.cost] at hcap
    have hleafk : k.hasConst → lf := by
      intro hk; apply hleaf
      cases i <;> first | exact hk | exact trivial
    have hleafi : isConst i → lf := by
      intro hi
      cases i <;> simp only [isConst] at hi
      exact hleaf trivial
    obtain ⟨vs, s', e, g', val', adj', D', ε', sim, gr, te'⟩ :=
      instr_step h te i hok.1 (by omega) hleafi
    have hh := gr.head
    obtain ⟨outs, s'', e', g'', val'', adj'', D'', ε'', sim', gr', hl, tr⟩ :=
      ih sim te' hok.2 (by omega) hleafk
    refine ⟨outs, s'', ?_, g'', val'', adj'', D'', ε'', sim', gr.trans gr' sim.inv, hl, tr⟩
    simp only [Prog.run]
    rw [bind_ok e]; exact e'
  | ifVV o i j p q ihp ihq =>
    intro s g val adj D ε env σ h te hok hcap hleaf
    obtain ⟨h1, h2, hne, hp, hq⟩ := hok
    have t1 := te.tr i (by rw [← te.len x0]; exact h1)
    have t2 := te.tr j (by rw [← te.len x0]; exact h2)
    have er := relVV_ok h.inv t1.has t2.has o.op
    rw [← t1.value, ← t2.value] at er
    have st := Rel.stable o t1.deriv.continuousAt t2.deriv.continuousAt hne
    simp only [Prog.cost] at hcap ⊢
    simp only [Prog.run]
    by_cases hc : o.holds (look (σ x0) i) (look (σ x0) j)
    · rw [if_pos hc] at hcap ⊢
      obtain ⟨outs, s', e, so⟩ := ihp h te (hp hc) hcap (fun hk => hleaf (Or.inl hk))
      refine ⟨outs, s', ?_, so.congr (st.mono fun x hx => ?_)⟩
      · rw [bind_ok er, if_pos ((Rel.op_cmp _ _ _).mpr hc)]; exact e
      · simp only [Prog.sem]; rw [if_pos (hx.mpr hc)]
    · rw [if_neg hc] at hcap ⊢
      obtain ⟨outs, s', e, so⟩ := ihq h te (hq hc) hcap (fun hk => hleaf (Or.inr hk))
      refine ⟨outs, s', ?_, so.congr (st.mono fun x hx => ?_)⟩
      · rw [bind_ok er, if_neg (fun hh => hc ((Rel.op_cmp _ _ _).mp hh))]; exact e
      · simp only [Prog.sem]; rw [if_neg (fun hh => hc (hx.mp hh))]
  | ifVD o i d p q ihp ihq =>
    intro s g val adj D ε env σ h te hok hcap hleaf
    obtain ⟨h1, hne, hp, hq⟩ := hok
    have t1 := te.tr i (by rw [← te.len x0]; exact h1)
    have er := relVD_ok h.inv t1.has o.op d
    rw [← t1.value] at er
    have st := Rel.stable o t1.deriv.continuousAt (continuousAt_const (y := d)) hne
    simp only [Prog.cost] at hcap ⊢
    simp only [Prog.run]
    by_cases hc : o.holds (look (σ x0) i) d
    · rw [if_pos hc] at hcap ⊢
      obtain ⟨outs, s', e, so⟩ := ihp h te (hp hc) hcap (fun hk => hleaf (Or.inl hk))
      refine ⟨outs, s', ?_, so.congr (st.mono fun x hx => ?_)⟩
      · rw [bind_ok er, if_pos ((Rel.op_cmp _ _ _).mpr hc)]; exact e
      · simp only [Prog.sem]; rw [if_pos (hx.mpr hc)]
    · rw [if_neg hc] at hcap ⊢
      obtain ⟨outs, s', e, so⟩ := ihq h te (hq hc) hcap (fun hk => hleaf (Or.inr hk))
      refine ⟨outs, s', ?_, so.congr (st.mono fun x hx => ?_)⟩
      · rw [bind_ok er, if_neg (fun hh => hc ((Rel.op_cmp _ _ _).mp hh))]; exact e
      · simp only [Prog.sem]; rw [if_neg (fun hh => hc (hx.mp hh))]

end Fz
