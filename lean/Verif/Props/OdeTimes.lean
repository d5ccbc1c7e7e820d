import Verif.Props.OdeSol
import Verif.Proof.OdeStale

/-!
# C27: several output times
-/

set_option linter.unusedSectionVars false

namespace Props
open Fz Spec

variable {W : Type} [Rep W ℝ] [LawfulRep W ℝ] {σ : Type}
variable {h : List (Call ℝ)} {c : Client W}

theorem answer_square {fy : ℝ → List Var → List Var → M W (List Var)} (hfy : IsSquare fy) {f : ℝ → List ℝ → List ℝ}
    {g : Graph ℝ} (hc : ∀ nd ∈ g.nodes, nd.ChainOK) : ∀ (call : Solving ℝ σ) {s s' : St W} {val adj : Nat → ℝ} {r},
    Inv s g val adj → answer (newCvsRhsYvar true 1 f fy) call s = .ok (r, s') →
    s'.vhead = s.vhead ∧ (∃ val' adj', Inv s' g val' adj') ∧
      (AsksSens f call ∨ (s.varis (s.vhead + 2)).chain = .mulVV → (s'.varis (s.vhead + 2)).chain = .mulVV) ∧
      (AsksSens f call → (s.varis (s.vhead + 1)).chain ≠ .mulVV) := by
  intro call
  induction call with
  | done e y yS m =>
    intro s s' val adj r hi e
    cases e
    exact ⟨rfl, ⟨val, adj, hi⟩, fun h => h.resolve_left id, fun h => h.elim⟩
  | rhs t y k ih =>
    intro s s' val adj r hi e
    exact ih _ hi e
  | sens t y yS k ih =>
    intro s s' val adj r hi e
    unfold answer at e
    obtain ⟨out, s1, e1, k1⟩ := Fz.bind_inv e
    obtain ⟨a1, a2, a3, val', adj', a4⟩ := sens_square hfy hi hc e1
    obtain ⟨b1, b2, b3, -⟩ := ih _ a4 k1
    rw [a3] at b1 b3
    exact ⟨b1, b2, fun _ => b3 (Or.inr a2), fun _ => a1⟩

/-- **C27 fails** for more than one output time, for `y' = y²` with the initial value given by any variable, in
every reachable state, for every solver that asks for the sensitivity right-hand side on the way to each of the
first two output times: the call does not complete.  The second question finds, in the slot of a new variable, the
propagation rule that the product of the first question has left there (C33). -/
theorem C27_times_refuted (hr : Reach h c) {v : Var} (hv : v ∈ existing c.st) (sv : Solver ℝ σ) (t0 t1 t2 : ℝ)
    (ts : List ℝ) (f : ℝ → List ℝ → List ℝ) (fy : ℝ → List Var → List Var → M W (List Var))
    (hfy : ∀ t y g, fy t [y] [g] = (do
      let r ← mulVV (R := ℝ) y y
      pure [r]))
    (h1 : ∀ z, AsksSens f (sv.step (sv.init t0 [z] (unitVectors 1)) t1)) (h2 : ∀ m, AsksSens f (sv.step m t2)) :
    ∃ e, cvodesSolY0 sv t0 [v] (t1 :: t2 :: ts) f fy c.st = .error e := by
  obtain ⟨g, val, adj, G⟩ := hr.good
  have hg : g.Has v := (mem_existing G.inv).mp hv
  cases e : cvodesSolY0 sv t0 [v] (t1 :: t2 :: ts) f fy c.st with
  | error e' => exact ⟨e', rfl⟩
  | ok r =>
    exfalso
    obtain ⟨yt, s'⟩ := r
    unfold cvodesSolY0 at e
    rw [bind_ok (G.inv.varVals (vs := [v]) (by simpa using hg)), sensInit_y] at e
    obtain ⟨_, s0, e, -⟩ := Fz.bind_inv e
    unfold solLoop at e
    obtain ⟨⟨ierr, y, yS, mem⟩, s1, e1, k1⟩ := Fz.bind_inv e
    obtain ⟨a1, ⟨val1, adj1, i1⟩, a2, -⟩ := answer_square hfy G.cok _ G.inv e1
    have a2 := a2 (Or.inl (h1 _))
    dsimp only at k1
    split at k1
    · cases k1
    obtain ⟨vs, s2, e2, k2⟩ := Fz.bind_inv k1
    unfold solVars at e2
    obtain ⟨gr, s3, e3, k3⟩ := Fz.bind_inv e2
    obtain ⟨rfl, -⟩ := gather_inv _ _ _ _ e3
    obtain ⟨x, s4, e4, k4⟩ := Fz.bind_inv k3
    obtain ⟨-, rfl⟩ := deref_inv e4
    obtain ⟨w, s5, e5, k5⟩ := Fz.bind_inv k4
    obtain ⟨rfl, gr⟩ := partials_grown i1 (by simpa using hg) e5
    cases k5
    obtain ⟨rest, s6, e6, k6⟩ := Fz.bind_inv k2
    unfold solLoop at e6
    obtain ⟨⟨ierr', y', yS', mem'⟩, s7, e7, k7⟩ := Fz.bind_inv e6
    obtain ⟨-, -, -, b⟩ := answer_square (g := g.push _) hfy (by
      intro nd hn
      simp only [Graph.push, List.mem_append, List.mem_singleton] at hn
      rcases hn with hn | rfl
      · exact G.cok nd hn
      · exact (show Chain.notMM .eager by decide).ok _ _ _) _ gr.inv e7
    refine b (h2 _) ?_
    rw [gr.keep.slots _ (by omega), gr.vhead, a1]
    exact a2

/-- the hypotheses are met: the second variable of the history `demo`, the Euler method and two output times -/
example : ∃ c : Client ℝ, Reach demo c ∧ ⟨2⟩ ∈ existing c.st ∧
    ∃ e, cvodesSolY0 euler 0 [⟨2⟩] [1, 2] (fun _ y => y.map fun a => a * a) (odeY square []) c.st = .error e := by
  obtain ⟨c', hr', -, hex, h1, h2, h3, hb⟩ := demo_rates (W := ℝ)
  have hm : (⟨2⟩ : Var) ∈ existing c'.st := by simp [hex]
  refine ⟨c', hr', hm, C27_times_refuted hr' hm euler 0 1 2 [] _ _ (fun t y g => ?_) (fun _ => trivial)
    fun _ => trivial⟩
  unfold odeY square
  simp [Prog.run, Instr.run, Bin.apiVV, one, lookV]

end Props
