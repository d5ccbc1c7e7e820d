import Verif.Props.Rhs
import Verif.Props.Proper
import Verif.Props.Examples

/-!
# C27 and C78: the call completes anywhere in a program

`C27_completes` and `C78_completes_partial` (library with checks of array shapes, one output time) are about a program
that begins with the call.  Here the call comes after any history of correct calls that has closed no nested region
(`Orderly false`, Spec/Proper.lean), and its initial values or parameters are any variables of the program, computed ones
among them.  The conclusion has both parts: the call completes, and what its variables carry.
-/

set_option linter.unusedSectionVars false

namespace Props
open Fz Spec

variable {W : Type} [Rep W ℝ] [LawfulRep W ℝ] {σ : Type} {c : Client W}

/-- the state after a history of correct calls is one from which right-hand sides can be differentiated -/
theorem orderly_fine (h : Orderly (R := ℝ) false c) (n : Nat) : ∃ g val adj, Fine c.st g val adj n False ∧
    (∀ v ∈ c.env, g.Has v) ∧ c.st.level = c.marks.length := by
  obtain ⟨g, val, adj, S⟩ := orderly_sound h
  exact ⟨g, val, adj, ⟨S.good.inv, fun nd hn => S.fits nd hn val, fun k hk _ v a => S.clean rfl k hk v a [] rfl⟩,
    S.good.has, S.good.lvl⟩

theorem orderly_existing (h : Orderly (R := ℝ) false c) {v : Var} (hv : v ∈ c.env) : v ∈ existing c.st := by
  obtain ⟨g, val, adj, S⟩ := orderly_sound h
  exact (mem_existing S.good.inv).mpr (S.good.has v hv)

theorem orderly_vals (h : Orderly (R := ℝ) false c) {vs : List Var} (hv : ∀ v ∈ vs, v ∈ c.env) {z : List ℝ}
    (hz : vals vs c.st = .ok (z, c.st)) : vs.length = z.length := by
  obtain ⟨g, val, adj, S⟩ := orderly_sound h
  rw [vals_eq S.good.inv (fun v h => S.good.has v (hv v h)) hz]
  simp

/-- after a history of correct calls, the library computes the derivatives of all variables with respect to each -/
theorem orderly_rates (h : Orderly (R := ℝ) false c) {u : Var} (hu : u ∈ existing c.st) : ∃ b, Rates (R := ℝ) c.st u b := by
  obtain ⟨g, val, adj, F, -, -⟩ := orderly_fine h 0
  obtain ⟨D, hD⟩ := F.inv.wf.tangent val (srcAt (g.pos u))
  have r : Rated c.st g val adj D _ u := ⟨⟨F.inv, hD⟩, (mem_existing F.inv).mp hu, fun _ _ => rfl, F.fits⟩
  exact ⟨fun v => D (g.pos v) 1, fun v hv => r.rate ((mem_existing F.inv).mp hv)⟩

/-- from the conclusions for the single variables to one for all of them -/
theorem one_output {pr : Problem} {sv : Solver ℝ σ} {t : ℝ} {m : σ} {n : Nat} {ops : List Var} {s s' : St W}
    {yt : List (List Var)} {ns : Nat} {run : List (List Var) × St W → Prop}
    (hrates : ∀ u ∈ existing s, ∃ b, Rates (R := ℝ) s u b) {v : Var} (hv : v ∈ existing s) (hrun : run (yt, s'))
    (huniq : ∀ {sol sol' : List (List ℝ × List (List ℝ))}, SolvesAll pr sv [t] m sol → SolvesAll pr sv [t] m sol' → sol = sol')
    (key : ∀ u ∈ existing s, ∀ b, Rates s u b → ∃ sol, SolvesAll pr sv [t] m sol ∧ yt.length = 1 ∧ sol.length = 1 ∧
      ∀ k (h1 : k < yt.length) (h2 : k < sol.length), yt[k].length = n ∧ ∀ i (hi : i < yt[k].length),
        i < sol[k].1.length ∧ Gives s s' yt[k][i] (sol[k].1.getD i 0) u (sensSum sol[k].2 ops b i))
    (hg : Succeeds pr sv n ns [t] m) :
    ∃ ys s' sol, run ([ys], s') ∧ ys.length = n ∧ SolvesAll pr sv [t] m [sol] ∧ sol.1.length = n ∧
      ∀ u ∈ existing s, ∃ b, Rates s u b ∧ ∀ i (hi : i < ys.length),
        Gives s s' ys[i] (sol.1.getD i 0) u (sensSum sol.2 ops b i) := by
  obtain ⟨b, hb⟩ := hrates v hv
  obtain ⟨sol, h1, h2, h3, h4⟩ := key v hv b hb
  obtain ⟨ys, rfl⟩ := List.length_eq_one_iff.mp h2
  obtain ⟨sol, rfl⟩ := List.length_eq_one_iff.mp h3
  refine ⟨ys, s', sol, hrun, (h4 0 (by simp) (by simp)).1, h1, ?_, fun u hu => ?_⟩
  · cases h1 with | cons h5 h6 => exact (hg.1 _ h5).2.1
  · obtain ⟨b, hb⟩ := hrates u hu
    obtain ⟨sol', h1', -, -, h4'⟩ := key u hu b hb
    cases huniq h1 h1'
    exact ⟨b, hb, fun i hi => ((h4' 0 (by simp) (by simp)).2 i hi).2⟩

/-- **C27**, initial values, after every history of correct calls that has closed no nested region, one output time:
if the solver succeeds, `cvodes_sol` completes, and its variables have the solver's values and, with respect to every
variable `u` of the program, the derivatives of `C27_initial`: the library computes derivatives `b` of the initial values
with respect to `u`, and component `i` has the derivative `sensSum`. -/
theorem C27_later (h : Orderly (R := ℝ) false c) (hl : c.marks.length < 10) {y0 : List Var} (hy : ∀ v ∈ y0, v ∈ c.env)
    {z : List ℝ} (hz : vals y0 c.st = .ok (z, c.st)) (h0 : y0 ≠ []) (sv : Solver ℝ σ) (t0 t : ℝ)
    (f : ℝ → List ℝ → List ℝ) (p : ℝ → Prog) (K : Nat) (hc : ∀ t, ¬ (p t).hasConst)
    (ha : AsksAll (initProblem f p) sv (CallableL p [] y0.length y0.length K c.st.tape.head 1) [t]
      (sv.init t0 z (unitVectors y0.length)))
    (hg : Succeeds (initProblem f p) sv y0.length y0.length [t] (sv.init t0 z (unitVectors y0.length)))
    (room : c.st.tape.head + y0.length * (6 + 3 * y0.length) + K ≤ tapeLimit) :
    ∃ ys s' sol, cvodesSolY0 sv t0 y0 [t] f (odeY p []) c.st = .ok ([ys], s') ∧ ys.length = y0.length ∧
      SolvesAll (initProblem f p) sv [t] (sv.init t0 z (unitVectors y0.length)) [sol] ∧ sol.1.length = y0.length ∧
      ∀ u ∈ existing c.st, ∃ b, Rates c.st u b ∧ ∀ i (hi : i < ys.length),
        Gives c.st s' ys[i] (sol.1.getD i 0) u (sensSum sol.2 y0 b i) := by
  have hcap : cap = tapeLimit := rfl
  have hn : 0 < y0.length := List.length_pos_of_ne_nil h0
  obtain ⟨g, val, adj, F, hhas, hlv⟩ := orderly_fine h (2 * y0.length)
  obtain ⟨yt, y1, s', e⟩ := solLoop_total (sv := sv) (ops := y0) (n := y0.length)
    (ode := newCvsRhsYvar true y0.length f (odeY p [])) (pr := initProblem f p)
    (ok := CallableL p [] y0.length y0.length K c.st.tape.head 1) rfl (by
      have := @sensTotal_y W _ _ f p y0.length K c.st.tape.head c.st.level
        (by rw [hlv]; simp only [maxNestedStack]; omega) (by omega) hc
      intro g val adj s u y S out hi hhd hl hok
      exact this hi hhd hl ⟨hok.1, hok.2.1, by simpa using hok.2.2.1, hn, fun j => by
        simpa using hok.2.2.2 0 (by omega) j⟩) rfl t
    (sv.init t0 z (unitVectors y0.length)) z F (fun v hv => hhas v (hy v hv)) (by omega) ha.1 hg.1
  have hrun : cvodesSolY0 sv t0 y0 [t] f (odeY p []) c.st = .ok (yt, s') := by
    unfold cvodesSolY0
    rw [bind_ok hz, sensInit_y, bind_ok e]
    rfl
  obtain ⟨l, hr⟩ := C52_reach h
  have hf := (asksAll_mono (ok' := Fair p [] y0.length y0.length K) rfl (fun _ _ _ _ _ h => h) (fun _ _ _ h => h.1) sv _ _ ha).1
  have hex : ∀ v ∈ y0, v ∈ existing c.st := fun v hv => orderly_existing h (hy v hv)
  have key := fun u hu b hb => C27_initial (u := u) (b := b) hr hex hz sv t0 [t] f p K hf (by simpa using room) hu hb hrun
  exact one_output (run := fun r => cvodesSolY0 sv t0 y0 [t] f (odeY p []) c.st = .ok r)
    (fun u hu => orderly_rates h hu) (hex _ (List.getElem_mem hn)) hrun (fun a b => C27_unique f p (.inl rfl) sv [t] a b) key hg

/-- **C27**, three parameters, likewise -/
theorem C27_later_parameters (h : Orderly (R := ℝ) false c) (hl : c.marks.length < 10) {q : List Var}
    (hq : ∀ v ∈ q, v ∈ c.env) {z : List ℝ} (hz : vals q c.st = .ok (z, c.st)) (h3 : q.length = 3) (sv : Solver ℝ σ)
    (t0 t : ℝ) (y : List ℝ) (f : ℝ → List ℝ → List ℝ) (p : ℝ → Prog) (K : Nat) (hc : ∀ t, ¬ (p t).hasConst)
    (ha : AsksAll (paramProblem f p z) sv (CallableL p z y.length q.length K c.st.tape.head 1) [t]
      (sv.init t0 y (List.replicate q.length (List.replicate y.length 0))))
    (hg : Succeeds (paramProblem f p z) sv y.length q.length [t]
      (sv.init t0 y (List.replicate q.length (List.replicate y.length 0))))
    (room : c.st.tape.head + y.length * (6 + 3 * q.length) + K ≤ tapeLimit) :
    ∃ ys y1 s' sol, cvodesSolPar sv t0 y [t] q f (odeP p []) c.st = .ok (([ys], y1), s') ∧ ys.length = y.length ∧
      SolvesAll (paramProblem f p z) sv [t] (sv.init t0 y (List.replicate q.length (List.replicate y.length 0))) [sol] ∧
      sol.1.length = y.length ∧
      ∀ u ∈ existing c.st, ∃ b, Rates c.st u b ∧ ∀ i (hi : i < ys.length),
        Gives c.st s' ys[i] (sol.1.getD i 0) u (sensSum sol.2 q b i) := by
  have hcap : cap = tapeLimit := rfl
  have hlen := orderly_vals h hq hz
  obtain ⟨g, val, adj, F, hhas, hlv⟩ := orderly_fine h (2 * y.length + 3)
  obtain ⟨yt, y1, s', e⟩ := solLoop_total (sv := sv) (ops := q) (n := y.length)
    (ode := newCvsRhsPvar false q.length z f (odeP p [])) (pr := paramProblem f p z)
    (ok := CallableL p z y.length q.length K c.st.tape.head 1) rfl (by
      have := @sensTotal_p W _ _ f p z y.length K c.st.tape.head c.st.level (by omega)
        (by rw [hlv]; simp only [maxNestedStack]; omega) (by omega) hc
      rw [hlen]
      intro g val adj s u y S out hi hhd hl hok
      exact this hi hhd hl ⟨hok.1, hok.2.1, hok.2.2.1, fun j => by simpa using hok.2.2.2 0 (by omega) j⟩) rfl t
    (sv.init t0 y (List.replicate q.length (List.replicate y.length 0))) y F (fun v hv => hhas v (hq v hv)) (by omega)
    ha.1 hg.1
  have hrun : cvodesSolPar sv t0 y [t] q f (odeP p []) c.st = .ok ((yt, y1), s') := by
    unfold cvodesSolPar
    rw [bind_ok hz, sensInit_p]
    exact e
  obtain ⟨l, hr⟩ := C52_reach h
  have hf := (asksAll_mono (ok' := Fair p z y.length q.length K) rfl (fun _ _ _ _ _ h => h) (fun _ _ _ h => h.1) sv _ _ ha).1
  have hex : ∀ v ∈ q, v ∈ existing c.st := fun v hv => orderly_existing h (hq v hv)
  have key := fun u hu b hb => C27_parameters_partial (u := u) (b := b) hr hex hz sv t0 y [t] f p K hf
    (by simpa using room) hu hb hrun
  obtain ⟨ys, s'', sol, e1, r⟩ := one_output (run := fun l => (yt, s') = l) (fun u hu => orderly_rates h hu)
    (hex q[0] (List.getElem_mem (by omega))) rfl (fun a b => C27_unique f p (.inr ⟨z, rfl⟩) sv [t] a b) key hg
  cases e1
  exact ⟨ys, y1, _, sol, hrun, r⟩

/-- **C78** likewise: right-hand sides written as code, initial values.  Partial as `C78_initial_partial`. -/
theorem C78_later_partial (h : Orderly (R := ℝ) false c) (hl : c.marks.length < 10) {y0 : List Var}
    (hy : ∀ v ∈ y0, v ∈ c.env) {z : List ℝ} (hz : vals y0 c.st = .ok (z, c.st)) (h0 : y0 ≠ []) (sv : Solver ℝ σ)
    (t0 t : ℝ) (f : ℝ → List ℝ → List ℝ) (p : ℝ → Proc) (K : Nat)
    (hc : ∀ t, (p t).body.Clean y0.length ∧ (p t).body.NoConst)
    (ha : AsksAll (rhsInit f p) sv (CallableRhs p [] y0.length y0.length K c.st.tape.head 1) [t]
      (sv.init t0 z (unitVectors y0.length)))
    (hg : Succeeds (rhsInit f p) sv y0.length y0.length [t] (sv.init t0 z (unitVectors y0.length)))
    (room : c.st.tape.head + y0.length * (6 + 3 * y0.length) + K ≤ tapeLimit) :
    ∃ ys s' sol, cvodesSolY0 sv t0 y0 [t] f (rhsY p) c.st = .ok ([ys], s') ∧ ys.length = y0.length ∧
      SolvesAll (rhsInit f p) sv [t] (sv.init t0 z (unitVectors y0.length)) [sol] ∧ sol.1.length = y0.length ∧
      ∀ u ∈ existing c.st, ∃ b, Rates c.st u b ∧ ∀ i (hi : i < ys.length),
        Gives c.st s' ys[i] (sol.1.getD i 0) u (sensSum sol.2 y0 b i) := by
  have hcap : cap = tapeLimit := rfl
  have hn : 0 < y0.length := List.length_pos_of_ne_nil h0
  obtain ⟨g, val, adj, F, hhas, hlv⟩ := orderly_fine h (2 * y0.length)
  obtain ⟨yt, y1, s', e⟩ := solLoop_total (sv := sv) (ops := y0) (n := y0.length)
    (ode := newCvsRhsYvar true y0.length f (rhsY p)) (pr := rhsInit f p)
    (ok := CallableRhs p [] y0.length y0.length K c.st.tape.head 1) rfl
    (@sensTotal_cleanY W _ _ y0.length p f K c.st.tape.head c.st.level
        (by rw [hlv]; simp only [maxNestedStack]; omega) (by omega) (fun t => (hc t).1) (fun t => (hc t).2) hn) rfl t
    (sv.init t0 z (unitVectors y0.length)) z F (fun v hv => hhas v (hy v hv)) (by omega) ha.1 hg.1
  have hrun : cvodesSolY0 sv t0 y0 [t] f (rhsY p) c.st = .ok (yt, s') := by
    unfold cvodesSolY0
    rw [bind_ok hz, sensInit_y, bind_ok e]
    rfl
  obtain ⟨l, hr⟩ := C52_reach h
  have hf := (asksAll_mono (ok' := FairRhs p [] y0.length y0.length K) rfl (fun _ _ _ _ _ h => h) (fun _ _ _ h => h.1) sv _ _
    ha).1
  have hex : ∀ v ∈ y0, v ∈ existing c.st := fun v hv => orderly_existing h (hy v hv)
  have key := fun u hu b hb => C78_initial_partial (u := u) (b := b) hr hex hz sv t0 [t] f p (fun t => (hc t).1) K hf
    (by simpa using room) hu hb hrun
  exact one_output (run := fun r => cvodesSolY0 sv t0 y0 [t] f (rhsY p) c.st = .ok r)
    (fun u hu => orderly_rates h hu) (hex _ (List.getElem_mem hn)) hrun (fun a b => C78_unique f p (.inl rfl) sv [t] a b) key hg

/-- **C78**, three parameters.  Partial as `C78_parameters_partial`. -/
theorem C78_later_parameters_partial (h : Orderly (R := ℝ) false c) (hl : c.marks.length < 10) {q : List Var}
    (hq : ∀ v ∈ q, v ∈ c.env) {z : List ℝ} (hz : vals q c.st = .ok (z, c.st)) (h3 : q.length = 3) (sv : Solver ℝ σ)
    (t0 t : ℝ) (y : List ℝ) (f : ℝ → List ℝ → List ℝ) (p : ℝ → Proc) (K : Nat)
    (hc : ∀ t, (p t).body.Clean y.length ∧ (p t).body.NoConst)
    (ha : AsksAll (rhsParam f p z) sv (CallableRhs p z y.length q.length K c.st.tape.head 1) [t]
      (sv.init t0 y (List.replicate q.length (List.replicate y.length 0))))
    (hg : Succeeds (rhsParam f p z) sv y.length q.length [t]
      (sv.init t0 y (List.replicate q.length (List.replicate y.length 0))))
    (room : c.st.tape.head + y.length * (6 + 3 * q.length) + K ≤ tapeLimit) :
    ∃ ys y1 s' sol, cvodesSolPar sv t0 y [t] q f (rhsP p) c.st = .ok (([ys], y1), s') ∧ ys.length = y.length ∧
      SolvesAll (rhsParam f p z) sv [t] (sv.init t0 y (List.replicate q.length (List.replicate y.length 0))) [sol] ∧
      sol.1.length = y.length ∧
      ∀ u ∈ existing c.st, ∃ b, Rates c.st u b ∧ ∀ i (hi : i < ys.length),
        Gives c.st s' ys[i] (sol.1.getD i 0) u (sensSum sol.2 q b i) := by
  have hcap : cap = tapeLimit := rfl
  have hlen := orderly_vals h hq hz
  obtain ⟨g, val, adj, F, hhas, hlv⟩ := orderly_fine h (2 * y.length + 3)
  obtain ⟨yt, y1, s', e⟩ := solLoop_total (sv := sv) (ops := q) (n := y.length)
    (ode := newCvsRhsPvar false q.length z f (rhsP p)) (pr := rhsParam f p z)
    (ok := CallableRhs p z y.length q.length K c.st.tape.head 1) rfl (by
      rw [hlen]
      exact @sensTotal_cleanP W _ _ y.length p f z K c.st.tape.head c.st.level (by omega)
        (by rw [hlv]; simp only [maxNestedStack]; omega) (by omega) (fun t => (hc t).1) (fun t => (hc t).2)) rfl t
    (sv.init t0 y (List.replicate q.length (List.replicate y.length 0))) y F (fun v hv => hhas v (hq v hv)) (by omega)
    ha.1 hg.1
  have hrun : cvodesSolPar sv t0 y [t] q f (rhsP p) c.st = .ok ((yt, y1), s') := by
    unfold cvodesSolPar
    rw [bind_ok hz, sensInit_p]
    exact e
  obtain ⟨l, hr⟩ := C52_reach h
  have hf := (asksAll_mono (ok' := FairRhs p z y.length q.length K) rfl (fun _ _ _ _ _ h => h) (fun _ _ _ h => h.1) sv _ _
    ha).1
  have hex : ∀ v ∈ q, v ∈ existing c.st := fun v hv => orderly_existing h (hq v hv)
  have key := fun u hu b hb => C78_parameters_partial (u := u) (b := b) hr hex hz sv t0 y [t] f p (fun t => (hc t).1) K hf
    (by simpa using room) hu hb hrun
  obtain ⟨ys, s'', sol, e1, r⟩ := one_output (run := fun l => (yt, s') = l) (fun u hu => orderly_rates h hu)
    (hex q[0] (List.getElem_mem (by omega))) rfl (fun a b => C78_unique f p (.inr ⟨z, rfl⟩) sv [t] a b) key hg
  cases e1
  exact ⟨ys, y1, _, sol, hrun, r⟩

/-- **C58**, the example with an ODE: after every history of correct calls that has closed no nested region, for any
three variables as parameters, with one output time, it completes if the solver succeeds, and gives the sensitivities as
derivatives.  Partial as `C58_param_partial`: no question at time 1. -/
theorem C58_param_later_partial (h : Orderly (R := ℝ) false c) (hl : c.marks.length < 10) {a b d : Var}
    (hq : a ∈ c.env ∧ b ∈ c.env ∧ d ∈ c.env) {q1 q2 q3 : ℝ} (hz : vals [a, b, d] c.st = .ok ([q1, q2, q3], c.st))
    (sv : Solver ℝ σ) (t0 t y1 y2 : ℝ)
    (ha : AsksAll (oscillatorProblem q1 q2 q3) sv Planar [t] (sv.init t0 [y1, y2] [[0, 0], [0, 0], [0, 0]]))
    (hg : Succeeds (oscillatorProblem q1 q2 q3) sv 2 3 [t] (sv.init t0 [y1, y2] [[0, 0], [0, 0], [0, 0]]))
    (room : c.st.tape.head + 30 + 74 ≤ tapeLimit) (full : ∀ j, c.st.tape.head + 74 ≠ 12288 * 2 ^ j + 1) :
    ∃ r1 r2 y' s' z1 z2 S, cvodesSolPar sv t0 [y1, y2] [t] [a, b, d] (oscillatorData q1 q2 q3) (odeP oscillator []) c.st =
        .ok (([[r1, r2]], y'), s') ∧
      SolvesAll (oscillatorProblem q1 q2 q3) sv [t] (sv.init t0 [y1, y2] [[0, 0], [0, 0], [0, 0]]) [([z1, z2], S)] ∧
      ∀ u ∈ existing c.st, ∃ k, Rates c.st u k ∧ Gives c.st s' r1 z1 u (sensSum S [a, b, d] k 0) ∧
        Gives c.st s' r2 z2 u (sensSum S [a, b, d] k 1) := by
  have hok : ∀ {t y S}, Planar t y S → CallableL oscillator [q1, q2, q3] 2 3 74 c.st.tape.head 1 t y S := by
    intro t y S hp
    have hf : CallablePar oscillator [q1, q2, q3] 2 74 t y S := osc_fair hp
    refine ⟨hf.1, hf.2.1, hf.2.2.1, fun k hk j => ?_⟩
    obtain ⟨-, h1, -, -⟩ := hp
    match y, h1 with
    | [x1, x2], _ =>
    have hc : (oscillator t).cost ([x1, x2] ++ List.replicate 2 0 ++ [q1, q2, q3]) = 32 := by
      simp [oscillator, Prog.cost, Instr.cost, Un.cost, Bin.costVD]
    obtain rfl : k = 0 := by omega
    rw [hc]
    simpa using full j
  obtain ⟨a1, a2⟩ := asksAll_mono (pr := paramProblem (oscillatorData q1 q2 q3) oscillator [q1, q2, q3])
    (pr' := oscillatorProblem q1 q2 q3) (ok := Planar) (ok' := CallableL oscillator [q1, q2, q3] 2 3 74 c.st.tape.head 1) rfl
    (fun _ _ _ _ => osc_problem) (fun _ _ _ h => hok h) sv [t] _ ha
  have mono := fun r => solves_mono (r := r) (pr := paramProblem (oscillatorData q1 q2 q3) oscillator [q1, q2, q3])
    (pr' := oscillatorProblem q1 q2 q3) (ok := Planar) rfl (fun _ _ _ _ => osc_problem) _ a2.1
  obtain ⟨ys, y', s', sol, e, h1, h2, h3, h4⟩ := C27_later_parameters h hl (q := [a, b, d]) (by simp [hq]) hz rfl sv t0 t [y1, y2]
    (oscillatorData q1 q2 q3) oscillator 74 (fun t => by simp [oscillator, Prog.hasConst]) a1
    ⟨fun r hr => hg.1 r (mono r hr), fun _ _ _ _ => trivial⟩ (by simpa using room)
  obtain ⟨r1, r2, rfl⟩ := List.length_eq_two.mp h1
  obtain ⟨z, S⟩ := sol
  obtain ⟨z1, z2, rfl⟩ := List.length_eq_two.mp h3
  refine ⟨r1, r2, y', s', z1, z2, S, e, solvesAll_mono
    (pr := paramProblem (oscillatorData q1 q2 q3) oscillator [q1, q2, q3]) (pr' := oscillatorProblem q1 q2 q3)
    (ok := Planar) rfl (fun _ _ _ _ => osc_problem) sv [t] a2 h2, fun u hu => ?_⟩
  obtain ⟨k, hk, hk'⟩ := h4 u hu
  exact ⟨k, hk, hk' 0 (by simp), hk' 1 (by simp)⟩

/-! ## The hypotheses are met -/

/-- the second and third of the variables 2, 3, `2 * 3`: the third is computed -/
theorem three_vars : ∃ c : Client W, Orderly (R := ℝ) false c ∧ c.marks.length < 10 ∧ c.st.tape.head = 21 ∧
    ∃ a b d, c.env = [a, b, d] ∧ vals [a, b, d] c.st = .ok (([2, 3, 6] : List ℝ), c.st) ∧
      vals [d] c.st = .ok (([6] : List ℝ), c.st) := by
  obtain ⟨c, o, v, hh, hm⟩ := orderly_three (W := W)
  obtain ⟨g, val, adj, S⟩ := orderly_sound o
  have n : c.env.length = 3 := by simpa using (ValL.ofRead S.good.inv S.good.has v).length_eq.symm
  obtain ⟨a, b, d, e⟩ := List.length_eq_three.mp n
  refine ⟨c, o, by simp [hm], hh, a, b, d, e, by rw [← e]; exact v, ?_⟩
  have h1 := vals_eq S.good.inv S.good.has v
  rw [S.good.inv.varVals (fun v hv => S.good.has v (by rw [e]; simp at hv; simp [hv]))]
  rw [e] at h1
  simp at h1
  simp [h1.2.2]

/-- of `C27_later`: `y' = y²` from the product of two variables, one step of the Euler method from 0 to 1 -/
example : ∃ (c : Client W) (y : Var) (r : Var) (s' : St W), c.env[2]? = some y ∧
    cvodesSolY0 euler 0 [y] [1] (fun _ y => y.map fun a => a * a) (odeY square []) c.st = .ok ([[r]], s') := by
  obtain ⟨c, o, hl, hh, a, b, d, e, -, v⟩ := three_vars (W := W)
  have hu : unitVectors 1 = [[1]] := by simp [unitVectors]
  obtain ⟨ys, s', sol, r, hlen, -⟩ := C27_later o hl (y0 := [d]) (by simp [e]) v (by simp) euler 0 1
    (fun _ y => y.map fun a => a * a) square 30 (by simp [square, Prog.hasConst])
    ⟨⟨⟨⟨rfl, rfl, by simp [square, Prog.Ok, Instr.Ok, Instr.sem, Bin.domVV, euler], by
        simp [square, Prog.cost, Instr.cost, euler]⟩, by simp [euler, unitVectors], by simp [square, Prog.sem, Instr.sem, euler],
        fun k hk j => by
          have := Nat.one_le_two_pow (n := j)
          simp [square, Prog.cost, Instr.cost, euler, hh]
          omega⟩, fun _ _ => trivial⟩, fun _ _ _ _ => trivial⟩
    ⟨by
      intro r h
      cases h with | rhs h =>
      cases h with | sens h1 h2 =>
      cases h2
      obtain ⟨a1, a2⟩ := h1
      rename_i o
      obtain ⟨x, rfl⟩ : ∃ x, o = [x] := List.length_eq_one_iff.mp a1
      have := (a2 0 (by simp [euler, unitVectors])).1
      simp [euler] at this
      simp [euler, unitVectors, initProblem, this], fun _ _ _ _ => trivial⟩ (by simp [hh, tapeLimit])
  obtain ⟨w, rfl⟩ := List.length_eq_one_iff.mp hlen
  exact ⟨c, d, w, s', by simp [e], r⟩

/-- of `C78_later_partial`: the same right-hand side as code -/
example : ∃ (c : Client W) (y : Var) (r : Var) (s' : St W), c.env[2]? = some y ∧
    cvodesSolY0 euler 0 [y] [1] (fun _ y => y.map fun a => a * a) (rhsY copyTimes) c.st = .ok ([[r]], s') := by
  obtain ⟨c, o, hl, hh, a, b, d, e, -, v⟩ := three_vars (W := W)
  have q := copyTimes_asks 6 (hd := c.st.tape.head) (by rw [hh]; simp)
  obtain ⟨ys, s', sol, r, hlen, -⟩ := C78_later_partial o hl (y0 := [d]) (by simp [e]) v (by simp) euler 0 1
    (fun _ y => y.map fun a => a * a) copyTimes 30
    (fun _ => ⟨.inl (by simp [copyTimes, Stmt.NoReal]), by simp [copyTimes, Stmt.NoConst]⟩)
    ⟨q.1, fun _ _ _ _ => trivial⟩ ⟨q.2, fun _ _ _ _ => trivial⟩ (by simp [hh, tapeLimit])
  obtain ⟨w, rfl⟩ := List.length_eq_one_iff.mp hlen
  exact ⟨c, d, w, s', by simp [e], r⟩

/-- of `C27_later_parameters`: `y' = q₁ q₂ y + q₃`, the third parameter being the product of the others -/
example : ∃ (c : Client W) (q : List Var) (r : Var) (y1 : List ℝ) (s' : St W), c.env = q ∧
    cvodesSolPar euler 0 [7] [1] q (fun _ y => y.map fun a => 6 * a + 6) (odeP linear []) c.st = .ok (([[r]], y1), s') := by
  obtain ⟨c, o, hl, hh, a, b, d, e, v, -⟩ := three_vars (W := W)
  obtain ⟨ys, y1, s', sol, r, hlen, -⟩ := C27_later_parameters o hl (q := [a, b, d]) (by simp [e]) v rfl euler 0 1 [7]
    (fun _ y => y.map fun a => 6 * a + 6) linear 60 (by simp [linear, Prog.hasConst])
    ⟨⟨⟨⟨rfl, rfl, by simp [linear, Prog.Ok, Instr.Ok, Instr.sem, Bin.domVV, euler], by
        simp [linear, Prog.cost, Instr.cost, euler]⟩, by simp [euler], by simp [linear, Prog.sem, Instr.sem, euler],
        fun k hk j => by
          have := Nat.one_le_two_pow (n := j)
          simp [linear, Prog.cost, Instr.cost, euler, hh]
          omega⟩, fun _ _ => trivial⟩, fun _ _ _ _ => trivial⟩
    ⟨by
      intro r h
      cases h with | rhs h =>
      cases h with | sens h1 h2 =>
      cases h2
      obtain ⟨a1, a2⟩ := h1
      rename_i o
      obtain ⟨x, x', x'', rfl⟩ : ∃ x x' x'', o = [x, x', x''] := List.length_eq_three.mp a1
      have b0 := (a2 0 (by simp [euler])).1
      have b1 := (a2 1 (by simp [euler])).1
      have b2 := (a2 2 (by simp [euler])).1
      simp [euler] at b0 b1 b2
      simp [euler, paramProblem, List.replicate, b0, b1, b2], fun _ _ _ _ => trivial⟩ (by simp [hh, tapeLimit])
  obtain ⟨w, rfl⟩ := List.length_eq_one_iff.mp hlen
  exact ⟨c, _, w, y1, s', e, r⟩

/-- of `C78_later_parameters_partial`: a loop as right-hand side -/
example : ∃ (c : Client W) (q : List Var) (r : Var) (y1 : List ℝ) (s' : St W), c.env = q ∧
    cvodesSolPar euler 0 [7] [1] q copyLoopF (rhsP copyLoop) c.st = .ok (([[r]], y1), s') := by
  obtain ⟨c, o, hl, hh, a, b, d, e, v, -⟩ := three_vars (W := W)
  have h := copyLoop_asks (hd := c.st.tape.head) (m := 1) (by rw [hh]; simp) [1] 0 7 0 0 0
  obtain ⟨ys, y1, s', sol, r, hlen, -⟩ := C78_later_parameters_partial o hl (q := [a, b, d]) (by simp [e]) v rfl euler 0 1 [7]
    copyLoopF copyLoop 60 (fun u => ⟨.inl (copyLoop_plain u).1, (copyLoop_plain u).2.1⟩) ⟨h.1.1, fun _ _ _ _ => trivial⟩
    ⟨h.2.1, fun _ _ _ _ => trivial⟩ (by simp [hh, tapeLimit])
  obtain ⟨w, rfl⟩ := List.length_eq_one_iff.mp hlen
  exact ⟨c, _, w, y1, s', e, r⟩

/-- of `C58_param_later_partial`: parameters 2, 3 and their product, the Euler method from 0 to 1.2 -/
example : ∃ (c : Client W) (a b d r1 r2 : Var) (y' : List ℝ) (s' : St W), c.env = [a, b, d] ∧
    cvodesSolPar euler 0 [0.2, 0.8] [1.2] [a, b, d] (oscillatorData 2 3 6) (odeP oscillator []) c.st =
      .ok (([[r1, r2]], y'), s') := by
  obtain ⟨c, o, hl, hh, a, b, d, e, v, -⟩ := three_vars (W := W)
  obtain ⟨r1, r2, y', s', -, -, -, r, -⟩ := C58_param_later_partial o hl (by simp [e]) v euler 0 1.2 0.2 0.8
    ⟨⟨⟨by norm_num [euler], rfl, rfl, by simp [euler]⟩, fun _ _ => trivial⟩, fun _ _ _ _ => trivial⟩
    ⟨by
      intro r h
      cases h with | rhs h =>
      cases h with | sens h1 h2 =>
      cases h2
      cases h1
      simp [euler, oscillatorProblem, oscillatorData], fun _ _ _ _ => trivial⟩ (by simp [hh, tapeLimit]) (fun j => by
      have := Nat.one_le_two_pow (n := j)
      rw [hh]
      omega)
  exact ⟨c, a, b, d, r1, r2, y', s', e, r⟩

end Props
