import Verif.Props.Examples
import Verif.Props.LenientOde

/-!
# C58: the example with an ODE, without checks of array shapes

The example program asks for the solution at several times, which does not complete if array shapes are checked
(`C27_times_refuted`).  Without these checks it does.
-/

set_option linter.unusedSectionVars false

namespace Props
open Fz Spec
variable {W : Type} [Rep W ℝ] [LawfulRep W ℝ] {σ : Type} {c : Client W} {u : Var} {b : Var → ℝ}

theorem succeeds_mono {pr pr' : Problem} {ok : ℝ → List ℝ → List (List ℝ) → Prop} (hf : pr.f = pr'.f)
    (hs : ∀ t y S o, ok t y S → pr.sens t y S o → pr'.sens t y S o) (sv : Solver ℝ σ) {n ns : Nat} :
    ∀ (ts : List ℝ) (m : σ), AsksAll pr sv ok ts m → Succeeds pr' sv n ns ts m → Succeeds pr sv n ns ts m := by
  intro ts
  induction ts with
  | nil => intro m _ _; trivial
  | cons t ts ih =>
    intro m ha hg
    exact ⟨fun r h => hg.1 r (solves_mono hf hs _ ha.1 h), fun y yS m' h =>
      ih m' (ha.2 y yS m' h) (hg.2 y yS m' (solves_mono hf hs _ ha.1 h))⟩

/-- **C58**, the example with an ODE, without checks of array shapes: after every history of correct calls, for all
parameters and initial values, any number of output times and any solver that succeeds and does not ask at time 1,
`cvodes_sol` completes, and its variables carry what the solver returns when it is told the right-hand side
`(y2, sin(q1 q2 q3 t))` and the sensitivity right-hand sides `(s2, t q2 q3 cos(q1 q2 q3 t))` and so on, whatever is in
memory. -/
theorem C58_param_unchecked (h : OrderlyS c) {q : List Var} (hq : ∀ v ∈ q, v ∈ existing c.st) {q1 q2 q3 : ℝ}
    (hz : vals q c.st = .ok ([q1, q2, q3], c.st)) (sv : Solver ℝ σ) (t0 y1 y2 : ℝ) (ts : List ℝ) (hl : c.marks.length < 10)
    (ha : AsksAll (oscillatorProblem q1 q2 q3) sv Planar ts (sv.init t0 [y1, y2] [[0, 0], [0, 0], [0, 0]]))
    (hg : Succeeds (oscillatorProblem q1 q2 q3) sv 2 3 ts (sv.init t0 [y1, y2] [[0, 0], [0, 0], [0, 0]]))
    (room : c.st.tape.head + ts.length * 30 + 74 ≤ tapeLimit)
    (full : ∀ k < ts.length, ∀ j, c.st.tape.head + k * 30 + 74 ≠ 12288 * 2 ^ j + 1)
    (hu : u ∈ existing c.st) (hb : RatesL c.st u b) :
    ∃ yt y' s', (∀ J : Junk W ℝ, cvodesSolParL J sv t0 [y1, y2] ts q (oscillatorData q1 q2 q3) (odeP oscillator []) c.st =
        .ok ((yt, y'), s')) ∧
      ∃ sol, SolvesAll (oscillatorProblem q1 q2 q3) sv ts (sv.init t0 [y1, y2] [[0, 0], [0, 0], [0, 0]]) sol ∧
        yt.length = ts.length ∧ sol.length = ts.length ∧
        ∀ k (h1 : k < yt.length) (h2 : k < sol.length), yt[k].length = 2 ∧ ∀ i (hi : i < yt[k].length),
          GivesL c.st s' yt[k][i] (sol[k].1.getD i 0) u (sensSum sol[k].2 q b i) := by
  have h3 : q.length = 3 := by
    obtain ⟨d, g, val, adj, S⟩ := orderlyS_shadow commutes_real h
    have hh : ∀ v ∈ q, g.Has v := fun v hv => (mem_existing S.sound.good.inv).mp (by rw [← S.alike.existing]; exact hq v hv)
    obtain ⟨s2, e2, -⟩ := blind_vals _ _ _ _ _ S.alike (S.sound.good.inv.varVals hh)
    rw [hz] at e2
    have := congrArg List.length (Prod.mk.inj (Except.ok.inj e2)).1
    simpa using this.symm
  have hi : sv.init t0 [y1, y2] (List.replicate q.length (List.replicate [y1, y2].length 0)) =
      sv.init t0 [y1, y2] [[0, 0], [0, 0], [0, 0]] := by rw [h3]; rfl
  obtain ⟨a1, a2⟩ := asksAll_mono (pr := paramProblem (oscillatorData q1 q2 q3) oscillator [q1, q2, q3])
    (pr' := oscillatorProblem q1 q2 q3) (ok := Planar)
    (ok' := CallableL oscillator [q1, q2, q3] 2 3 74 c.st.tape.head ts.length) rfl
    (fun _ _ _ _ => osc_problem) (fun t y S hp => by
      obtain ⟨k1, k2, k3, -⟩ := osc_fair (q1 := q1) (q2 := q2) (q3 := q3) hp
      refine ⟨k1, k2, k3, fun k hk j => ?_⟩
      obtain ⟨-, h1, -, -⟩ := hp
      match y, h1 with
      | [y1, y2], _ =>
      have hc : (oscillator t).cost ([y1, y2] ++ List.replicate 2 0 ++ [q1, q2, q3]) = 32 := by
        simp [oscillator, Prog.cost, Instr.cost, Un.cost, Bin.costVD]
      have := full k hk j
      rw [hc]
      simpa using this) sv ts _ ha
  obtain ⟨yt, y', s', e, sol, e1, -, e2, e3, e4⟩ := C60_parameters h hq hz h3 sv t0 [y1, y2] ts (oscillatorData q1 q2 q3)
    oscillator (fun t => by simp [oscillator, Prog.Mild, Instr.Mild]) 74 hl (by rw [hi, h3]; exact a1)
    (by
      rw [hi, h3]
      exact succeeds_mono (pr := paramProblem (oscillatorData q1 q2 q3) oscillator [q1, q2, q3]) (pr' := oscillatorProblem q1 q2 q3)
        (ok := Planar) rfl (fun _ _ _ _ => osc_problem) sv ts _ a2 hg)
    (by rw [h3]; simpa using room) hu hb
  rw [hi] at e1
  exact ⟨yt, y', s', e, sol, solvesAll_mono (pr := paramProblem (oscillatorData q1 q2 q3) oscillator [q1, q2, q3])
    (pr' := oscillatorProblem q1 q2 q3) (ok := Planar) rfl (fun _ _ _ _ => osc_problem) sv ts a2 e1, e2, e3, fun k k1 k2 =>
    ⟨(e4 k k1 k2).1, (e4 k k1 k2).2.2⟩⟩

/-! The hypotheses are met: the Euler method with three output times, as in the example program. -/

theorem osc_step {r t y1 y2 q1 q2 q3 a a' b b' c c' : ℝ} {z}
    (h : Solves (oscillatorProblem q1 q2 q3) (euler.step (r, [y1, y2], [[a, a'], [b, b'], [c, c']]) t) z) :
    ∃ y1' y2' d d' e e' f f', z = (0, [y1', y2'], [[d, d'], [e, e'], [f, f']], t, [y1', y2'], [[d, d'], [e, e'], [f, f']]) := by
  cases h with | rhs h =>
  cases h with | sens h1 h2 =>
  cases h2
  cases h1
  simp [oscillatorProblem, oscillatorData]

theorem osc_asks {q1 q2 q3 : ℝ} : ∀ (ts : List ℝ) (r y1 y2 a a' b b' c c' : ℝ), r ≠ 1 → (∀ t ∈ ts, t ≠ 1) →
    AsksAll (oscillatorProblem q1 q2 q3) euler Planar ts (r, [y1, y2], [[a, a'], [b, b'], [c, c']]) ∧
      Succeeds (oscillatorProblem q1 q2 q3) euler 2 3 ts (r, [y1, y2], [[a, a'], [b, b'], [c, c']]) := by
  intro ts
  induction ts with
  | nil => intros; exact ⟨trivial, trivial⟩
  | cons t ts ih =>
    intro r y1 y2 a a' b b' c c' hr ht
    have hts : ∀ t ∈ ts, t ≠ 1 := fun t h => ht t (by simp [h])
    refine ⟨⟨⟨⟨hr, rfl, rfl, by simp⟩, fun _ _ => trivial⟩, fun y yS m' h => ?_⟩, fun z h => ?_, fun y yS m' h => ?_⟩
    · obtain ⟨_, _, _, _, _, _, _, _, e⟩ := osc_step h
      cases e
      exact (ih _ _ _ _ _ _ _ _ _ (ht t (by simp)) hts).1
    · obtain ⟨_, _, _, _, _, _, _, _, rfl⟩ := osc_step h
      exact ⟨rfl, rfl, rfl, by simp⟩
    · obtain ⟨_, _, _, _, _, _, _, _, e⟩ := osc_step h
      cases e
      exact (ih _ _ _ _ _ _ _ _ _ (ht t (by simp)) hts).2

example : ∃ (c : Client W) (u : Var) (b : Var → ℝ) (yt : List (List Var)) (y1 : List ℝ) (s' : St W), OrderlyL ℝ c ∧
    RatesL c.st u b ∧
    (∀ J : Junk W ℝ, cvodesSolParL J euler 0 [0.2, 0.8] [1.2, 2.4, 4.8] c.env (oscillatorData 2 3 6) (odeP oscillator []) c.st =
      .ok ((yt, y1), s')) ∧ yt.length = 3 := by
  obtain ⟨c, o, v, hh, hm, hn⟩ := orderlyL_three (W := W)
  obtain ⟨d, g, val, adj, S⟩ := orderlyL_shadow commutes_real o
  have hex : ∀ v ∈ c.env, v ∈ existing c.st := fun v hv => by
    rw [S.alike.existing]
    exact (mem_existing S.sound.good.inv).mpr (S.sound.good.has _ (by rw [S.env]; exact hv))
  have h0 : nth c.env 0 ∈ existing c.st := hex _ (nth_mem (by omega))
  obtain ⟨b, hb⟩ := C60_rates o.solves h0
  have ht : ∀ t ∈ ([1.2, 2.4, 4.8] : List ℝ), t ≠ 1 := by
    intro t h
    simp at h
    rcases h with rfl | rfl | rfl <;> norm_num
  obtain ⟨yt, y1, s', e, sol, -, h1, -⟩ := C58_param_unchecked o.solves hex v euler 0 0.2 0.8 [1.2, 2.4, 4.8] (by simp [hm])
    (osc_asks _ _ _ _ _ _ _ _ _ _ (by simp) ht).1 (osc_asks _ _ _ _ _ _ _ _ _ _ (by simp) ht).2
    (by rw [hh]; simp [tapeLimit]) (fun k hk j => by
      have := Nat.one_le_two_pow (n := j)
      simp at hk
      omega) h0 hb
  exact ⟨c, _, b, yt, y1, s', o, hb, e, h1⟩

end Props
