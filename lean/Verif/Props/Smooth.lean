import Verif.Props.Variation
import Verif.Proof.Smooth

/-!
# C66: right-hand sides computed by programs are continuously differentiable

In C66 the right-hand side of the differential equation is continuously differentiable near the solution.  For the
programs of a user that is not an extra condition: it follows if the program can be differentiated along the solution.
-/

namespace Props
open Fz Spec Set

variable {σ : Type}

/-- **C66**: `y` solves the differential equation whose right-hand side the program computes; at every point of the
solution the program can be differentiated step by step.  Then the right-hand side is continuously differentiable near
the solution, as C66 asks.  The program may have branches, and real constants that depend on time. -/
theorem C66_smooth {p : ℝ → Prog} (hp : Prog.Drifts p) {n : Nat} {t0 T : ℝ} {q : List ℝ} {y : ℝ → List ℝ}
    (hy : IsSolution (fun t => odeFn (p t) n []) n t0 T q y)
    (ho : ∀ t ∈ Icc t0 T, (p t).Ok (y t ++ List.replicate n 0 ++ q) ∧ (p t).Smooth (y t ++ List.replicate n 0 ++ q)) :
    ∃ ρ > 0, C1Near (fun t => odeFn (p t) n []) n (n + q.length) t0 T ρ (fun t => y t ++ q) :=
  c1Near_of hp hy ho

/-- **C66**: so a family of solutions is a `Family` as soon as it depends differentiably on `r` at the start. -/
theorem C66_smooth_family {p : ℝ → Prog} (hp : Prog.Drifts p) {n nq : Nat} {t0 T r0 : ℝ} {Y : ℝ → ℝ → List ℝ}
    {Q : ℝ → List ℝ} {dy dq : Nat → ℝ}
    (solves : ∀ᶠ r in nhds r0, (Q r).length = nq ∧ IsSolution (fun t => odeFn (p t) n []) n t0 T (Q r) (Y r))
    (start : ∀ i < n, HasDerivAt (fun r => (Y r t0).getD i 0) (dy i) r0)
    (pars : ∀ k < nq, HasDerivAt (fun r => (Q r).getD k 0) (dq k) r0)
    (ho : ∀ t ∈ Icc t0 T, (p t).Ok (Y r0 t ++ List.replicate n 0 ++ Q r0) ∧
      (p t).Smooth (Y r0 t ++ List.replicate n 0 ++ Q r0)) :
    Family (fun t => odeFn (p t) n []) n nq t0 T r0 Y Q dy dq where
  solves := solves
  start := start
  pars := pars
  smooth := by
    obtain ⟨h1, h2⟩ := solves.self_of_nhds
    have := C66_smooth hp h2 ho
    rwa [h1] at this

/-- **C66**: the same for `SolutionsFrom`, with which C63 speaks of exact solvers. -/
theorem C66_smooth_from {p : ℝ → Prog} (hp : Prog.Drifts p) {t0 T : ℝ} {z : List ℝ} {Y : List ℝ → ℝ → List ℝ}
    (solves : ∃ δ > 0, ∀ w, NearBy δ w z → IsSolution (fun t => odeFn (p t) z.length []) z.length t0 T [] (Y w) ∧ Y w t0 = w)
    (ho : ∀ t ∈ Icc t0 T, (p t).Ok (Y z t ++ List.replicate z.length 0) ∧
      (p t).Smooth (Y z t ++ List.replicate z.length 0)) :
    SolutionsFrom (fun t => odeFn (p t) z.length []) t0 T z Y := by
  refine ⟨solves, ?_⟩
  obtain ⟨δ, hδ, h⟩ := solves
  have := C66_smooth (q := []) hp (h z ⟨rfl, fun i _ => by simpa using hδ.le⟩).1 (by simpa using ho)
  simpa using this

/-- **C66**: the same for `SolutionsWith`. -/
theorem C66_smooth_with {p : ℝ → Prog} (hp : Prog.Drifts p) {t0 T : ℝ} {y z : List ℝ} {Y : List ℝ → ℝ → List ℝ}
    (solves : ∃ δ > 0, ∀ w, NearBy δ w z → IsSolution (fun t => odeFn (p t) y.length []) y.length t0 T w (Y w) ∧ Y w t0 = y)
    (ho : ∀ t ∈ Icc t0 T, (p t).Ok (Y z t ++ List.replicate y.length 0 ++ z) ∧
      (p t).Smooth (Y z t ++ List.replicate y.length 0 ++ z)) :
    SolutionsWith (fun t => odeFn (p t) y.length []) t0 T y z Y := by
  refine ⟨solves, ?_⟩
  obtain ⟨δ, hδ, h⟩ := solves
  exact C66_smooth hp (h z ⟨rfl, fun i _ => by simpa using hδ.le⟩).1 ho

/-! A single solution is enough: the others, and the sensitivities, exist. -/

/-- **C66**: if there is a solution `y` from `t0` to `T`, then for all initial values close to its own there is one, and
the sensitivity equations have a solution. -/
theorem C66_solutions_from {p : ℝ → Prog} (hp : Prog.Drifts p) {t0 T : ℝ} (hT : t0 ≤ T) {z : List ℝ} {y : ℝ → List ℝ}
    (hy : IsSolution (fun t => odeFn (p t) z.length []) z.length t0 T [] y) (h0 : y t0 = z)
    (ho : ∀ t ∈ Icc t0 T, (p t).Ok (y t ++ List.replicate z.length 0) ∧ (p t).Smooth (y t ++ List.replicate z.length 0)) :
    ∃ Y S, Y z = y ∧ SolutionsFrom (fun t => odeFn (p t) z.length []) t0 T z Y ∧
      IsSensitivity (fun t => odeFn (p t) z.length []) t0 T [] (fun _ => none) z.length y S ∧
      S t0 = unitVectors z.length := by
  classical
  obtain ⟨δ, hδ, h⟩ := solutions_near (q := []) hp hT hy (by simpa using ho)
  obtain ⟨S, hS, hS0⟩ := sensitivity_exists (q := []) hp hy (by simpa using ho) (fun _ => none) (S0 := unitVectors z.length)
    (ns := z.length) (by simp [unitVectors]) (by simp [unitVectors])
  have h1 : ∀ w, NearBy δ w z → ∃ Y, IsSolution (fun t => odeFn (p t) z.length []) z.length t0 T [] Y ∧ Y t0 = w :=
    fun w hw => h w [] hw.1 rfl (by simpa [h0] using hw)
  choose! Y hY using h1
  let Y' : List ℝ → ℝ → List ℝ := fun w => if w = z then y else Y w
  have e : Y' z = y := if_pos rfl
  refine ⟨Y', S, e, C66_smooth_from hp ⟨δ, hδ, fun w hw => ?_⟩ (by rw [e]; exact ho), hS, hS0⟩
  by_cases hwz : w = z
  · subst hwz
    rw [e]
    exact ⟨hy, h0⟩
  · have : Y' w = Y w := if_neg hwz
    rw [this]
    exact hY w hw

/-- **C66**: the same for parameters. -/
theorem C66_solutions_with {p : ℝ → Prog} (hp : Prog.Drifts p) {t0 T : ℝ} (hT : t0 ≤ T) {x z : List ℝ} {y : ℝ → List ℝ}
    (hy : IsSolution (fun t => odeFn (p t) x.length []) x.length t0 T z y) (h0 : y t0 = x)
    (ho : ∀ t ∈ Icc t0 T, (p t).Ok (y t ++ List.replicate x.length 0 ++ z) ∧
      (p t).Smooth (y t ++ List.replicate x.length 0 ++ z)) :
    ∃ Y S, Y z = y ∧ SolutionsWith (fun t => odeFn (p t) x.length []) t0 T x z Y ∧
      IsSensitivity (fun t => odeFn (p t) x.length []) t0 T z some z.length y S ∧
      S t0 = List.replicate z.length (List.replicate x.length 0) := by
  classical
  obtain ⟨δ, hδ, h⟩ := solutions_near hp hT hy ho
  obtain ⟨S, hS, hS0⟩ := sensitivity_exists hp hy ho some (S0 := List.replicate z.length (List.replicate x.length 0))
    (ns := z.length) (by simp) (by simp)
  have h1 : ∀ w, NearBy δ w z → ∃ Y, IsSolution (fun t => odeFn (p t) x.length []) x.length t0 T w Y ∧ Y t0 = x := by
    intro w hw
    refine h x w rfl hw.1 ⟨by simp [h0, hw.1], fun i hi => ?_⟩
    rw [h0]
    by_cases hix : i < x.length
    · rw [List.getD_append _ _ _ _ hix, List.getD_append _ _ _ _ hix]
      simpa using hδ.le
    · rw [List.getD_append_right _ _ _ _ (by omega), List.getD_append_right _ _ _ _ (by omega)]
      exact hw.2 _ (by rw [List.length_append] at hi; omega)
  choose! Y hY using h1
  let Y' : List ℝ → ℝ → List ℝ := fun w => if w = z then y else Y w
  have e : Y' z = y := if_pos rfl
  refine ⟨Y', S, e, C66_smooth_with hp ⟨δ, hδ, fun w hw => ?_⟩ (by rw [e]; exact ho), hS, hS0⟩
  by_cases hwz : w = z
  · subst hwz
    rw [e]
    exact ⟨hy, h0⟩
  · have : Y' w = Y w := if_neg hwz
    rw [this]
    exact hY w hw

/-- **C66**: there is only one solution with the given initial values and parameters, and only one solution of the
sensitivity equations along it. -/
theorem C66_unique {p : ℝ → Prog} (hp : Prog.Drifts p) {n ns : Nat} {t0 T : ℝ} {q : List ℝ} {y : ℝ → List ℝ}
    (hy : IsSolution (fun t => odeFn (p t) n []) n t0 T q y)
    (ho : ∀ t ∈ Icc t0 T, (p t).Ok (y t ++ List.replicate n 0 ++ q) ∧ (p t).Smooth (y t ++ List.replicate n 0 ++ q)) :
    (∀ z, IsSolution (fun t => odeFn (p t) n []) n t0 T q z → z t0 = y t0 → ∀ t ∈ Icc t0 T, z t = y t) ∧
    ∀ src S S', IsSensitivity (fun t => odeFn (p t) n []) t0 T q src ns y S →
      IsSensitivity (fun t => odeFn (p t) n []) t0 T q src ns y S' → S' t0 = S t0 → ∀ t ∈ Icc t0 T, S' t = S t :=
  ⟨fun _ => solution_unique hp hy ho, fun _ _ _ => sensitivity_unique hp hy ho⟩

theorem nearBy_eventually {ζ : ℝ → List ℝ} {r0 δ : ℝ} {n : Nat} (hδ : 0 < δ) (hl : ∀ᶠ r in nhds r0, (ζ r).length = n)
    (h : ∀ i < n, ContinuousAt (fun r => (ζ r).getD i 0) r0) : ∀ᶠ r in nhds r0, NearBy δ (ζ r) (ζ r0) := by
  have h1 : ∀ᶠ r in nhds r0, ∀ i ∈ Finset.range n, |(ζ r).getD i 0 - (ζ r0).getD i 0| < δ :=
    (Finset.eventually_all _).mpr fun i hi => by
      have := Metric.tendsto_nhds.mp (h i (Finset.mem_range.mp hi)) δ hδ
      simpa [Real.dist_eq] using this
  filter_upwards [hl, h1] with r hr h2
  exact ⟨hr.trans hl.self_of_nhds.symm, fun i hi => (h2 i (Finset.mem_range.mpr (hr ▸ hi))).le⟩

variable {W : Type} [Rep W ℝ] [LawfulRep W ℝ] {c : Client W} {u : Var} {b : Var → ℝ}

/-- **C66**, initial values, for programs: `y` is a solution from `t0` to `T`, at whose points the program can be
differentiated step by step; the initial values depend on `r` as they do on `u` (`ζ r`).  Then there are solutions `Y r`
with the initial values `ζ r`, and the results of `cvodes_sol` have the values of `y` and the derivatives of `Y`, up to
the error of the solver. -/
theorem C66_program_initial (h : OrderlyS c) {y0 : List Var} (hy : ∀ v ∈ y0, v ∈ existing c.st) {z : List ℝ}
    (hz : vals y0 c.st = .ok (z, c.st)) (hn : 0 < y0.length) (sv : Solver ℝ σ) (t0 : ℝ) (ts : List ℝ)
    (f : ℝ → List ℝ → List ℝ) (p : ℝ → Prog) (hp : ∀ t, (p t).Mild) (K : Nat) (hl : c.marks.length < 10)
    (ha : AsksAll (initProblem f p) sv (CallableL p [] y0.length y0.length K c.st.tape.head ts.length) ts
      (sv.init t0 z (unitVectors y0.length)))
    (hg : Succeeds (initProblem f p) sv y0.length y0.length ts (sv.init t0 z (unitVectors y0.length)))
    (room : c.st.tape.head + ts.length * (y0.length * (6 + 3 * y0.length)) + K ≤ tapeLimit)
    (hu : u ∈ existing c.st) (hb : RatesL c.st u b) (hd : Prog.Drifts p)
    {T r0 ε : ℝ} (hT : t0 ≤ T) (ht : ∀ t ∈ ts, t ∈ Icc t0 T) {y : ℝ → List ℝ} {ζ : ℝ → List ℝ}
    (hsol : IsSolution (fun t => odeFn (p t) y0.length []) y0.length t0 T [] y) (h0 : y t0 = z) (hζ0 : ζ r0 = z)
    (hζl : ∀ᶠ r in nhds r0, (ζ r).length = y0.length)
    (hζ : ∀ i < y0.length, HasDerivAt (fun r => (ζ r).getD i 0) ((y0.map b).getD i 0) r0)
    (ho : ∀ t ∈ Icc t0 T, (p t).Ok (y t ++ List.replicate y0.length 0) ∧ (p t).Smooth (y t ++ List.replicate y0.length 0))
    {S : ℝ → List (List ℝ)}
    (hS : IsSensitivity (fun t => odeFn (p t) y0.length []) t0 T [] (fun _ => none) y0.length y S)
    (hS0 : S t0 = unitVectors y0.length)
    (acc : AccurateTo ε (initProblem f p) sv y0.length y0.length y S ts (sv.init t0 z (unitVectors y0.length))) :
    ∃ (Y : ℝ → ℝ → List ℝ) (yt : List (List Var)) (s' : St W), Y r0 = y ∧
      (∀ᶠ r in nhds r0, IsSolution (fun t => odeFn (p t) y0.length []) y0.length t0 T [] (Y r) ∧ Y r t0 = ζ r) ∧
      (∀ J : Junk W ℝ, cvodesSolY0L J sv t0 y0 ts f (odeY p []) c.st = .ok (yt, s')) ∧ yt.length = ts.length ∧
      ∀ k (h1 : k < yt.length) (h2 : k < ts.length), yt[k].length = y0.length ∧ ∀ i (hi : i < yt[k].length), ∃ x a d,
        GivesL c.st s' yt[k][i] x u a ∧ |x - (y ts[k]).getD i 0| ≤ ε ∧
        HasDerivAt (fun r => (Y r ts[k]).getD i 0) d r0 ∧ |a - d| ≤ ε * (y0.map fun v => |b v|).sum := by
  have hzl : z.length = y0.length := by rw [← hζ0]; exact hζl.self_of_nhds
  obtain ⟨Yw, -, e1, ⟨⟨δ, hδ, e2⟩, -⟩, -, -⟩ := C66_solutions_from (p := p) (z := z) hd hT (by rw [hzl]; exact hsol) h0
    (by rw [hzl]; exact ho)
  rw [hzl] at e2
  have hYr : Yw (ζ r0) = y := by rw [hζ0, e1]
  have hev : ∀ᶠ r in nhds r0, IsSolution (fun t => odeFn (p t) y0.length []) y0.length t0 T [] (Yw (ζ r)) ∧ Yw (ζ r) t0 = ζ r :=
    (nearBy_eventually hδ hζl fun i hi => (hζ i hi).continuousAt).mono fun r hr => e2 (ζ r) (by rwa [hζ0] at hr)
  have hfam : Family (fun t => odeFn (p t) y0.length []) y0.length 0 t0 T r0 (fun r => Yw (ζ r)) (fun _ => [])
      (fun i => (y0.map b).getD i 0) (fun _ => 0) := by
    refine C66_smooth_family hd (hev.mono fun r hr => ⟨rfl, hr.1⟩) (fun i hi => ?_) (fun k hk => by omega) ?_
    · refine (hζ i hi).congr_of_eventuallyEq (hev.mono fun r hr => ?_)
      simp only [hr.2]
    · simpa only [hYr, List.append_nil] using ho
  obtain ⟨yt, s', d1, d2, d3⟩ := C66_initial (ε := ε) h hy hz hn sv t0 ts f p hp K hl ha hg room hu hb ht (Y := fun r => Yw (ζ r))
    (S := S) (by rw [hYr]; exact h0) hfam (by rw [hYr]; exact hS) hS0 (by rw [hYr]; exact acc)
  exact ⟨fun r => Yw (ζ r), yt, s', hYr, hev, d1, d2, by simpa only [hYr] using d3⟩

/-- **C66**, three parameters, for programs. -/
theorem C66_program_parameters (h : OrderlyS c) {q : List Var} (hq : ∀ v ∈ q, v ∈ existing c.st) {z : List ℝ}
    (hz : vals q c.st = .ok (z, c.st)) (h3 : q.length = 3) (sv : Solver ℝ σ) (t0 : ℝ) (x ts : List ℝ)
    (f : ℝ → List ℝ → List ℝ) (p : ℝ → Prog) (hp : ∀ t, (p t).Mild) (K : Nat) (hl : c.marks.length < 10)
    (ha : AsksAll (paramProblem f p z) sv (CallableL p z x.length q.length K c.st.tape.head ts.length) ts
      (sv.init t0 x (List.replicate q.length (List.replicate x.length 0))))
    (hg : Succeeds (paramProblem f p z) sv x.length q.length ts
      (sv.init t0 x (List.replicate q.length (List.replicate x.length 0))))
    (room : c.st.tape.head + ts.length * (x.length * (6 + 3 * q.length)) + K ≤ tapeLimit)
    (hu : u ∈ existing c.st) (hb : RatesL c.st u b) (hd : Prog.Drifts p)
    {T r0 ε : ℝ} (hT : t0 ≤ T) (ht : ∀ t ∈ ts, t ∈ Icc t0 T) {y : ℝ → List ℝ} {ζ : ℝ → List ℝ}
    (hsol : IsSolution (fun t => odeFn (p t) x.length []) x.length t0 T z y) (h0 : y t0 = x) (hζ0 : ζ r0 = z)
    (hζl : ∀ᶠ r in nhds r0, (ζ r).length = q.length)
    (hζ : ∀ i < q.length, HasDerivAt (fun r => (ζ r).getD i 0) ((q.map b).getD i 0) r0)
    (ho : ∀ t ∈ Icc t0 T, (p t).Ok (y t ++ List.replicate x.length 0 ++ z) ∧
      (p t).Smooth (y t ++ List.replicate x.length 0 ++ z)) {S : ℝ → List (List ℝ)}
    (hS : IsSensitivity (fun t => odeFn (p t) x.length []) t0 T z some q.length y S)
    (hS0 : S t0 = List.replicate q.length (List.replicate x.length 0))
    (acc : AccurateTo ε (paramProblem f p z) sv x.length q.length y S ts
      (sv.init t0 x (List.replicate q.length (List.replicate x.length 0)))) :
    ∃ (Y : ℝ → ℝ → List ℝ) (yt : List (List Var)) (y1 : List ℝ) (s' : St W), Y r0 = y ∧
      (∀ᶠ r in nhds r0, IsSolution (fun t => odeFn (p t) x.length []) x.length t0 T (ζ r) (Y r) ∧ Y r t0 = x) ∧
      (∀ J : Junk W ℝ, cvodesSolParL J sv t0 x ts q f (odeP p []) c.st = .ok ((yt, y1), s')) ∧ yt.length = ts.length ∧
      ∀ k (h1 : k < yt.length) (h2 : k < ts.length), yt[k].length = x.length ∧ ∀ i (hi : i < yt[k].length), ∃ x a d,
        GivesL c.st s' yt[k][i] x u a ∧ |x - (y ts[k]).getD i 0| ≤ ε ∧
        HasDerivAt (fun r => (Y r ts[k]).getD i 0) d r0 ∧ |a - d| ≤ ε * (q.map fun v => |b v|).sum := by
  have hzl : z.length = q.length := by rw [← hζ0]; exact hζl.self_of_nhds
  obtain ⟨Yw, -, e1, ⟨⟨δ, hδ, e2⟩, -⟩, -, -⟩ := C66_solutions_with (p := p) (z := z) hd hT hsol h0 ho
  have hYr : Yw (ζ r0) = y := by rw [hζ0, e1]
  have hev : ∀ᶠ r in nhds r0, IsSolution (fun t => odeFn (p t) x.length []) x.length t0 T (ζ r) (Yw (ζ r)) ∧ Yw (ζ r) t0 = x :=
    (nearBy_eventually hδ hζl fun i hi => (hζ i hi).continuousAt).mono fun r hr => e2 (ζ r) (by rwa [hζ0] at hr)
  have hfam : Family (fun t => odeFn (p t) x.length []) x.length q.length t0 T r0 (fun r => Yw (ζ r)) ζ
      (fun _ => 0) (fun k => (q.map b).getD k 0) := by
    refine C66_smooth_family hd ?_ (fun i hi => ?_) hζ ?_
    · filter_upwards [hζl, hev] with r h1 h2
      exact ⟨h1, h2.1⟩
    · refine (hasDerivAt_const r0 (x.getD i 0)).congr_of_eventuallyEq (hev.mono fun r hr => ?_)
      simp only [hr.2]
    · rw [hζ0, e1]
      exact ho
  obtain ⟨yt, y1, s', d1, d2, d3⟩ := C66_parameters (ε := ε) h hq hz h3 sv t0 x ts f p hp K hl ha hg room hu hb ht
    (Y := fun r => Yw (ζ r)) (Q := ζ) (S := S) (by rw [hYr]; exact h0) hζ0 hfam (by rw [hYr]; exact hS) hS0
    (by rw [hYr]; exact acc)
  exact ⟨fun r => Yw (ζ r), yt, y1, s', hYr, hev, d1, d2, by simpa only [hYr] using d3⟩

/-! Example: `y' = -t y`, with a branch, and its solutions `w e^(-t²/2)`. -/

/-- `if (y(1) > 0.0) f(1) = y(1) * (-t) else f(1) = var(t)` -/
noncomputable def fading (t : ℝ) : Prog :=
  .ifVD .gt 0 0 (.op (.binVD .mul 0 (-t)) (.ret [2])) (.op (.const t) (.ret [2]))

theorem fading_drifts : Prog.Drifts fading :=
  .ifVD contDiff_const (.op (.binVD (by decide) contDiff_neg) (.ret _)) (.op (.const contDiff_id) (.ret _))

theorem fading_fn {t a : ℝ} (ha : 0 < a) {i : Nat} (hi : i < 1) : odeFn (fading t) 1 [] i [a] = a * -t := by
  obtain rfl : i = 0 := by omega
  simp [odeFn, fading, Prog.sem, Instr.sem, look, Bin.fn, Rel.holds, ha]

theorem fading_solution {w : ℝ} (hw : 0 < w) :
    IsSolution (fun t => odeFn (fading t) 1 []) 1 0 2 [] (fun t => [w * Real.exp (-(t ^ 2 / 2))]) := by
  refine fun t _ => ⟨rfl, fun i hi => ?_⟩
  obtain rfl : i = 0 := by omega
  simp only [List.append_nil]
  rw [fading_fn (by positivity) hi]
  refine HasDerivAt.hasDerivWithinAt ?_
  simp only [List.getD_cons_zero]
  have := ((((hasDerivAt_id t).pow 2).div_const 2).neg.exp).const_mul w
  refine this.congr_deriv ?_
  simp
  ring

theorem fading_ok {w t : ℝ} (hw : 0 < w) (ht : t ∈ Icc (0 : ℝ) 2) :
    (fading t).Ok [w * Real.exp (-(t ^ 2 / 2)), 0] ∧ (fading t).Smooth [w * Real.exp (-(t ^ 2 / 2)), 0] := by
  have h0 : 0 < w * Real.exp (-(t ^ 2 / 2)) := by positivity
  have h1 : ¬ -t = 1 := by linarith [ht.1]
  simp [fading, Prog.Ok, Prog.Smooth, Instr.Ok, Instr.Smooth, Instr.sem, look, Rel.holds, h0, h0.ne', Bin.domVD,
    Bin.defectVD, h1]

example : ∃ ρ > 0, C1Near (fun t => odeFn (fading t) 1 []) 1 1 0 2 ρ (fun t => [3 * Real.exp (-(t ^ 2 / 2))]) := by
  have := C66_smooth fading_drifts (fading_solution (w := 3) (by norm_num)) (fun t ht => by
    simpa using fading_ok (by norm_num) ht)
  simpa using this

example (b : ℝ) : Family (fun t => odeFn (fading t) 1 []) 1 0 0 2 0 (fun r t => [(3 + r * b) * Real.exp (-(t ^ 2 / 2))])
    (fun _ => []) (fun _ => b) (fun _ => 0) := by
  have key := @C66_smooth_family fading fading_drifts 1 0 0 2 0 (fun r t => [(3 + r * b) * Real.exp (-(t ^ 2 / 2))])
    (fun _ => []) (fun _ => b) (fun _ => 0)
  apply key
  · have hc : Continuous fun r : ℝ => 3 + r * b := by fun_prop
    have : ∀ᶠ r in nhds (0 : ℝ), 0 < 3 + r * b := hc.continuousAt.eventually (lt_mem_nhds (by simp))
    exact this.mono fun r hr => ⟨rfl, fading_solution hr⟩
  · intro i hi
    obtain rfl : i = 0 := by omega
    simpa using ((hasDerivAt_id (0 : ℝ)).mul_const b).const_add 3
  · intro k hk
    omega
  · intro t ht
    simpa using fading_ok (w := 3) (by norm_num) ht

example : SolutionsFrom (fun t => odeFn (fading t) 1 []) 0 2 [3] (fun w t => [w.getD 0 0 * Real.exp (-(t ^ 2 / 2))]) := by
  refine C66_smooth_from (z := [3]) fading_drifts ⟨1, one_pos, fun w hw => ?_⟩ (fun t ht => ?_)
  · obtain ⟨a, rfl⟩ := List.length_eq_one_iff.mp hw.1
    have := hw.2 0 (by simp)
    simp only [List.getD_cons_zero] at this
    exact ⟨fading_solution (w := a) (by linarith [(abs_le.mp this).1]), by simp⟩
  · simpa using fading_ok (w := 3) (by norm_num) ht

example (z : ℝ → List ℝ) (hz : IsSolution (fun t => odeFn (fading t) 1 []) 1 0 2 [] z) (h0 : z 0 = [3]) :
    z 2 = [3 * Real.exp (-2)] := by
  have := (C66_unique (ns := 0) fading_drifts (fading_solution (w := 3) (by norm_num)) fun t ht => by
    simpa using fading_ok (by norm_num) ht).1 z hz (by simp [h0]) 2 (by simp)
  rw [this]
  norm_num

theorem steady_drifts : Prog.Drifts steady := .op (.fixed _) (.op (.fixed _) (.ret _))

example : SolutionsWith (fun t => odeFn (steady t) 1 []) 0 5 [7] [2, 3, 6]
    (fun w t => [7 + t * (w.getD 0 0 * w.getD 1 0 + w.getD 2 0)]) := by
  refine C66_smooth_with (y := [7]) steady_drifts ⟨1, one_pos, fun w hw => ?_⟩ (fun t ht => ?_)
  · obtain ⟨q1, q2, q3, rfl⟩ := List.length_eq_three.mp (show w.length = 3 from hw.1)
    refine ⟨fun t _ => ⟨rfl, fun i hi => ?_⟩, by simp⟩
    obtain rfl : i = 0 := by simpa using hi
    simp only [List.cons_append, List.nil_append, List.length_singleton, List.getD_cons_zero]
    rw [steady_fn _ _ (by omega)]
    refine HasDerivAt.hasDerivWithinAt ?_
    simpa using ((hasDerivAt_id t).mul_const (q1 * q2 + q3)).const_add 7
  · simp [steady, Prog.Ok, Prog.Smooth, Instr.Ok, Instr.Smooth, Instr.sem, Bin.domVV]

example : ∃ Y S, Y [3] = (fun t => [3 * Real.exp (-(t ^ 2 / 2))]) ∧
    SolutionsFrom (fun t => odeFn (fading t) 1 []) 0 2 [3] Y ∧
    IsSensitivity (fun t => odeFn (fading t) 1 []) 0 2 [] (fun _ => none) 1 (fun t => [3 * Real.exp (-(t ^ 2 / 2))]) S ∧
    S 0 = unitVectors 1 :=
  C66_solutions_from (z := [3]) fading_drifts (by norm_num) (fading_solution (by norm_num)) (by simp) fun t ht =>
    fading_ok (by norm_num) ht

example : ∃ Y S, Y [2, 3, 6] = (fun t => [7 + 12 * t]) ∧ SolutionsWith (fun t => odeFn (steady t) 1 []) 0 5 [7] [2, 3, 6] Y ∧
    IsSensitivity (fun t => odeFn (steady t) 1 []) 0 5 [2, 3, 6] some 3 (fun t => [7 + 12 * t]) S ∧
    S 0 = List.replicate 3 (List.replicate 1 0) := by
  refine C66_solutions_with (x := [7]) (z := [2, 3, 6]) steady_drifts (by norm_num) (fun t _ => ⟨rfl, fun i hi => ?_⟩) (by simp) fun t ht => ?_
  · obtain rfl : i = 0 := by simpa using hi
    simp only [List.cons_append, List.nil_append, List.length_singleton, List.getD_cons_zero]
    rw [steady_fn _ _ (by omega)]
    refine HasDerivAt.hasDerivWithinAt ?_
    refine (((hasDerivAt_id t).const_mul 12).const_add 7).congr_deriv ?_
    norm_num
  · simp [steady, Prog.Ok, Prog.Smooth, Instr.Ok, Instr.Smooth, Instr.sem, Bin.domVV]

theorem doubling_drifts : Prog.Drifts doubling := .op (.fixed _) (.op (.fixed _) (.ret _))

example : ∃ (c : Client W) (v u : Var) (b : Var → ℝ) (Y : ℝ → ℝ → List ℝ) (yt : List (List Var)) (s' : St W),
    OrderlyL ℝ c ∧ RatesL c.st u b ∧ Y 0 = (fun t => [3 * Real.exp (2 * t)]) ∧
    (∀ᶠ r in nhds 0, IsSolution (fun t => odeFn (doubling t) 1 []) 1 0 2 [] (Y r) ∧ Y r 0 = [3 + r * b v]) ∧
    (∀ J : Junk W ℝ, cvodesSolY0L J extrapolate 0 [v] [1, 2] doublingF (odeY doubling []) c.st = .ok (yt, s')) ∧
    yt.length = 2 ∧ ∀ k (h1 : k < yt.length) (h2 : k < [(1 : ℝ), 2].length), ∃ w x d, yt[k] = [w] ∧
      GivesL c.st s' w x u d ∧ x = 3 * Real.exp (2 * [(1 : ℝ), 2][k]) ∧
      HasDerivAt (fun r => (Y r [(1 : ℝ), 2][k]).getD 0 0) d 0 := by
  obtain ⟨c, o, v, hh, hm, hn⟩ := orderlyL_three (W := W)
  obtain ⟨d, g, val, adj, S⟩ := orderlyL_shadow commutes_real o
  have hex : ∀ k < 3, nth c.env k ∈ existing c.st := fun k hk => by
    rw [S.alike.existing]
    exact (mem_existing S.sound.good.inv).mpr (S.sound.good.has _ (by rw [S.env]; exact nth_mem (by omega)))
  have v1 : (vals [nth c.env 1] : M W (List ℝ)) c.st = .ok ([3], c.st) := by
    have hv := ValL.ofRead S.sound.good.inv (by rw [← S.env]; exact S.sound.good.has) (S.vals (fun _ h => h) v)
    have h1 := (hv.nths (is := [1]) (by simp [hn])).read S.sound.good.inv
    obtain ⟨s2, e2, -⟩ := blind_vals _ _ _ _ _ S.alike h1
    have := vals_st e2
    subst this
    rw [← List.map_singleton (f := nth c.env), e2]
    simp [num]
  obtain ⟨b, hb⟩ := C60_rates o.solves (hex 0 (by omega))
  have e0 : extrapolate.init 0 [3] (unitVectors 1) = atTime 3 0 := by simp [extrapolate, atTime, unitVectors]
  have hfam := doubling_family (b (nth c.env 1))
  have hsol := hfam.solves.self_of_nhds.2
  have hsens := doubling_sensitivity (b (nth c.env 1))
  simp only [zero_mul, add_zero] at hsol hsens
  obtain ⟨Y, yt, s', a1, a2, e, h1, h2⟩ := C66_program_initial o.solves (y0 := [nth c.env 1])
    (by simpa using hex 1 (by omega)) v1 (by simp)
    extrapolate 0 [1, 2] doublingF doubling (by simp [doubling, Prog.Mild, Instr.Mild]) 30 (by simp [hm])
    (by rw [List.length_singleton, e0]; exact (extrapolate_asks (by norm_num) (by rw [hh]; simp) _ _).1)
    (by rw [List.length_singleton, e0]; exact (extrapolate_asks (by norm_num) (hd := 0) (m := 0) (by simp) _ _).2)
    (by rw [hh]; simp [tapeLimit]) (hex 0 (by omega)) hb doubling_drifts (T := 2) (r0 := 0) (ε := 0) (by norm_num) (by simp)
    (y := fun t => [3 * Real.exp (2 * t)]) (ζ := fun r => [3 + r * b (nth c.env 1)]) hsol (by simp) (by simp) (by simp)
    (fun i hi => by
      obtain rfl : i = 0 := by simpa using hi
      simpa using ((hasDerivAt_id (0 : ℝ)).mul_const (b (nth c.env 1))).const_add 3)
    (fun t _ => by simp [doubling, Prog.Ok, Prog.Smooth, Instr.Ok, Instr.Smooth, Instr.sem, Bin.domVV])
    (S := fun t => [[Real.exp (2 * t)]]) hsens (by simp [unitVectors])
    (by rw [List.length_singleton, e0]; exact extrapolate_accurate (by norm_num) _ _)
  refine ⟨c, nth c.env 1, _, b, Y, yt, s', o, hb, a1, a2, e, h1, fun k k1 k2 => ?_⟩
  obtain ⟨l, hk⟩ := h2 k k1 k2
  obtain ⟨w, hw⟩ := List.length_eq_one_iff.mp l
  obtain ⟨x, a, d, b1, b2, b3, b4⟩ := hk 0 (by rw [l]; simp)
  simp only [hw, List.getElem_cons_zero, List.getD_cons_zero, zero_mul, abs_nonpos_iff, sub_eq_zero] at b1 b2 b4
  subst b4
  exact ⟨w, x, a, hw, b1, b2, b3⟩

example : ∃ (c : Client W) (u : Var) (b : Var → ℝ) (Y : ℝ → ℝ → List ℝ) (yt : List (List Var)) (y1 : List ℝ) (s' : St W),
    OrderlyL ℝ c ∧ RatesL c.st u b ∧ Y 0 = (fun t => [7 + 12 * t]) ∧
    (∀ J : Junk W ℝ, cvodesSolParL J euler 0 [7] [1, 2, 5] c.env steadyF (odeP steady []) c.st = .ok ((yt, y1), s')) ∧
    yt.length = 3 ∧ ∀ k (h1 : k < yt.length) (h2 : k < [(1 : ℝ), 2, 5].length), ∃ v x d, yt[k] = [v] ∧
      GivesL c.st s' v x u d ∧ x = 7 + 12 * [(1 : ℝ), 2, 5][k] ∧
      HasDerivAt (fun r => (Y r [(1 : ℝ), 2, 5][k]).getD 0 0) d 0 := by
  obtain ⟨c, o, v, hh, hm, hn⟩ := orderlyL_three (W := W)
  obtain ⟨d, g, val, adj, S⟩ := orderlyL_shadow commutes_real o
  have hex : ∀ v ∈ c.env, v ∈ existing c.st := fun v hv => by
    rw [S.alike.existing]
    exact (mem_existing S.sound.good.inv).mpr (S.sound.good.has _ (by rw [S.env]; exact hv))
  have h0 : nth c.env 0 ∈ existing c.st := hex _ (nth_mem (by omega))
  obtain ⟨b, hb⟩ := C60_rates o.solves h0
  obtain ⟨v1, v2, v3, he⟩ := List.length_eq_three.mp hn
  have e0 : euler.init 0 [7] (List.replicate 3 (List.replicate 1 0)) = steadyAt 0 := by simp [euler, steadyAt]
  have hfam := steady_family (b v1) (b v2) (b v3)
  have hsol : IsSolution (fun t => odeFn (steady t) 1 []) 1 0 5 [2, 3, 6] (fun t => [7 + 12 * t]) := by
    have := hfam.solves.self_of_nhds.2
    have hY : (fun t : ℝ => [7 + t * ((2 + 0 * b v1) * (3 + 0 * b v2) + (6 + 0 * b v3))]) = fun t => [7 + 12 * t] := by
      funext t; simp only [List.cons.injEq, and_true]; ring
    rw [hY] at this
    simpa using this
  obtain ⟨Y, yt, y1, s', a1, a2, e, h1, h2⟩ := C66_program_parameters o.solves (q := c.env) hex v hn euler 0 [7] [1, 2, 5]
    steadyF steady (by simp [steady, Prog.Mild, Instr.Mild]) 60 (by simp [hm])
    (by rw [hn, List.length_singleton, e0]; exact (steady_asks (by rw [hh]; simp) _ _).1)
    (by rw [hn, List.length_singleton, e0]; exact (steady_asks (hd := 0) (m := 0) (by simp) _ _).2)
    (by rw [hh, hn]; simp [tapeLimit]) h0 hb steady_drifts (T := 5) (r0 := 0) (ε := 0) (by norm_num) (by norm_num)
    (y := fun t => [7 + 12 * t]) (ζ := fun r => [2 + r * b v1, 3 + r * b v2, 6 + r * b v3]) hsol (by simp) (by simp)
    (by simp [hn]) (fun k hk => by rw [he]; exact hfam.pars k (by omega))
    (fun t _ => by simp [steady, Prog.Ok, Prog.Smooth, Instr.Ok, Instr.Smooth, Instr.sem, Bin.domVV])
    (S := fun t => [[3 * t], [2 * t], [t]]) (by rw [hn]; exact steady_sensitivity) (by simp [hn])
    (by rw [hn, List.length_singleton, e0]; exact steady_accurate [1, 2, 5] 0)
  refine ⟨c, _, b, Y, yt, y1, s', o, hb, a1, e, h1, fun k k1 k2 => ?_⟩
  obtain ⟨l, hk⟩ := h2 k k1 k2
  obtain ⟨w, hw⟩ := List.length_eq_one_iff.mp l
  obtain ⟨x, a, d, b1, b2, b3, b4⟩ := hk 0 (by rw [l]; simp)
  simp only [hw, List.getElem_cons_zero, List.getD_cons_zero, zero_mul, abs_nonpos_iff, sub_eq_zero] at b1 b2 b4
  subst b4
  exact ⟨w, x, a, hw, b1, b2, b3⟩

end Props
