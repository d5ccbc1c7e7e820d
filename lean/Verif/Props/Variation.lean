import Verif.Props.Flow
import Verif.Proof.Variation

/-!
# C66: the sensitivities of ODE solutions are the derivatives of the solutions

C60 says what `cvodes_sol` makes of the numbers that the solver returns.  Here these numbers are compared with the
mathematical solution: `Y r` is a family of solutions, `r` being whatever the initial values or parameters depend on.
If the solver, its questions answered correctly, meets a tolerance `ε`, then values and derivatives do.
-/

set_option linter.unusedSectionVars false
set_option linter.unusedVariables false

namespace Props
open Fz Spec Set

variable {W : Type} [Rep W ℝ] [LawfulRep W ℝ] {σ : Type} {c : Client W} {u : Var} {b : Var → ℝ}

/-- **C66**, initial values: `cvodes_sol(t0, y0, ts, f, fy)` completes; the variable for component `i` at output time
`k` has the value of the true solution `Y r0` and, with respect to `u`, the derivative of the true solution, up to the
error `ε` of the solver.  The initial values have the values `z` and depend on `r` as they do on `u`: their derivatives
are the `b v`.  `S` are the true sensitivities. -/
theorem C66_initial (h : OrderlyS c) {y0 : List Var} (hy : ∀ v ∈ y0, v ∈ existing c.st) {z : List ℝ}
    (hz : vals y0 c.st = .ok (z, c.st)) (hn : 0 < y0.length) (sv : Solver ℝ σ) (t0 : ℝ) (ts : List ℝ)
    (f : ℝ → List ℝ → List ℝ) (p : ℝ → Prog) (hp : ∀ t, (p t).Mild) (K : Nat) (hl : c.marks.length < 10)
    (ha : AsksAll (initProblem f p) sv (CallableL p [] y0.length y0.length K c.st.tape.head ts.length) ts
      (sv.init t0 z (unitVectors y0.length)))
    (hg : Succeeds (initProblem f p) sv y0.length y0.length ts (sv.init t0 z (unitVectors y0.length)))
    (room : c.st.tape.head + ts.length * (y0.length * (6 + 3 * y0.length)) + K ≤ tapeLimit)
    (hu : u ∈ existing c.st) (hb : RatesL c.st u b)
    {T r0 ε : ℝ} (ht : ∀ t ∈ ts, t ∈ Icc t0 T) {Y : ℝ → ℝ → List ℝ} {S : ℝ → List (List ℝ)} (h0 : Y r0 t0 = z)
    (hY : Family (fun t => odeFn (p t) y0.length []) y0.length 0 t0 T r0 Y (fun _ => [])
      (fun i => (y0.map b).getD i 0) (fun _ => 0))
    (hS : IsSensitivity (fun t => odeFn (p t) y0.length []) t0 T [] (fun _ => none) y0.length (Y r0) S)
    (hS0 : S t0 = unitVectors y0.length)
    (acc : AccurateTo ε (initProblem f p) sv y0.length y0.length (Y r0) S ts (sv.init t0 z (unitVectors y0.length))) :
    ∃ yt s', (∀ J : Junk W ℝ, cvodesSolY0L J sv t0 y0 ts f (odeY p []) c.st = .ok (yt, s')) ∧ yt.length = ts.length ∧
      ∀ k (h1 : k < yt.length) (h2 : k < ts.length), yt[k].length = y0.length ∧ ∀ i (hi : i < yt[k].length), ∃ x a d,
        GivesL c.st s' yt[k][i] x u a ∧ |x - (Y r0 ts[k]).getD i 0| ≤ ε ∧
        HasDerivAt (fun r => (Y r ts[k]).getD i 0) d r0 ∧ |a - d| ≤ ε * (y0.map fun v => |b v|).sum := by
  obtain ⟨yt, s', e, sol, hsol, l1, l2, hk⟩ := C60_initial h hy hz hn sv t0 ts f p hp K hl ha hg room hu hb
  refine ⟨yt, s', e, l1, fun k h1 h2 => ?_⟩
  obtain ⟨k1, k2, k3⟩ := hk k h1 (by omega)
  obtain ⟨a1, a2⟩ := acc.at hsol (by omega) h2
  refine ⟨k1, fun i hi => ?_⟩
  obtain ⟨d, d1, d2⟩ := hY.deriv (i := i) (src := fun _ => none) (b := b) hS
    (fun i hi => by rw [hS0, sensSum_units _ _ hi]) (fun k hk => by omega) (ht _ (List.getElem_mem h2)) (by omega) a2
  exact ⟨_, _, d, k3 i hi, a1 i (by omega), d1, d2⟩

/-- **C66**, three parameters (for another number see `C27_parameters_refuted`): `Y r` has the parameters `Q r`, their
derivatives are the `b v`; the initial values do not depend on `r`. -/
theorem C66_parameters (h : OrderlyS c) {q : List Var} (hq : ∀ v ∈ q, v ∈ existing c.st) {z : List ℝ}
    (hz : vals q c.st = .ok (z, c.st)) (h3 : q.length = 3) (sv : Solver ℝ σ) (t0 : ℝ) (y ts : List ℝ)
    (f : ℝ → List ℝ → List ℝ) (p : ℝ → Prog) (hp : ∀ t, (p t).Mild) (K : Nat) (hl : c.marks.length < 10)
    (ha : AsksAll (paramProblem f p z) sv (CallableL p z y.length q.length K c.st.tape.head ts.length) ts
      (sv.init t0 y (List.replicate q.length (List.replicate y.length 0))))
    (hg : Succeeds (paramProblem f p z) sv y.length q.length ts
      (sv.init t0 y (List.replicate q.length (List.replicate y.length 0))))
    (room : c.st.tape.head + ts.length * (y.length * (6 + 3 * q.length)) + K ≤ tapeLimit)
    (hu : u ∈ existing c.st) (hb : RatesL c.st u b)
    {T r0 ε : ℝ} (ht : ∀ t ∈ ts, t ∈ Icc t0 T) {Y : ℝ → ℝ → List ℝ} {Q : ℝ → List ℝ} {S : ℝ → List (List ℝ)}
    (h0 : Y r0 t0 = y) (hQ : Q r0 = z)
    (hY : Family (fun t => odeFn (p t) y.length []) y.length q.length t0 T r0 Y Q (fun _ => 0)
      (fun k => (q.map b).getD k 0))
    (hS : IsSensitivity (fun t => odeFn (p t) y.length []) t0 T z some q.length (Y r0) S)
    (hS0 : S t0 = List.replicate q.length (List.replicate y.length 0))
    (acc : AccurateTo ε (paramProblem f p z) sv y.length q.length (Y r0) S ts
      (sv.init t0 y (List.replicate q.length (List.replicate y.length 0)))) :
    ∃ yt y1 s', (∀ J : Junk W ℝ, cvodesSolParL J sv t0 y ts q f (odeP p []) c.st = .ok ((yt, y1), s')) ∧
      yt.length = ts.length ∧
      ∀ k (h1 : k < yt.length) (h2 : k < ts.length), yt[k].length = y.length ∧ ∀ i (hi : i < yt[k].length), ∃ x a d,
        GivesL c.st s' yt[k][i] x u a ∧ |x - (Y r0 ts[k]).getD i 0| ≤ ε ∧
        HasDerivAt (fun r => (Y r ts[k]).getD i 0) d r0 ∧ |a - d| ≤ ε * (q.map fun v => |b v|).sum := by
  obtain ⟨yt, y1, s', e, sol, hsol, -, l1, l2, hk⟩ := C60_parameters h hq hz h3 sv t0 y ts f p hp K hl ha hg room hu hb
  refine ⟨yt, y1, s', e, l1, fun k h1 h2 => ?_⟩
  obtain ⟨k1, k2, k3⟩ := hk k h1 (by omega)
  obtain ⟨a1, a2⟩ := acc.at hsol (by omega) h2
  refine ⟨k1, fun i hi => ?_⟩
  subst hQ
  obtain ⟨d, d1, d2⟩ := hY.deriv (i := i) (src := some) (b := b) hS
    (fun i hi => by rw [hS0, sensSum_zeros]) (fun k hk => by
      simp only [Option.some.injEq]
      rw [Finset.sum_ite_eq', if_pos (Finset.mem_range.mpr hk)]) (ht _ (List.getElem_mem h2)) (by omega) a2
  exact ⟨_, _, d, k3 i hi, a1 i (by omega), d1, d2⟩

/-! For C63: a solver that meets the tolerance 0 is `Right`. -/

/-- **C66**: an exact solver is right in the sense of C63, so that `gradient` and `jacobian` of functions that solve
differential equations on the way return the derivatives of the true solutions. -/
theorem C66_right_initial (sv : Solver ℝ σ) (t0 : ℝ) {z : List ℝ} (f : ℝ → List ℝ → List ℝ) (p : ℝ → Prog) {T : ℝ}
    {Y : List ℝ → ℝ → List ℝ} {S : ℝ → List (List ℝ)}
    (hY : SolutionsFrom (fun t => odeFn (p t) z.length []) t0 T z Y)
    (hS : IsSensitivity (fun t => odeFn (p t) z.length []) t0 T [] (fun _ => none) z.length (Y z) S)
    (hS0 : S t0 = unitVectors z.length) : ∀ (ts : List ℝ) (m : σ), (∀ t ∈ ts, t ∈ Icc t0 T) →
    Succeeds (initProblem f p) sv z.length z.length ts m →
    AccurateTo 0 (initProblem f p) sv z.length z.length (Y z) S ts m →
    Right (initProblem f p) sv z.length z ts m (ts.map fun t w => Y w t) := by
  intro ts
  induction ts with
  | nil => intro m _ _ _; trivial
  | cons t ts ih =>
    intro m ht hg acc
    obtain ⟨⟨δ, hδ, hsol⟩, ρ, hρ, hC⟩ := hY
    have hz : NearBy δ z z := ⟨rfl, fun i _ => by simpa using hδ.le⟩
    have ht1 := ht t (by simp)
    have ez : List.ofFn (fun i : Fin z.length => z.getD i 0) = z := ofFn_getD rfl
    refine ⟨fun r hr => ?_, fun y yS m' h => ih m' (fun t h => ht t (by simp [h])) (hg.2 _ _ _ h) (acc _ _ _ h).2.2⟩
    obtain ⟨a1, a2, a3, a4⟩ := hg.1 r hr
    obtain ⟨e, yv, yS, m'⟩ := r
    obtain rfl : e = 0 := a1
    obtain ⟨b1, b2, -⟩ := acc _ _ _ hr
    refine ⟨rfl, ?_, a3, a4, fun i hi => ?_⟩
    · apply List.ext_getElem (by rw [a2, ((hsol z hz).1 t ht1).1])
      intro i h1 h2
      have := b1 i (by omega)
      simp only [abs_nonpos_iff, sub_eq_zero] at this
      simpa [h1, h2] using this
    · refine isGradAt_of_sum a3 ?_
      have key := sens_fderiv (r0 := fun i : Fin z.length => z.getD i 0) (Y := fun p => Y (List.ofFn p)) (Q := fun _ => [])
        (nq := 0) (src := fun _ => none) (S := S) (b := coord z.length) hρ
        ((near_eventually ⟨δ, hδ, hsol⟩).mono fun p h => ⟨rfl, h.1⟩) (by simpa [ez] using hC) (by simpa [ez] using hS)
        (fun i hi => ?_) (fun k hk => by omega) t ht1 i hi
      · refine key.congr_fderiv (Finset.sum_congr rfl fun j hj => ?_)
        have := b2 j (Finset.mem_range.mp hj) i hi
        simp only [abs_nonpos_iff, sub_eq_zero] at this
        rw [this]
      · have e : (∑ j ∈ Finset.range z.length, ((S t0).getD j []).getD i 0 • coord z.length j) = coord z.length i := by
          rw [hS0, Finset.sum_eq_single i]
          · simp [unitVectors, hi]
          · intro j hj hne
            have hj := Finset.mem_range.mp hj
            simp [unitVectors, hi, hj, hne.symm]
          · intro h
            exact absurd (Finset.mem_range.mpr hi) h
        rw [e]
        refine (coord_at z.length i _).congr_of_eventuallyEq ?_
        filter_upwards [near_eventually ⟨δ, hδ, hsol⟩] with p hp
        rw [hp.2]

/-- **C66**: the same for parameters. -/
theorem C66_right_parameters (sv : Solver ℝ σ) (t0 : ℝ) {y z : List ℝ} (f : ℝ → List ℝ → List ℝ) (p : ℝ → Prog) {T : ℝ}
    {Y : List ℝ → ℝ → List ℝ} {S : ℝ → List (List ℝ)}
    (hY : SolutionsWith (fun t => odeFn (p t) y.length []) t0 T y z Y)
    (hS : IsSensitivity (fun t => odeFn (p t) y.length []) t0 T z some z.length (Y z) S)
    (hS0 : S t0 = List.replicate z.length (List.replicate y.length 0)) : ∀ (ts : List ℝ) (m : σ), (∀ t ∈ ts, t ∈ Icc t0 T) →
    Succeeds (paramProblem f p z) sv y.length z.length ts m →
    AccurateTo 0 (paramProblem f p z) sv y.length z.length (Y z) S ts m →
    Right (paramProblem f p z) sv y.length z ts m (ts.map fun t w => Y w t) := by
  intro ts
  induction ts with
  | nil => intro m _ _ _; trivial
  | cons t ts ih =>
    intro m ht hg acc
    obtain ⟨⟨δ, hδ, hsol⟩, ρ, hρ, hC⟩ := hY
    have hz : NearBy δ z z := ⟨rfl, fun i _ => by simpa using hδ.le⟩
    have ht1 := ht t (by simp)
    have ez : List.ofFn (fun i : Fin z.length => z.getD i 0) = z := ofFn_getD rfl
    refine ⟨fun r hr => ?_, fun y yS m' h => ih m' (fun t h => ht t (by simp [h])) (hg.2 _ _ _ h) (acc _ _ _ h).2.2⟩
    obtain ⟨a1, a2, a3, a4⟩ := hg.1 r hr
    obtain ⟨e, yv, yS, m'⟩ := r
    obtain rfl : e = 0 := a1
    obtain ⟨b1, b2, -⟩ := acc _ _ _ hr
    refine ⟨rfl, ?_, a3, a4, fun i hi => ?_⟩
    · apply List.ext_getElem (by rw [a2, ((hsol z hz).1 t ht1).1])
      intro i h1 h2
      have := b1 i (by omega)
      simp only [abs_nonpos_iff, sub_eq_zero] at this
      simpa [h1, h2] using this
    · refine isGradAt_of_sum a3 ?_
      have key := sens_fderiv (r0 := fun i : Fin z.length => z.getD i 0) (Y := fun p => Y (List.ofFn p))
        (Q := fun p => List.ofFn p) (nq := z.length) (src := some) (S := S) (b := coord z.length) hρ
        ((near_eventually ⟨δ, hδ, hsol⟩).mono fun p h => ⟨by simp, h.1⟩) (by simpa only [ez] using hC)
        (by simpa only [ez] using hS) (fun i hi => ?_) (fun k hk => ?_) t ht1 i hi
      · refine key.congr_fderiv (Finset.sum_congr rfl fun j hj => ?_)
        have := b2 j (Finset.mem_range.mp hj) i hi
        simp only [abs_nonpos_iff, sub_eq_zero] at this
        rw [this]
      · have e : (∑ j ∈ Finset.range z.length, ((S t0).getD j []).getD i 0 • coord z.length j) = 0 := by
          refine Finset.sum_eq_zero fun j hj => ?_
          have hj := Finset.mem_range.mp hj
          rw [hS0, List.getD_replicate _ hj, List.getD_replicate _ hi, zero_smul]
        rw [e]
        refine (hasFDerivAt_const (y.getD i 0) _).congr_of_eventuallyEq ?_
        filter_upwards [near_eventually ⟨δ, hδ, hsol⟩] with p hp
        rw [hp.2]
      · simp only [Option.some.injEq]
        rw [Finset.sum_ite_eq', if_pos (Finset.mem_range.mpr hk)]
        exact coord_at z.length k _

/-! The hypotheses are met, with an error of 0.  First `y' = 2 y` and a solver that continues the exponential function
that its two questions show. -/

/-- a solver for `y' = λ y` -/
noncomputable def extrapolate : Solver ℝ (ℝ × ℝ × ℝ) where
  init t y S := (t, y.getD 0 0, (S.getD 0 []).getD 0 0)
  step m t := .rhs m.1 [m.2.1] fun f => .sens m.1 [m.2.1] [[m.2.2]] fun o =>
    let a := m.2.1 * Real.exp (f.getD 0 0 / m.2.1 * (t - m.1))
    let x := m.2.2 * Real.exp ((o.getD 0 []).getD 0 0 / m.2.2 * (t - m.1))
    .done 0 [a] [[x]] (t, a, x)

theorem doubling_fn (t : ℝ) (i : Nat) (hi : i < 1) (a : ℝ) : odeFn (doubling t) 1 [] i [a] = 2 * a := by
  obtain rfl : i = 0 := by omega
  simp [odeFn, doubling, Prog.sem, Instr.sem, look, Bin.fn, mul_comm]

theorem doubling_grad (t : ℝ) (i : Nat) (hi : i < 1) (a : ℝ) : IsGradAt (odeFn (doubling t) 1 [] i) [a] [2] := by
  apply isGradAt_one
  simp only [doubling_fn _ _ hi]
  simpa using (hasDerivAt_id a).const_mul 2

theorem doubling_sens_iff {t a x : ℝ} {o : List (List ℝ)} :
    IsSensRhs (odeFn (doubling t) 1 []) [a] [] (fun _ => none) [[x]] o ↔ o = [[2 * x]] := by
  constructor
  · intro h
    obtain ⟨w, rfl⟩ := single_answer (y := [a]) (S := [[x]]) rfl rfl h
    obtain ⟨dy, dq, h1, h2, h3⟩ := (h.2 0 (by simp)).2 0 (by simp)
    have := (doubling_grad t 0 (by omega) a).unique h2
    obtain ⟨v, rfl⟩ := List.length_eq_one_iff.mp h1
    simp at this h3
    rw [h3, this.1]
  · rintro rfl
    refine ⟨rfl, fun j hj => ?_⟩
    obtain rfl : j = 0 := by simpa using hj
    refine ⟨rfl, fun i hi => ⟨[2], [], rfl, by simpa using doubling_grad t i (by simpa using hi) a, ?_⟩⟩
    obtain rfl : i = 0 := by simpa using hi
    simp

theorem extrapolate_step {r a x t : ℝ} (ha : a ≠ 0) (hx : x ≠ 0) {z}
    (h : Solves (initProblem doublingF doubling) (extrapolate.step (r, a, x) t) z) :
    z = (0, [a * Real.exp (2 * (t - r))], [[x * Real.exp (2 * (t - r))]],
      t, a * Real.exp (2 * (t - r)), x * Real.exp (2 * (t - r))) := by
  cases h with | rhs h =>
  cases h with | sens h1 h2 =>
  cases h2
  simp only [initProblem, List.length_singleton, doubling_sens_iff] at h1
  subst h1
  have e1 : 2 * a / a = 2 := by field_simp
  have e2 : 2 * x / x = 2 := by field_simp
  simp [initProblem, doublingF, e1, e2]

/-- the memory of the solver at time `r` -/
noncomputable def atTime (a r : ℝ) : ℝ × ℝ × ℝ := (r, a * Real.exp (2 * r), Real.exp (2 * r))

theorem extrapolate_exact {a r t : ℝ} (ha : a ≠ 0) {z} (h : Solves (initProblem doublingF doubling) (extrapolate.step (atTime a r) t) z) :
    z = (0, [a * Real.exp (2 * t)], [[Real.exp (2 * t)]], atTime a t) := by
  have e : ∀ a : ℝ, a * Real.exp (2 * r) * Real.exp (2 * (t - r)) = a * Real.exp (2 * t) := fun a => by
    rw [mul_assoc, ← Real.exp_add]; ring_nf
  have e1 := e a
  have e2 := e 1
  simp only [one_mul] at e2
  have := extrapolate_step (mul_ne_zero ha (Real.exp_ne_zero _)) (Real.exp_ne_zero _) h
  rw [e1, e2] at this
  exact this

theorem extrapolate_asks {a : ℝ} (ha : a ≠ 0) {hd m : Nat} (hm : hd + 9 * m ≤ 12000) : ∀ (ts : List ℝ) (r : ℝ),
    AsksAll (initProblem doublingF doubling) extrapolate (CallableL doubling [] 1 1 30 hd m) ts (atTime a r) ∧
      Succeeds (initProblem doublingF doubling) extrapolate 1 1 ts (atTime a r) := by
  intro ts
  induction ts with
  | nil => intro r; exact ⟨trivial, trivial⟩
  | cons t ts ih =>
    intro r
    refine ⟨⟨⟨⟨⟨rfl, rfl, ?_, ?_⟩, by simp, ?_, fun k hk j => ?_⟩, fun _ _ => trivial⟩, fun y yS m' h => ?_⟩,
      fun z h => ?_, fun y yS m' h => ?_⟩
    · simp [doubling, Prog.Ok, Instr.Ok, Instr.sem, Bin.domVV]
    · simp [doubling, Prog.cost, Instr.cost]
    · simp [doubling, Prog.sem, Instr.sem]
    · have := Nat.one_le_two_pow (n := j)
      simp [doubling, Prog.cost, Instr.cost]
      omega
    · cases extrapolate_exact ha h
      exact (ih _).1
    · obtain rfl := extrapolate_exact ha h
      exact ⟨rfl, rfl, rfl, by simp⟩
    · cases extrapolate_exact ha h
      exact (ih _).2

theorem extrapolate_accurate {a : ℝ} (ha : a ≠ 0) : ∀ (ts : List ℝ) (r : ℝ), AccurateTo 0 (initProblem doublingF doubling) extrapolate 1 1
    (fun t => [a * Real.exp (2 * t)]) (fun t => [[Real.exp (2 * t)]]) ts (atTime a r) := by
  intro ts
  induction ts with
  | nil => intro r; trivial
  | cons t ts ih =>
    intro r yv yS m' h
    cases extrapolate_exact ha h
    exact ⟨by simp, by simp [NearS], ih t⟩

/-- the solutions `(3 + r b) e^(2t)` -/
theorem doubling_family (b : ℝ) : Family (fun t => odeFn (doubling t) 1 []) 1 0 0 2 0
    (fun r t => [(3 + r * b) * Real.exp (2 * t)]) (fun _ => []) (fun i => [b].getD i 0) (fun _ => 0) where
  solves := .of_forall fun r => ⟨rfl, fun t _ => ⟨rfl, fun i hi => by
    obtain rfl : i = 0 := by omega
    simp only [List.append_nil, doubling_fn _ _ hi, List.getD_cons_zero]
    refine HasDerivAt.hasDerivWithinAt ?_
    have := (((hasDerivAt_id t).const_mul 2).exp).const_mul (3 + r * b)
    refine this.congr_deriv ?_
    simp
    ring⟩⟩
  start i hi := by
    obtain rfl : i = 0 := by omega
    simpa using ((hasDerivAt_id (0 : ℝ)).mul_const b).const_add 3
  pars k hk := by omega
  smooth := ⟨1, one_pos, fun i hi => ⟨fun _ _ => [2], fun t _ x hx => by
    obtain ⟨a, rfl⟩ := List.length_eq_one_iff.mp hx.1
    exact doubling_grad t i hi a, fun j _ => continuousOn_const⟩⟩

theorem doubling_sensitivity (b : ℝ) : IsSensitivity (fun t => odeFn (doubling t) 1 []) 0 2 [] (fun _ => none) 1
    (fun t => [(3 + 0 * b) * Real.exp (2 * t)]) (fun t => [[Real.exp (2 * t)]]) := by
  refine fun t _ => ⟨rfl, _, doubling_sens_iff.mpr rfl, fun j hj => ?_⟩
  obtain rfl : j = 0 := by omega
  refine ⟨rfl, fun i hi => ?_⟩
  obtain rfl : i = 0 := by simpa using hi
  refine HasDerivAt.hasDerivWithinAt ?_
  refine (((hasDerivAt_id t).const_mul 2).exp).congr_deriv ?_
  simp
  ring

example : ∃ (c : Client W) (y0 u : Var) (b : Var → ℝ) (yt : List (List Var)) (s' : St W), OrderlyL ℝ c ∧ RatesL c.st u b ∧
    (∀ J : Junk W ℝ, cvodesSolY0L J extrapolate 0 [y0] [1, 2] doublingF (odeY doubling []) c.st = .ok (yt, s')) ∧
    yt.length = 2 ∧ ∀ k (h1 : k < yt.length) (h2 : k < [(1 : ℝ), 2].length), ∃ v, yt[k] = [v] ∧
      GivesL c.st s' v (3 * Real.exp (2 * [(1 : ℝ), 2][k])) u (Real.exp (2 * [(1 : ℝ), 2][k]) * b y0) := by
  obtain ⟨c, o, v, hh, hm, hn⟩ := orderlyL_three (W := W)
  obtain ⟨d, g, val, adj, S⟩ := orderlyL_shadow commutes_real o
  have hex : ∀ k < 3, nth c.env k ∈ existing c.st := fun k hk => by
    rw [S.alike.existing]
    exact (mem_existing S.sound.good.inv).mpr (S.sound.good.has _ (by rw [S.env]; exact nth_mem (by omega)))
  have v1 : (vals [nth c.env 1] : M W (List ℝ)) c.st = .ok ([3], c.st) := by
    have hv := ValL.ofRead S.sound.good.inv (by rw [← S.env]; exact S.sound.good.has) (S.vals (fun _ h => h) v)
    have h1 := (hv.nths (is := [1]) (by simp [hn])).read S.sound.good.inv
    obtain ⟨s2, e2, -⟩ := blind_vals _ _ _ _ _ S.alike h1
    have := vals_st e2
    subst this
    rw [← List.map_singleton (f := nth c.env), e2]
    simp [num]
  obtain ⟨b, hb⟩ := C60_rates o.solves (hex 0 (by omega))
  have e0 : extrapolate.init 0 [3] (unitVectors 1) = atTime 3 0 := by simp [extrapolate, atTime, unitVectors]
  obtain ⟨yt, s', e, h1, h2⟩ := C66_initial o.solves (y0 := [nth c.env 1]) (by simpa using hex 1 (by omega)) v1 (by simp)
    extrapolate 0 [1, 2] doublingF doubling (by simp [doubling, Prog.Mild, Instr.Mild]) 30 (by simp [hm])
    (by rw [List.length_singleton, e0]; exact (extrapolate_asks (by norm_num) (by rw [hh]; simp) _ _).1)
    (by rw [List.length_singleton, e0]; exact (extrapolate_asks (by norm_num) (hd := 0) (m := 0) (by simp) _ _).2)
    (by rw [hh]; simp [tapeLimit]) (hex 0 (by omega)) hb (T := 2) (r0 := 0) (ε := 0) (by simp)
    (Y := fun r t => [(3 + r * b (nth c.env 1)) * Real.exp (2 * t)]) (S := fun t => [[Real.exp (2 * t)]]) (by simp)
    (doubling_family _) (doubling_sensitivity _) (by simp [unitVectors])
    (by rw [List.length_singleton, e0]; simpa using extrapolate_accurate (by norm_num) _ _)
  refine ⟨c, nth c.env 1, _, b, yt, s', o, hb, e, h1, fun k k1 k2 => ?_⟩
  obtain ⟨l, hk⟩ := h2 k k1 k2
  obtain ⟨v, hv⟩ := List.length_eq_one_iff.mp l
  refine ⟨v, hv, ?_⟩
  obtain ⟨x, a, d, a1, a2, a3, a4⟩ := hk 0 (by rw [l]; simp)
  simp only [hv, List.getElem_cons_zero, List.getD_cons_zero, zero_mul, add_zero, abs_nonpos_iff, sub_eq_zero] at a1 a2 a3 a4
  have hd := a3.unique ((((hasDerivAt_id (0 : ℝ)).mul_const (b (nth c.env 1))).const_add 3).mul_const _)
  rw [← a2, mul_comm, ← one_mul (b (nth c.env 1)), ← hd, ← a4]
  exact a1

/-! The same solver inside of a function that is differentiated: `x ↦ x φ₁(x) φ₂(x)`, where `φ₁(x)` and `φ₂(x)` are the
solution at the times 1 and 2. -/

noncomputable def doublingIvp : Ivp (ℝ × ℝ × ℝ) :=
  ⟨extrapolate, 0, [1, 2], doublingF, doubling, 30, [1, 2].map fun t w => w.map fun a => a * Real.exp (2 * t)⟩

theorem doubling_right {a : ℝ} (ha : a ≠ 0) :
    Right (initProblem doublingF doubling) extrapolate 1 [a] [1, 2] (atTime a 0) doublingIvp.sol := by
  refine C66_right_initial (z := [a]) extrapolate 0 doublingF doubling (T := 2)
    (Y := fun w t => w.map fun a => a * Real.exp (2 * t)) (S := fun t => [[Real.exp (2 * t)]])
    ⟨⟨1, one_pos, fun w hw => ?_⟩, 1, one_pos, fun i hi => ⟨fun _ _ => [2], fun t _ x hx => ?_, fun j _ => continuousOn_const⟩⟩
    ?_ (by simp [unitVectors]) [1, 2] _ (by simp) (extrapolate_asks ha (hd := 0) (m := 0) (by simp) _ _).2
    (extrapolate_accurate ha _ _)
  · obtain ⟨b, rfl⟩ := List.length_eq_one_iff.mp hw.1
    refine ⟨fun t _ => ⟨rfl, fun i hi => ?_⟩, by simp⟩
    obtain rfl : i = 0 := by simpa using hi
    simp only [List.append_nil, List.length_singleton, List.map_cons, List.map_nil, List.getD_cons_zero]
    rw [doubling_fn _ _ (by omega)]
    refine HasDerivAt.hasDerivWithinAt ((((hasDerivAt_id t).const_mul 2).exp.const_mul b).congr_deriv ?_)
    simp
    ring
  · obtain ⟨b, rfl⟩ := List.length_eq_one_iff.mp hx.1
    exact doubling_grad t i (by simpa using hi) b
  · refine fun t _ => ⟨rfl, _, doubling_sens_iff.mpr rfl, fun j hj => ?_⟩
    obtain rfl : j = 0 := by simpa using hj
    refine ⟨rfl, fun i hi => ?_⟩
    obtain rfl : i = 0 := by simpa using hi
    refine HasDerivAt.hasDerivWithinAt ((((hasDerivAt_id t).const_mul 2).exp).congr_deriv ?_)
    simp
    ring

noncomputable def doublingFlow : Flow (ℝ × ℝ × ℝ) :=
  .init doublingIvp [0] <| .op (.bin .mul 0 1) <| .op (.bin .mul 3 2) <| .ret [4]

/-- the derivative of `x³ e⁶` at `x = 5` -/
example : ∃ (c : Client W) (s' : St W), OrderlyS c ∧ ∀ J : Junk W ℝ,
    gradientL J (doublingFlow.scalarL J []) [5] c.st = .ok ((125 * Real.exp 6, [75 * Real.exp 6]), s') := by
  obtain ⟨c, o, v, hh, hm, hn⟩ := orderlyL_three (W := W)
  have o' := o.solves
  have e0 : extrapolate.init 0 [5] (unitVectors 1) = atTime 5 0 := by simp [extrapolate, atTime, unitVectors]
  have hp : doublingFlow.ProperL c [] [] [5] := by
    refine ⟨by simp [hm], by simp, rfl, by simp [hh, tapeLimit], ?_, by simp [doublingFlow, Flow.sem]⟩
    rw [hh]
    refine ⟨by simp, by simp, ⟨?_, ?_, ?_, ?_, ?_⟩, ?_⟩
    · simp [doublingIvp, doubling, Prog.Mild, Instr.Mild]
    · simp [doublingIvp, tapeLimit]
    · show AsksAll _ _ _ _ (extrapolate.init 0 [5] (unitVectors 1))
      rw [e0]
      exact (extrapolate_asks (by norm_num) (by simp [doublingIvp]) _ _).1
    · show Right _ _ _ _ _ (extrapolate.init 0 [5] (unitVectors 1)) _
      rw [e0]
      exact doubling_right (a := 5) (by norm_num)
    · simp [doublingIvp]
    · simp [Flow.Ok, Instr.Ok, Instr.Mild, Bin.domVV, Instr.cost, Instr.sem, doublingIvp, Ivp.states, tapeLimit]
      intro j
      have := Nat.one_le_two_pow (n := j)
      omega
  obtain ⟨df, s', e, hg, -⟩ := C63_gradient o' hp
  refine ⟨c, s', o', fun J => ?_⟩
  have hx : Real.exp (2 * 1) * Real.exp (2 * 2) = Real.exp 6 := by rw [← Real.exp_add]; norm_num
  have hs : ∀ t : ℝ, (doublingFlow.sem ([t] ++ [])).getD 0 0 = Real.exp 6 * t ^ 3 := fun t => by
    simp [doublingFlow, Flow.sem, Instr.sem, look, Bin.fn, Ivp.states, doublingIvp]
    rw [← hx]
    ring_nf
  have hd : IsGradAt (fun z => (doublingFlow.sem (z ++ [])).getD 0 0) [5] [75 * Real.exp 6] := isGradAt_one (by
    simp only [hs]
    refine ((hasDerivAt_pow 3 (5 : ℝ)).const_mul (Real.exp 6)).congr_deriv ?_
    norm_num
    ring)
  have hu := hg.unique hd
  have := e J
  rw [List.map_nil, hu, hs] at this
  rw [this]
  norm_num
  ring

/-! Second `y' = q₁ q₂ + q₃`, for which the Euler method is exact. -/

/-- `y' = q₁ q₂ + q₃` -/
noncomputable def steady (_ : ℝ) : Prog := .op (.bin .mul 2 3) <| .op (.bin .add 5 4) <| .ret [6]

/-- the same without variables, at `q = (2, 3, 6)` -/
noncomputable def steadyF (_ : ℝ) (y : List ℝ) : List ℝ := y.map fun _ => 12

theorem steady_fn (t : ℝ) (i : Nat) (hi : i < 1) (a q1 q2 q3 : ℝ) :
    odeFn (steady t) 1 [] i [a, q1, q2, q3] = q1 * q2 + q3 := by
  obtain rfl : i = 0 := by omega
  simp [odeFn, steady, Prog.sem, Instr.sem, look, Bin.fn]

theorem steady_grad (t : ℝ) (i : Nat) (hi : i < 1) (a q1 q2 q3 : ℝ) :
    IsGradAt (odeFn (steady t) 1 [] i) [a, q1, q2, q3] [0, q2, q1, 1] := by
  refine ⟨rfl, ?_⟩
  show HasFDerivAt (𝕜 := ℝ) (fun y : Fin 4 → ℝ => odeFn (steady t) 1 [] i (List.ofFn y)) _
    (fun i : Fin 4 => [a, q1, q2, q3][i])
  have e : (fun y : Fin 4 → ℝ => odeFn (steady t) 1 [] i (List.ofFn y)) = fun y => y 1 * y 2 + y 3 := by
    funext y
    simp only [List.ofFn_succ, List.ofFn_zero]
    exact steady_fn t i hi _ _ _ _
  rw [e]
  have l : ∀ i : Fin 4, HasFDerivAt (fun y : Fin 4 → ℝ => y i) (ContinuousLinearMap.proj (R := ℝ) (φ := fun _ => ℝ) i)
      (fun i : Fin 4 => [a, q1, q2, q3][i]) := fun i => hasFDerivAt_apply (𝕜 := ℝ) i _
  refine (((l 1).mul (l 2)).add (l 3)).congr_fderiv ?_
  ext v
  simp [Fin.sum_univ_four]
  ring

theorem steady_sens {t a q1 q2 q3 x x' x'' : ℝ} {o : List (List ℝ)} :
    IsSensRhs (odeFn (steady t) 1 []) [a] [q1, q2, q3] some [[x], [x'], [x'']] o ↔ o = [[q2], [q1], [1]] := by
  constructor
  · intro h
    obtain ⟨a1, a2⟩ := h
    obtain ⟨l, l', l'', rfl⟩ : ∃ l l' l'', o = [l, l', l''] := List.length_eq_three.mp a1
    have key : ∀ j < 3, ∀ w, ([l, l', l''].getD j []) = [w] → w = [q2, q1, 1].getD j 0 := by
      intro j hj w hw
      obtain ⟨dy, dq, h1, h2, h3⟩ := (a2 j (by simpa using hj)).2 0 (by simp)
      have := (steady_grad t 0 (by omega) a q1 q2 q3).unique h2
      obtain ⟨v, rfl⟩ := List.length_eq_one_iff.mp h1
      simp only [List.cons_append, List.nil_append, List.cons.injEq] at this
      obtain ⟨rfl, rfl⟩ := this
      rw [hw] at h3
      simp only [List.getD_cons_zero] at h3
      rw [h3]
      have : j = 0 ∨ j = 1 ∨ j = 2 := by omega
      rcases this with rfl | rfl | rfl <;> simp
    have b0 := (a2 0 (by simp)).1
    have b1 := (a2 1 (by simp)).1
    have b2 := (a2 2 (by simp)).1
    simp at b0 b1 b2
    obtain ⟨w, rfl⟩ := List.length_eq_one_iff.mp b0
    obtain ⟨w', rfl⟩ := List.length_eq_one_iff.mp b1
    obtain ⟨w'', rfl⟩ := List.length_eq_one_iff.mp b2
    rw [key 0 (by omega) w rfl, key 1 (by omega) w' rfl, key 2 (by omega) w'' rfl]
    rfl
  · rintro rfl
    refine ⟨rfl, fun j hj => ?_⟩
    have : j = 0 ∨ j = 1 ∨ j = 2 := by simp at hj; omega
    refine ⟨by rcases this with rfl | rfl | rfl <;> rfl, fun i hi => ?_⟩
    obtain rfl : i = 0 := by simpa using hi
    refine ⟨[0], [q2, q1, 1], rfl, steady_grad t 0 (by omega) a q1 q2 q3, ?_⟩
    rcases this with rfl | rfl | rfl <;> simp

/-- the memory of the Euler method at time `r` -/
noncomputable def steadyAt (r : ℝ) : ℝ × List ℝ × List (List ℝ) := (r, [7 + 12 * r], [[3 * r], [2 * r], [r]])

theorem steady_exact {r t : ℝ} {z} (h : Solves (paramProblem steadyF steady [2, 3, 6]) (euler.step (steadyAt r) t) z) :
    z = (0, [7 + 12 * t], [[3 * t], [2 * t], [t]], steadyAt t) := by
  cases h with | rhs h =>
  cases h with | sens h1 h2 =>
  cases h2
  simp only [paramProblem, steadyAt, List.length_singleton, steady_sens] at h1
  subst h1
  simp [paramProblem, steadyF, steadyAt]
  refine ⟨?_, ⟨?_, ?_⟩, ?_, ?_, ?_⟩ <;> ring

theorem steady_asks {hd m : Nat} (hm : hd + 15 * m ≤ 12000) : ∀ (ts : List ℝ) (r : ℝ),
    AsksAll (paramProblem steadyF steady [2, 3, 6]) euler (CallableL steady [2, 3, 6] 1 3 60 hd m) ts (steadyAt r) ∧
      Succeeds (paramProblem steadyF steady [2, 3, 6]) euler 1 3 ts (steadyAt r) := by
  intro ts
  induction ts with
  | nil => intro r; exact ⟨trivial, trivial⟩
  | cons t ts ih =>
    intro r
    refine ⟨⟨⟨⟨⟨rfl, rfl, ?_, ?_⟩, by simp [steadyAt], ?_, fun k hk j => ?_⟩, fun _ _ => trivial⟩, fun y yS m' h => ?_⟩,
      fun z h => ?_, fun y yS m' h => ?_⟩
    · simp [steady, steadyAt, Prog.Ok, Instr.Ok, Instr.sem, Bin.domVV]
    · simp [steady, steadyAt, Prog.cost, Instr.cost]
    · simp [steady, steadyAt, Prog.sem, Instr.sem]
    · have := Nat.one_le_two_pow (n := j)
      simp [steady, steadyAt, Prog.cost, Instr.cost]
      omega
    · cases steady_exact h
      exact (ih _).1
    · obtain rfl := steady_exact h
      exact ⟨rfl, rfl, rfl, by simp⟩
    · cases steady_exact h
      exact (ih _).2

theorem steady_accurate : ∀ (ts : List ℝ) (r : ℝ), AccurateTo 0 (paramProblem steadyF steady [2, 3, 6]) euler 1 3
    (fun t => [7 + 12 * t]) (fun t => [[3 * t], [2 * t], [t]]) ts (steadyAt r) := by
  intro ts
  induction ts with
  | nil => intro r; trivial
  | cons t ts ih =>
    intro r yv yS m' h
    cases steady_exact h
    exact ⟨by simp, by simp [NearS], ih t⟩

/-- the solutions `7 + t (q₁ q₂ + q₃)` -/
theorem steady_family (b1 b2 b3 : ℝ) : Family (fun t => odeFn (steady t) 1 []) 1 3 0 5 0
    (fun r t => [7 + t * ((2 + r * b1) * (3 + r * b2) + (6 + r * b3))]) (fun r => [2 + r * b1, 3 + r * b2, 6 + r * b3])
    (fun _ => 0) (fun k => [b1, b2, b3].getD k 0) where
  solves := .of_forall fun r => ⟨rfl, fun t _ => ⟨rfl, fun i hi => by
    obtain rfl : i = 0 := by omega
    simp only [List.cons_append, List.nil_append, steady_fn _ _ hi, List.getD_cons_zero]
    refine HasDerivAt.hasDerivWithinAt ?_
    simpa using ((hasDerivAt_id t).mul_const ((2 + r * b1) * (3 + r * b2) + (6 + r * b3))).const_add 7⟩⟩
  start i hi := by
    obtain rfl : i = 0 := by omega
    simpa using hasDerivAt_const (0 : ℝ) (7 : ℝ)
  pars k hk := by
    have l : ∀ a b : ℝ, HasDerivAt (fun r => a + r * b) b 0 := fun a b => by
      simpa using ((hasDerivAt_id (0 : ℝ)).mul_const b).const_add a
    have : k = 0 ∨ k = 1 ∨ k = 2 := by omega
    rcases this with rfl | rfl | rfl <;> exact l _ _
  smooth := ⟨1, one_pos, fun i hi => ⟨fun _ x => [0, x.getD 2 0, x.getD 1 0, 1], fun t _ x hx => by
    have hl := hx.1
    match x, hl with
    | [a, q1, q2, q3], _ => exact steady_grad t i hi a q1 q2 q3, fun j hj => by
    have : j = 0 ∨ j = 1 ∨ j = 2 ∨ j = 3 := by omega
    rcases this with rfl | rfl | rfl | rfl
    · exact continuousOn_const
    · simp; fun_prop
    · simp; fun_prop
    · exact continuousOn_const⟩⟩

theorem steady_sensitivity : IsSensitivity (fun t => odeFn (steady t) 1 []) 0 5 [2, 3, 6] some 3
    (fun t => [7 + 12 * t]) (fun t => [[3 * t], [2 * t], [t]]) := by
  refine fun t _ => ⟨rfl, _, steady_sens.mpr rfl, fun j hj => ?_⟩
  have l : ∀ b : ℝ, HasDerivWithinAt (fun r => b * r) b (Icc 0 5) t := fun b => by
    simpa using ((hasDerivAt_id t).const_mul b).hasDerivWithinAt
  have l1 : HasDerivWithinAt (fun r => r) (1 : ℝ) (Icc 0 5) t := (hasDerivAt_id t).hasDerivWithinAt
  have : j = 0 ∨ j = 1 ∨ j = 2 := by omega
  refine ⟨by rcases this with rfl | rfl | rfl <;> rfl, fun i hi => ?_⟩
  obtain rfl : i = 0 := by simpa using hi
  rcases this with rfl | rfl | rfl
  · exact l 3
  · exact l 2
  · exact l1

example : ∃ (c : Client W) (u : Var) (b : Var → ℝ) (yt : List (List Var)) (y1 : List ℝ) (s' : St W), OrderlyL ℝ c ∧
    RatesL c.st u b ∧
    (∀ J : Junk W ℝ, cvodesSolParL J euler 0 [7] [1, 2, 5] c.env steadyF (odeP steady []) c.st = .ok ((yt, y1), s')) ∧
    yt.length = 3 ∧ ∀ k (h1 : k < yt.length) (h2 : k < [(1 : ℝ), 2, 5].length), ∃ v x a d, yt[k] = [v] ∧
      GivesL c.st s' v x u a ∧ x = 7 + 12 * [(1 : ℝ), 2, 5][k] ∧ a = d ∧
      d = [(1 : ℝ), 2, 5][k] * (3 * b (nth c.env 0) + 2 * b (nth c.env 1) + b (nth c.env 2)) := by
  obtain ⟨c, o, v, hh, hm, hn⟩ := orderlyL_three (W := W)
  obtain ⟨d, g, val, adj, S⟩ := orderlyL_shadow commutes_real o
  have hex : ∀ v ∈ c.env, v ∈ existing c.st := fun v hv => by
    rw [S.alike.existing]
    exact (mem_existing S.sound.good.inv).mpr (S.sound.good.has _ (by rw [S.env]; exact hv))
  have h0 : nth c.env 0 ∈ existing c.st := hex _ (nth_mem (by omega))
  obtain ⟨b, hb⟩ := C60_rates o.solves h0
  obtain ⟨v1, v2, v3, he⟩ := List.length_eq_three.mp hn
  have e0 : euler.init 0 [7] (List.replicate 3 (List.replicate 1 0)) = steadyAt 0 := by simp [euler, steadyAt]
  have hY : (fun t : ℝ => [7 + t * ((2 + 0 * b v1) * (3 + 0 * b v2) + (6 + 0 * b v3))]) = fun t => [7 + 12 * t] := by
    funext t; simp only [List.cons.injEq, and_true]; ring
  obtain ⟨yt, y1, s', e, h1, h2⟩ := C66_parameters o.solves (q := c.env) hex v hn euler 0 [7] [1, 2, 5]
    steadyF steady (by simp [steady, Prog.Mild, Instr.Mild]) 60 (by simp [hm])
    (by rw [hn, List.length_singleton, e0]; exact (steady_asks (by rw [hh]; simp) _ _).1)
    (by rw [hn, List.length_singleton, e0]; exact (steady_asks (hd := 0) (m := 0) (by simp) _ _).2)
    (by rw [hh, hn]; simp [tapeLimit]) h0 hb (T := 5) (r0 := 0) (ε := 0) (by norm_num)
    (Y := fun r t => [7 + t * ((2 + r * b v1) * (3 + r * b v2) + (6 + r * b v3))])
    (Q := fun r => [2 + r * b v1, 3 + r * b v2, 6 + r * b v3]) (S := fun t => [[3 * t], [2 * t], [t]]) (by simp) (by simp)
    (by rw [hn, he]; exact steady_family _ _ _)
    (by
      rw [hn]
      rw [hY]
      exact steady_sensitivity)
    (by simp [hn])
    (by
      rw [hn, List.length_singleton, e0]
      rw [hY]
      exact steady_accurate [1, 2, 5] 0)
  refine ⟨c, _, b, yt, y1, s', o, hb, e, h1, fun k k1 k2 => ?_⟩
  obtain ⟨l, hk⟩ := h2 k k1 k2
  obtain ⟨v, hv⟩ := List.length_eq_one_iff.mp l
  obtain ⟨x, a, d, a1, a2, a3, a4⟩ := hk 0 (by rw [l]; simp)
  simp only [hv, List.getElem_cons_zero, List.getD_cons_zero, zero_mul, add_zero, abs_nonpos_iff, sub_eq_zero] at a1 a2 a3 a4
  refine ⟨v, x, a, d, hv, a1, by rw [a2]; ring, a4, ?_⟩
  have l : ∀ a b : ℝ, HasDerivAt (fun r => a + r * b) b 0 := fun a b => by
    simpa using ((hasDerivAt_id (0 : ℝ)).mul_const b).const_add a
  rw [a3.unique (((((l 2 (b v1)).mul (l 3 (b v2))).add (l 6 (b v3))).const_mul _).const_add 7)]
  simp [he, nth]
  ring_nf
  simp

theorem steady_right (ts : List ℝ) (ht : ∀ t ∈ ts, t ∈ Icc 0 5) :
    Right (paramProblem steadyF steady [2, 3, 6]) euler 1 [2, 3, 6] ts (steadyAt 0)
      (ts.map fun t w => [7 + t * (w.getD 0 0 * w.getD 1 0 + w.getD 2 0)]) := by
  have hY : (fun t : ℝ => [7 + t * ([(2 : ℝ), 3, 6].getD 0 0 * [(2 : ℝ), 3, 6].getD 1 0 + [(2 : ℝ), 3, 6].getD 2 0)]) =
      fun t => [7 + 12 * t] := by
    funext t; simp; ring
  refine C66_right_parameters (y := [7]) (z := [2, 3, 6]) euler 0 steadyF steady (T := 5)
    (Y := fun w t => [7 + t * (w.getD 0 0 * w.getD 1 0 + w.getD 2 0)]) (S := fun t => [[3 * t], [2 * t], [t]])
    ⟨⟨1, one_pos, fun w hw => ?_⟩, 1, one_pos, fun i hi => ⟨fun _ x => [0, x.getD 2 0, x.getD 1 0, 1], fun t _ x hx => ?_,
      fun j hj => ?_⟩⟩ (by rw [hY]; exact steady_sensitivity) (by simp) ts _ ht
    (steady_asks (hd := 0) (m := 0) (by simp) _ _).2 (by rw [hY]; exact steady_accurate _ _)
  · obtain ⟨q1, q2, q3, rfl⟩ := List.length_eq_three.mp (show w.length = 3 from hw.1)
    refine ⟨fun t _ => ⟨rfl, fun i hi => ?_⟩, by simp⟩
    obtain rfl : i = 0 := by simpa using hi
    simp only [List.cons_append, List.nil_append, List.length_singleton, List.getD_cons_zero]
    rw [steady_fn _ _ (by omega)]
    refine HasDerivAt.hasDerivWithinAt ?_
    simpa using ((hasDerivAt_id t).mul_const (q1 * q2 + q3)).const_add 7
  · match x, hx.1 with
    | [a, q1, q2, q3], _ => exact steady_grad t i (by simpa using hi) a q1 q2 q3
  · have : j = 0 ∨ j = 1 ∨ j = 2 ∨ j = 3 := by simp at hj; omega
    rcases this with rfl | rfl | rfl | rfl
    · exact continuousOn_const
    · simp; fun_prop
    · simp; fun_prop
    · exact continuousOn_const

end Props
