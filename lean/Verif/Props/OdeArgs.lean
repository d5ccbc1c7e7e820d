import Verif.Props.OdeReach

/-!
# C50: the arguments of `cvodes_sol` are inputs

A caller expects to find the initial state as it was before the call.  With variables as initial values it holds;
with real numbers the array is the solver's own vector, so afterwards it has the last solution.
-/

set_option linter.unusedSectionVars false

namespace Props
open Fz Spec

variable {W : Type} [Rep W ℝ] [LawfulRep W ℝ] {σ : Type}
section variables
variable {V R : Type} [Arith R] [Rep V R] [LawfulRep V R] {τ : Type}
variable {h : List (Call R)} {c : Client V} {e y0 q : List Var} {F : R → Code R} {s' : St V} {yt : List (List Var)}
variable {sv : Solver R τ} {t0 : R} {ts y y1 : List R} {f : R → List R → List R}

/-- the numbers a program reads -/
theorem keeps_read (hr : Reach h c) {g' : Graph R} {val' adj' : Nat → R} {env : List Var} {ms : List Nat}
    (G' : Good ⟨s', env, ms⟩ g' val' adj') (k : Keeps R e c.st s') {v : Var} (hv : v ∈ existing c.st) : v ∈ existing s' ∧
      (∀ x, v.val c.st = .ok (x, c.st) → v.val s' = .ok (x, s')) ∧
      (v ∉ e → ∀ x, v.adj c.st = .ok (x, c.st) → v.adj s' = .ok (x, s')) := by
  obtain ⟨g, val, adj, G⟩ := hr.good
  obtain ⟨hv', w, w', a1, a2, a3, a4, a5, a6⟩ := k v hv
  have hg := (mem_existing G.inv).mp hv
  have hg' := (mem_existing G'.inv).mp hv'
  obtain ⟨nd, n1, n2⟩ := hg.at
  obtain ⟨nd', n1', n2'⟩ := hg'.at
  rw [G.inv.seen n1] at a1
  rw [G'.inv.seen n1'] at a2
  cases a1
  cases a2
  simp only [Node.view] at a3 a6
  refine ⟨hv', fun x hx => ?_, fun hn x hx => ?_⟩
  · rw [G.inv.varVal hg] at hx
    cases hx
    rw [G'.inv.varVal hg', ← n2, ← n2', a3]
  · rw [G.inv.varAdj hg] at hx
    cases hx
    rw [G'.inv.varAdj hg', ← n2, ← n2', a6 hn]

/-- **C50**, variables as initial values: after a completed `cvodes_sol(t0, y0, ts, f, fy)`, in any arithmetic and for
any right-hand side and solver, every variable that existed before, those of `y0` among them, still exists and has the
value it had, and the adjoint it had if the right-hand side does not use it (`e` are the caller's variables it uses). -/
theorem C50_initial (hr : Reach h c) (hy : ∀ v ∈ y0, v ∈ existing c.st) (he : ∀ v ∈ e, v ∈ existing c.st)
    (hF : ∀ t, (F t).Sane) (hrun : cvodesSolY0 sv t0 y0 ts f (Code.odeY F e) c.st = .ok (yt, s')) :
    ∀ v ∈ existing c.st, v ∈ existing s' ∧
      (∀ x, v.val c.st = .ok (x, c.st) → v.val s' = .ok (x, s')) ∧
      (v ∉ e → ∀ x, v.adj c.st = .ok (x, c.st) → v.adj s' = .ok (x, s')) := by
  obtain ⟨g', val', adj', G'⟩ := sol_good_y hr hy he hF hrun
  exact fun v hv => keeps_read hr G' (C68_keeps_initial hr hy he hF hrun).1 hv

/-- **C50**, parameters: the variables keep their values, and their adjoints if the right-hand side does not use them.
Partial: the initial state `y` does not keep its contents, afterwards it is the solution at the last output time. -/
theorem C50_parameters_partial (hr : Reach h c) (hq : ∀ v ∈ q, v ∈ existing c.st) (he : ∀ v ∈ e, v ∈ existing c.st)
    (hF : ∀ t, (F t).Sane) (hrun : cvodesSolPar sv t0 y ts q f (Code.odeP F e) c.st = .ok ((yt, y1), s')) :
    (∀ v ∈ existing c.st, v ∈ existing s' ∧
      (∀ x, v.val c.st = .ok (x, c.st) → v.val s' = .ok (x, s')) ∧
      (v ∉ e → ∀ x, v.adj c.st = .ok (x, c.st) → v.adj s' = .ok (x, s'))) ∧
    ∃ sol, sol.length = ts.length ∧ Carries s' q y.length yt sol ∧
      y1 = match sol.getLast? with
        | none => y
        | some l => l.1 := by
  obtain ⟨g', val', adj', G'⟩ := sol_good_p hr hq he hF hrun
  refine ⟨fun v hv => keeps_read hr G' (C68_keeps_parameters hr hq he hF hrun).1 hv, ?_⟩
  obtain ⟨sol, h1, h2, h3⟩ := sol_last hr hq he hF hrun
  refine ⟨sol, h2, h3, h1.trans ?_⟩
  rw [List.getLastD_eq_getLast?, List.getLast?_map]
  cases sol.getLast? <;> rfl

end variables

/-- **C50**, without variables.  Partial: the initial state `y` does not keep its contents, afterwards it is the last
column of the result. -/
theorem C50_data_partial (sv : Solver ℝ σ) (f : ℝ → List ℝ → List ℝ) (t0 : ℝ) (y ts : List ℝ) {s s' : St W}
    {l : List (List ℝ)} {y1 : List ℝ} (hrun : cvodesSolData sv t0 y ts f s = .ok ((l, y1), s')) :
    l.length = ts.length ∧ y1 = match l.getLast? with
      | none => y
      | some x => x := by
  obtain ⟨-, h2, sol, h3, rfl⟩ := data_loop sv f ts _ _ s s' l _ hrun
  refine ⟨?_, h2.trans ?_⟩
  · rw [List.length_map]
    clear hrun h2
    generalize sv.init t0 y (sensInit (newCvsRhs f : CvsRhs W ℝ) y.length) = m at h3
    induction h3 with
    | nil => rfl
    | cons _ _ ih => simp [ih]
  · rw [List.getLastD_eq_getLast?]
    cases (List.map Prod.fst sol).getLast? <;> rfl

/-- the explicit Euler method for one step, without sensitivities -/
noncomputable def euler0 : Solver ℝ (ℝ × List ℝ) where
  init t y _ := (t, y)
  step m t := .rhs m.1 m.2 fun f =>
    let y := List.zipWith (fun a b => a + (t - m.1) * b) m.2 f
    .done 0 y [] (t, y)

/-- **C50 fails**: for `y' = y`, `y(0) = 1` the Euler method gives `2` at time 1, and that is then the initial state;
the same call with the same variable a second time gives `4`. -/
theorem C50_data_refuted (s : St W) :
    (cvodesSolData euler0 0 [1] [1] (fun _ y => y) : M W _) s = .ok (([[2]], [2]), s) ∧
    (do let (_, y) ← cvodesSolData euler0 0 [1] [1] fun _ y => y
        cvodesSolData euler0 0 y [1] fun _ y => y : M W _) s = .ok (([[4]], [4]), s) := by
  have key : ∀ x : ℝ, (cvodesSolData euler0 0 [x] [1] (fun _ y => y) : M W _) s = .ok (([[x + x]], [x + x]), s) := by
    intro x
    simp only [cvodesSolData, dataLoop, euler0, answer, newCvsRhs, List.zipWith_cons_cons, List.zipWith_nil_left]
    norm_num
    rfl
  refine ⟨by rw [key]; norm_num, ?_⟩
  rw [bind_ok (key 1)]
  show cvodesSolData euler0 0 [1 + 1] [1] (fun _ y => y) s = _
  rw [key]
  norm_num

/-- **C50 fails** with parameters: for `y' = q₁ q₂ y + q₃`, `q = (2, 3, 6)`, `y(0) = 7`, the initial state is `55` after
one step of the Euler method. -/
theorem C50_parameters_refuted : ∃ (c : Client ℝ) (yt : List (List Var)) (s' : St ℝ), Reach demo c ∧
    (∀ v ∈ [⟨1⟩, ⟨2⟩, ⟨3⟩], v ∈ existing c.st) ∧ vals [⟨1⟩, ⟨2⟩, ⟨3⟩] c.st = .ok ([2, 3, 6], c.st) ∧
    cvodesSolPar euler 0 [7] [1] [⟨1⟩, ⟨2⟩, ⟨3⟩] (fun _ y => y.map fun a => 6 * a + 6) (odeP linear []) c.st =
      .ok ((yt, [55]), s') := by
  obtain ⟨c, yt, y1, s', h1, h2, h3, h4, h5, h6, h7, h8⟩ := parameters_case
  refine ⟨c, yt, s', h1, h2, h3, ?_⟩
  have h8' := h8
  unfold cvodesSolPar at h8'
  rw [bind_ok h3, sensInit_p] at h8'
  obtain ⟨sol, h9, h10, -⟩ := sol_gives h1 h2 h6 h7 rfl sensOk_p rfl (by simpa using h5) h4 h8'
  rw [h8]
  cases h9 with | cons h9 h11 =>
  cases h11
  cases h9 with | rhs h9 =>
  cases h9 with | sens _ h9 =>
  cases h9
  simp [euler, paramProblem] at h10
  rw [h10]
  norm_num

/-- the hypotheses of `C50_initial` are met -/
example : ∃ (c : Client ℝ) (s' : St ℝ), Reach demo c ∧ ∃ yt,
    cvodesSolY0 euler 0 [⟨2⟩] [1] (fun _ y => y.map fun a => a * a) (Code.odeY (fun t => (square t).code) []) c.st =
      .ok (yt, s') ∧ (⟨2⟩ : Var).val s' = .ok (3, s') := by
  obtain ⟨c, yt, s', h1, h2, h3, h4⟩ := initial_code_case
  refine ⟨c, s', h1, yt, h4, (C50_initial h1 (fun v hv => by simp at hv; rw [hv]; exact h2) (by simp) square_sane h4 _ h2).2.1
    _ ?_⟩
  obtain ⟨g, val, adj, G⟩ := h1.good
  have hg := (mem_existing G.inv).mp h2
  have := vals_eq G.inv (fun v hv => by simp at hv; rw [hv]; exact hg) h3
  simp at this
  rw [G.inv.varVal hg, ← this]

/-- the hypotheses of `C50_parameters_partial` are met -/
example : ∃ (c : Client ℝ) (s' : St ℝ) (y1 : List ℝ), Reach demo c ∧ ∃ yt,
    cvodesSolPar euler 0 [7] [1] [⟨1⟩, ⟨2⟩, ⟨3⟩] (fun _ y => y.map fun a => 6 * a + 6)
      (Code.odeP (fun t => (linear t).code) []) c.st = .ok ((yt, y1), s') ∧
    ∃ sol, sol.length = 1 ∧ Carries s' [⟨1⟩, ⟨2⟩, ⟨3⟩] 1 yt sol := by
  obtain ⟨c, yt, y1, s', h1, h2, h3, h4⟩ := parameters_code_case
  obtain ⟨-, sol, a1, a2, -⟩ := C50_parameters_partial h1 h2 (by simp) linear_sane h4
  exact ⟨c, s', y1, h1, yt, h4, sol, a1, a2⟩

/-- the hypotheses of `C50_data_partial` are met -/
example : cvodesSolData euler0 0 [1] [1] (fun _ y => y) (St.init : St ℝ) = .ok (([[2]], [2]), St.init) :=
  (C50_data_refuted (W := ℝ) St.init).1

end Props
