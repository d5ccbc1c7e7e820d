import Verif.Proof.OdeReach
import Verif.Proof.ProgCode
import Verif.Props.OdeSol

/-!
# C68: a call of `cvodes_sol` is reproducible, and the program can go on after it

The right-hand side is any function of the program that creates variables and reads values (`Code`), it may use
variables of the caller, the solver is arbitrary, and so are the arithmetic and the number of output times.
-/

set_option linter.unusedSectionVars false

namespace Props
open Fz Spec

variable {W R : Type} [Arith R] [Rep W R] [LawfulRep W R] {σ : Type}
variable {h : List (Call R)} {c : Client W} {e y0 q : List Var} {F : R → Code R} {s' : St W} {yt : List (List Var)}
variable {sv : Solver R σ} {t0 : R} {ts y y1 : List R} {f : R → List R → List R}

theorem good_for (hr : Reach h c) (hy : ∀ v ∈ y0, v ∈ existing c.st) (he : ∀ v ∈ e, v ∈ existing c.st) :
    ∃ (g : Graph R) (val adj : Nat → R),
      Good ⟨c.st, y0 ++ e, List.replicate c.marks.length 0⟩ g val adj := by
  obtain ⟨g, val, adj, G⟩ := hr.good
  refine ⟨g, val, adj, G.only fun v hv => (mem_existing G.inv).mp ?_⟩
  rcases List.mem_append.mp hv with hv | hv
  · exact hy v hv
  · exact he v hv

/-- **C68**: after a completed `cvodes_sol(t0, y0, ts, f, fy)` the state is one that ordinary calls lead to, as many
nested regions open as before, the returned variables among those of the program.  So what is proved for every
history of calls holds for what the program does next. -/
theorem C68_reach_initial (hr : Reach h c) (hy : ∀ v ∈ y0, v ∈ c.env) (he : ∀ v ∈ e, v ∈ c.env) (hF : ∀ t, (F t).Sane)
    (hrun : cvodesSolY0 sv t0 y0 ts f (Code.odeY F e) c.st = .ok (yt, s')) :
    ∃ l : List (Call R), Balanced l ∧ (∀ k ∈ l, k.assigns = false) ∧
      Reach (h ++ l) ⟨s', c.env ++ yt.flatten, c.marks⟩ := by
  obtain ⟨g, val, adj, G⟩ := hr.good
  unfold cvodesSolY0 at hrun
  obtain ⟨z, s1, e1, k1⟩ := Fz.bind_inv hrun
  obtain rfl := vals_st e1
  obtain ⟨⟨yt', y1⟩, s2, e2, k2⟩ := Fz.bind_inv k1
  cases k2
  obtain ⟨l, h1, h2, -⟩ := solLoop_run (replays_y hF e f _) (ops := y0) rfl sv _ _ _ _ G hy he e2
  exact ⟨l, h1.2 0, fun k hk => (h1.1 k hk).2, Fz.Reach.append hr (fun k hk => (h1.1 k hk).1) h2⟩

/-- **C68** with parameters -/
theorem C68_reach_parameters (hr : Reach h c) (hq : ∀ v ∈ q, v ∈ c.env) (he : ∀ v ∈ e, v ∈ c.env)
    (hF : ∀ t, (F t).Sane) (hrun : cvodesSolPar sv t0 y ts q f (Code.odeP F e) c.st = .ok ((yt, y1), s')) :
    ∃ l : List (Call R), Balanced l ∧ (∀ k ∈ l, k.assigns = false) ∧
      Reach (h ++ l) ⟨s', c.env ++ yt.flatten, c.marks⟩ := by
  obtain ⟨g, val, adj, G⟩ := hr.good
  unfold cvodesSolPar at hrun
  obtain ⟨z, s1, e1, k1⟩ := Fz.bind_inv hrun
  obtain rfl := vals_st e1
  obtain ⟨l, h1, h2, -⟩ := solLoop_run (replays_p hF e f _ z) (ops := q) rfl sv _ _ _ _ G hq he k1
  exact ⟨l, h1.2 0, fun k hk => (h1.1 k hk).2, Fz.Reach.append hr (fun k hk => (h1.1 k hk).1) h2⟩

/-- **C68**: a completed call keeps every variable there was, its value, operands and data, and its adjoint if the
right-hand side does not use it; the returned variables are new ones. -/
theorem C68_keeps_initial (hr : Reach h c) (hy : ∀ v ∈ y0, v ∈ existing c.st) (he : ∀ v ∈ e, v ∈ existing c.st)
    (hF : ∀ t, (F t).Sane) (hrun : cvodesSolY0 sv t0 y0 ts f (Code.odeY F e) c.st = .ok (yt, s')) :
    Keeps R e c.st s' ∧ ∀ vs ∈ yt, ∀ v ∈ vs, v ∉ existing c.st := by
  obtain ⟨g, val, adj, G⟩ := good_for hr hy he
  unfold cvodesSolY0 at hrun
  obtain ⟨z, s1, e1, k1⟩ := Fz.bind_inv hrun
  obtain rfl := vals_st e1
  obtain ⟨⟨yt', y1⟩, s2, e2, k2⟩ := Fz.bind_inv k1
  cases k2
  obtain ⟨l, -, -, h1, h2⟩ := solLoop_run (replays_y hF e f _) (ops := y0) rfl sv _ _ _ _ G
    (fun v hv => List.mem_append_left _ hv) (fun v hv => List.mem_append_right _ hv) e2
  exact ⟨h1.keeps, fun vs hvs v hv => h2 v (List.mem_flatten.mpr ⟨vs, hvs, hv⟩)⟩

/-- **C68** with parameters -/
theorem C68_keeps_parameters (hr : Reach h c) (hq : ∀ v ∈ q, v ∈ existing c.st) (he : ∀ v ∈ e, v ∈ existing c.st)
    (hF : ∀ t, (F t).Sane) (hrun : cvodesSolPar sv t0 y ts q f (Code.odeP F e) c.st = .ok ((yt, y1), s')) :
    Keeps R e c.st s' ∧ ∀ vs ∈ yt, ∀ v ∈ vs, v ∉ existing c.st := by
  obtain ⟨g, val, adj, G⟩ := good_for hr hq he
  unfold cvodesSolPar at hrun
  obtain ⟨z, s1, e1, k1⟩ := Fz.bind_inv hrun
  obtain rfl := vals_st e1
  obtain ⟨l, -, -, h1, h2⟩ := solLoop_run (replays_p hF e f _ z) (ops := q) rfl sv _ _ _ _ G
    (fun v hv => List.mem_append_left _ hv) (fun v hv => List.mem_append_right _ hv) k1
  exact ⟨h1.keeps, fun vs hvs v hv => h2 v (List.mem_flatten.mpr ⟨vs, hvs, hv⟩)⟩

theorem sol_good_y (hr : Reach h c) (hy : ∀ v ∈ y0, v ∈ existing c.st) (he : ∀ v ∈ e, v ∈ existing c.st)
    (hF : ∀ t, (F t).Sane) (hrun : cvodesSolY0 sv t0 y0 ts f (Code.odeY F e) c.st = .ok (yt, s')) :
    ∃ (g : Graph R) (val adj : Nat → R),
      Good ⟨s', y0 ++ e ++ yt.flatten, List.replicate c.marks.length 0⟩ g val adj := by
  obtain ⟨g, val, adj, G⟩ := good_for hr hy he
  unfold cvodesSolY0 at hrun
  obtain ⟨z, s1, e1, k1⟩ := Fz.bind_inv hrun
  obtain rfl := vals_st e1
  obtain ⟨⟨yt', y1⟩, s2, e2, k2⟩ := Fz.bind_inv k1
  cases k2
  obtain ⟨l, h1, h2, -⟩ := solLoop_run (replays_y hF e f _) (ops := y0) rfl sv _ _ _ _ G
    (fun v hv => List.mem_append_left _ hv) (fun v hv => List.mem_append_right _ hv) e2
  exact Good.run l G (fun k hk => (h1.1 k hk).1) h2

theorem sol_good_p (hr : Reach h c) (hq : ∀ v ∈ q, v ∈ existing c.st) (he : ∀ v ∈ e, v ∈ existing c.st)
    (hF : ∀ t, (F t).Sane) (hrun : cvodesSolPar sv t0 y ts q f (Code.odeP F e) c.st = .ok ((yt, y1), s')) :
    ∃ (g : Graph R) (val adj : Nat → R),
      Good ⟨s', q ++ e ++ yt.flatten, List.replicate c.marks.length 0⟩ g val adj := by
  obtain ⟨g, val, adj, G⟩ := good_for hr hq he
  unfold cvodesSolPar at hrun
  obtain ⟨z, s1, e1, k1⟩ := Fz.bind_inv hrun
  obtain rfl := vals_st e1
  obtain ⟨l, h1, h2, -⟩ := solLoop_run (replays_p hF e f _ z) (ops := q) rfl sv _ _ _ _ G
    (fun v hv => List.mem_append_left _ hv) (fun v hv => List.mem_append_right _ hv) k1
  exact Good.run l G (fun k hk => (h1.1 k hk).1) h2

theorem sol_last (hr : Reach h c) (hq : ∀ v ∈ q, v ∈ existing c.st) (he : ∀ v ∈ e, v ∈ existing c.st)
    (hF : ∀ t, (F t).Sane) (hrun : cvodesSolPar sv t0 y ts q f (Code.odeP F e) c.st = .ok ((yt, y1), s')) :
    ∃ sol : List (List R × List (List R)), y1 = (sol.map Prod.fst).getLastD y ∧ sol.length = ts.length ∧
      Carries s' q y.length yt sol := by
  obtain ⟨g, val, adj, G⟩ := good_for hr hq he
  have hv : ∀ v ∈ e, v ∈ q ++ e := fun v hv => List.mem_append_right _ hv
  have hx := G.inv.varVals (vs := e) fun v h => G.has v (hv v h)
  unfold cvodesSolPar at hrun
  obtain ⟨z, s1, e1, k1⟩ := Fz.bind_inv hrun
  obtain rfl := vals_st e1
  obtain ⟨-, sol, h1, h2, h3, -⟩ := solLoop_same (agrees_p hF f q.length z) (replays_p hF e f _ z) (replays_p hF e f _ z) rfl
    (ops1 := q) (ops2 := q) rfl rfl rfl sv y.length ts _ _ G G (fun v hv => List.mem_append_left _ hv)
    (fun v hv => List.mem_append_left _ hv) hv hv hx hx k1 k1
  exact ⟨sol, h1, h2, h3⟩

section two
variable {W1 W2 : Type} [Rep W1 R] [LawfulRep W1 R] [Rep W2 R] [LawfulRep W2 R]
variable {h1 h2 : List (Call R)} {c1 : Client W1} {c2 : Client W2} {q1 q2 e1 e2 : List Var} {x xs z1 z2 : List R}
variable {yt1 yt2 : List (List Var)} {s1 : St W1} {s2 : St W2}

/-- **C68**: solve the same problem at two points of two programs, with initial values that have the same numbers and a
right-hand side that uses variables of the caller with the same numbers.  If both calls complete, then they return
variables with the same solutions and the same sensitivities. -/
theorem C68_same_initial (r1 : Reach h1 c1) (r2 : Reach h2 c2) (m1 : ∀ v ∈ q1, v ∈ existing c1.st)
    (m2 : ∀ v ∈ q2, v ∈ existing c2.st) (n1 : ∀ v ∈ e1, v ∈ existing c1.st) (n2 : ∀ v ∈ e2, v ∈ existing c2.st)
    (p1 : vals q1 c1.st = .ok (x, c1.st)) (p2 : vals q2 c2.st = .ok (x, c2.st)) (o1 : vals e1 c1.st = .ok (xs, c1.st))
    (o2 : vals e2 c2.st = .ok (xs, c2.st)) (hF : ∀ t, (F t).Sane)
    (k1 : cvodesSolY0 sv t0 q1 ts f (Code.odeY F e1) c1.st = .ok (yt1, s1))
    (k2 : cvodesSolY0 sv t0 q2 ts f (Code.odeY F e2) c2.st = .ok (yt2, s2)) :
    ∃ sol : List (List R × List (List R)), sol.length = ts.length ∧
      Carries s1 q1 q1.length yt1 sol ∧ Carries s2 q2 q2.length yt2 sol := by
  obtain ⟨g1, v1, a1, G1⟩ := good_for r1 m1 n1
  obtain ⟨g2, v2, a2, G2⟩ := good_for r2 m2 n2
  have hl1 : q1.length = x.length := by
    rw [G1.inv.varVals fun v hv => G1.has v (List.mem_append_left _ hv)] at p1
    cases p1
    simp
  have hl2 : q2.length = x.length := by
    rw [G2.inv.varVals fun v hv => G2.has v (List.mem_append_left _ hv)] at p2
    cases p2
    simp
  unfold cvodesSolY0 at k1 k2
  rw [bind_ok p1] at k1
  rw [bind_ok p2] at k2
  obtain ⟨⟨yt', y1⟩, s3, d1, w1⟩ := Fz.bind_inv k1
  cases w1
  obtain ⟨⟨yt', y1⟩, s3, d2, w2⟩ := Fz.bind_inv k2
  cases w2
  simp only [hl1] at d1 ⊢
  simp only [hl2] at d2 ⊢
  obtain ⟨-, sol, -, z⟩ := solLoop_same (agrees_y hF f x.length) (replays_y hF e1 f x.length) (replays_y hF e2 f x.length) rfl
    hl1.symm hl2.symm (hl1.trans hl2.symm) sv x.length ts _ _ G1 G2
    (fun v hv => List.mem_append_left _ hv) (fun v hv => List.mem_append_left _ hv)
    (fun v hv => List.mem_append_right _ hv) (fun v hv => List.mem_append_right _ hv) o1 o2 d1 d2
  exact ⟨sol, z⟩

/-- **C68** with parameters -/
theorem C68_same_parameters (r1 : Reach h1 c1) (r2 : Reach h2 c2) (m1 : ∀ v ∈ q1, v ∈ existing c1.st)
    (m2 : ∀ v ∈ q2, v ∈ existing c2.st) (n1 : ∀ v ∈ e1, v ∈ existing c1.st) (n2 : ∀ v ∈ e2, v ∈ existing c2.st)
    (p1 : vals q1 c1.st = .ok (x, c1.st)) (p2 : vals q2 c2.st = .ok (x, c2.st)) (o1 : vals e1 c1.st = .ok (xs, c1.st))
    (o2 : vals e2 c2.st = .ok (xs, c2.st)) (hF : ∀ t, (F t).Sane)
    (k1 : cvodesSolPar sv t0 y ts q1 f (Code.odeP F e1) c1.st = .ok ((yt1, z1), s1))
    (k2 : cvodesSolPar sv t0 y ts q2 f (Code.odeP F e2) c2.st = .ok ((yt2, z2), s2)) :
    z1 = z2 ∧ ∃ sol : List (List R × List (List R)), sol.length = ts.length ∧
      Carries s1 q1 y.length yt1 sol ∧ Carries s2 q2 y.length yt2 sol := by
  obtain ⟨g1, v1, a1, G1⟩ := good_for r1 m1 n1
  obtain ⟨g2, v2, a2, G2⟩ := good_for r2 m2 n2
  have hl1 : q1.length = x.length := by
    rw [G1.inv.varVals fun v hv => G1.has v (List.mem_append_left _ hv)] at p1
    cases p1
    simp
  have hl2 : q2.length = x.length := by
    rw [G2.inv.varVals fun v hv => G2.has v (List.mem_append_left _ hv)] at p2
    cases p2
    simp
  unfold cvodesSolPar at k1 k2
  rw [bind_ok p1] at k1
  rw [bind_ok p2] at k2
  simp only [hl1] at k1
  simp only [hl2] at k2
  obtain ⟨z, sol, -, z'⟩ := solLoop_same (agrees_p hF f x.length x) (replays_p hF e1 f x.length x)
    (replays_p hF e2 f x.length x) rfl hl1.symm hl2.symm (hl1.trans hl2.symm) sv y.length ts _ _ G1 G2
    (fun v hv => List.mem_append_left _ hv) (fun v hv => List.mem_append_left _ hv)
    (fun v hv => List.mem_append_right _ hv) (fun v hv => List.mem_append_right _ hv) o1 o2 k1 k2
  exact ⟨z, sol, z'⟩

end two

/-! ## The hypotheses are met -/

theorem vals_all (hr : Reach h c) (he : ∀ v ∈ e, v ∈ existing c.st) : ∃ xs : List R, vals e c.st = .ok (xs, c.st) := by
  obtain ⟨g, val, adj, G⟩ := hr.good
  exact ⟨_, G.inv.varVals fun v hv => (mem_existing G.inv).mp (he v hv)⟩

section cases
variable {V : Type} [Rep V ℝ] [LawfulRep V ℝ]

theorem sens_congr_y {g : ℝ → List ℝ → List ℝ} {f1 f2 : ℝ → List Var → List Var → M V (List Var)} {n : Nat} {t : ℝ}
    {y : List ℝ} {S : List (List ℝ)} {out : Nat → Nat → ℝ}
    (H : ∀ yv fv : List Var, yv.length = y.length → fv.length = y.length → f1 t yv fv = f2 t yv fv) :
    setSensRhs (newCvsRhsYvar true n g f1) t y S out = setSensRhs (newCvsRhsYvar true n g f2) t y S out := by
  funext s
  unfold setSensRhs newCvsRhsYvar
  cases e1 : (beginNested : M V Unit) s with
  | error x => rw [bind_err e1, bind_err e1]
  | ok r =>
    obtain ⟨_, s1⟩ := r
    rw [bind_ok e1, bind_ok e1]
    cases e2 : (newVars y : M V (List Var)) s1 with
    | error x => rw [bind_err e2, bind_err e2]
    | ok r =>
      obtain ⟨yv, s2⟩ := r
      rw [bind_ok e2, bind_ok e2]
      cases e3 : (newVars (List.replicate y.length (Arith.zero : ℝ)) : M V (List Var)) s2 with
      | error x => rw [bind_err e3, bind_err e3]
      | ok r =>
        obtain ⟨fv, s3⟩ := r
        rw [bind_ok e3, bind_ok e3]
        simp only [deref, pure_bind]
        rw [H yv fv (newVars_len _ e2) (by simpa using newVars_len _ e3)]

theorem sens_congr_p {g : ℝ → List ℝ → List ℝ} {f1 f2 : ℝ → List Var → List Var → List Var → M V (List Var)} {n : Nat}
    {t : ℝ} {y q : List ℝ} {S : List (List ℝ)} {out : Nat → Nat → ℝ}
    (H : ∀ yv fv qv : List Var, yv.length = y.length → fv.length = y.length → qv.length = q.length →
      f1 t yv fv qv = f2 t yv fv qv) :
    setSensRhs (newCvsRhsPvar false n q g f1) t y S out = setSensRhs (newCvsRhsPvar false n q g f2) t y S out := by
  funext s
  unfold setSensRhs newCvsRhsPvar
  simp only [Bool.false_and, Bool.not_false, if_true, Bool.false_eq_true, if_false, deref, pure_bind]
  cases e1 : (beginNested : M V Unit) s with
  | error x => rw [bind_err e1, bind_err e1]
  | ok r =>
    obtain ⟨_, s1⟩ := r
    rw [bind_ok e1, bind_ok e1]
    cases e2 : (newVars y : M V (List Var)) s1 with
    | error x => rw [bind_err e2, bind_err e2]
    | ok r =>
      obtain ⟨yv, s2⟩ := r
      rw [bind_ok e2, bind_ok e2]
      cases e3 : (newVars (List.replicate y.length (Arith.zero : ℝ)) : M V (List Var)) s2 with
      | error x => rw [bind_err e3, bind_err e3]
      | ok r =>
        obtain ⟨fv, s3⟩ := r
        rw [bind_ok e3, bind_ok e3]
        simp only [bind_assoc]
        cases e4 : (newVars q : M V (List Var)) s3 with
        | error x => rw [bind_err e4, bind_err e4]
        | ok r =>
          obtain ⟨qv, s4⟩ := r
          rw [bind_ok e4, bind_ok e4]
          cases e5 : (confN 3 qv : M V (List Var)) s4 with
          | error x => rw [bind_err e5, bind_err e5]
          | ok r =>
            obtain ⟨qw, s5⟩ := r
            obtain ⟨-, rfl, rfl⟩ := confN_inv e5
            rw [bind_ok e5, bind_ok e5, H yv fv _ (newVars_len _ e2) (by simpa using newVars_len _ e3) (newVars_len _ e4)]

end cases

theorem square_sane (t : ℝ) : (square t).code.Sane :=
  Prog.code_sane (by simp [square, Prog.Sane, Instr.Sane])

theorem linear_sane (t : ℝ) : (linear t).code.Sane :=
  Prog.code_sane (by simp [linear, Prog.Sane, Instr.Sane])

/-- `y' = y²` from the second variable of the history `demo`, one step of the Euler method -/
theorem initial_code_case : ∃ (c : Client ℝ) (yt : List (List Var)) (s' : St ℝ), Reach demo c ∧ ⟨2⟩ ∈ existing c.st ∧
    vals [⟨2⟩] c.st = .ok ([3], c.st) ∧
    cvodesSolY0 euler 0 [⟨2⟩] [1] (fun _ y => y.map fun a => a * a) (Code.odeY (fun t => (square t).code) []) c.st =
      .ok (yt, s') := by
  obtain ⟨c, yt, s', h1, h2, h3, -, -, -, -, h8⟩ := initial_case
  refine ⟨c, yt, s', h1, h2 _ (by simp), h3, ?_⟩
  rw [← h8]
  unfold cvodesSolY0
  rw [bind_ok h3, bind_ok h3]
  simp only [solLoop, euler, answer]
  rw [sens_congr_y (f1 := Code.odeY (fun t => (square t).code) []) (f2 := odeY square [])]
  · rfl
  · intro yv fv a1 a2
    funext s
    refine Prog.code_run s ?_
    simp at a1 a2
    simp [square, Prog.Scoped, Instr.names, Instr.arity, a1, a2]

/-- `y' = q₁ q₂ y + q₃` with the three variables of the history `demo` as parameters -/
theorem parameters_code_case : ∃ (c : Client ℝ) (yt : List (List Var)) (y1 : List ℝ) (s' : St ℝ), Reach demo c ∧
    (∀ v ∈ [⟨1⟩, ⟨2⟩, ⟨3⟩], v ∈ existing c.st) ∧ vals [⟨1⟩, ⟨2⟩, ⟨3⟩] c.st = .ok ([2, 3, 6], c.st) ∧
    cvodesSolPar euler 0 [7] [1] [⟨1⟩, ⟨2⟩, ⟨3⟩] (fun _ y => y.map fun a => 6 * a + 6)
      (Code.odeP (fun t => (linear t).code) []) c.st = .ok ((yt, y1), s') := by
  obtain ⟨c, yt, y1, s', h1, h2, h3, -, -, -, -, h8⟩ := parameters_case
  refine ⟨c, yt, y1, s', h1, h2, h3, ?_⟩
  rw [← h8]
  unfold cvodesSolPar
  rw [bind_ok h3, bind_ok h3]
  simp only [solLoop, euler, answer]
  rw [sens_congr_p (f1 := Code.odeP (fun t => (linear t).code) []) (f2 := odeP linear [])]
  · rfl
  · intro yv fv qv a1 a2 a3
    funext s
    refine Prog.code_run s ?_
    simp at a1 a2 a3
    simp [linear, Prog.Scoped, Instr.names, Instr.arity, a1, a2, a3]

/-- the hypotheses of `C68_keeps_initial` and `C68_same_initial` are met -/
example : ∃ (c : Client ℝ) (yt : List (List Var)) (s' : St ℝ), Reach demo c ∧ Keeps ℝ [] c.st s' ∧
    ∃ sol, Carries s' [⟨2⟩] 1 yt sol ∧ sol.length = 1 := by
  obtain ⟨c, yt, s', h1, h2, h3, h4⟩ := initial_code_case
  have hm : ∀ v ∈ [(⟨2⟩ : Var)], v ∈ existing c.st := fun v hv => by simp at hv; rw [hv]; exact h2
  obtain ⟨sol, a1, a2, -⟩ := C68_same_initial h1 h1 hm hm (by simp) (by simp) h3 h3 (e1 := []) (e2 := []) rfl rfl
    square_sane h4 h4
  exact ⟨c, yt, s', h1, (C68_keeps_initial h1 hm (by simp) square_sane h4).1, sol, a2, a1⟩

/-- the hypotheses of `C68_keeps_parameters` and `C68_same_parameters` are met -/
example : ∃ (c : Client ℝ) (yt : List (List Var)) (s' : St ℝ), Reach demo c ∧ Keeps ℝ [] c.st s' ∧
    ∃ sol, Carries s' [⟨1⟩, ⟨2⟩, ⟨3⟩] 1 yt sol ∧ sol.length = 1 := by
  obtain ⟨c, yt, y1, s', h1, h2, h3, h4⟩ := parameters_code_case
  obtain ⟨-, sol, a1, a2, -⟩ := C68_same_parameters h1 h1 h2 h2 (by simp) (by simp) h3 h3 (e1 := []) (e2 := []) rfl rfl
    linear_sane h4 h4
  exact ⟨c, yt, s', h1, (C68_keeps_parameters h1 h2 (by simp) linear_sane h4).1, sol, a2, a1⟩

/-- the variables of `demo` -/
theorem demo_env {c : Client ℝ} (hr : Reach demo c) : c.env = [⟨1⟩, ⟨2⟩, ⟨3⟩] := by
  obtain ⟨c1, hr1, hv, -, -, -, ⟨v, he⟩, g, val, adj, hf, hhas⟩ := demo_reach (W := ℝ)
  obtain rfl : c = c1 := by
    have := hr.2.symm.trans hr1.2
    cases this; rfl
  obtain ⟨c2, hr2, -, hex, h1, h2, -, -⟩ := demo_rates (W := ℝ)
  obtain rfl : c = c2 := by
    have := hr.2.symm.trans hr2.2
    cases this; rfl
  have hm := (mem_existing hf.inv).mpr (hhas v (by rw [he]; simp))
  have hval := vals_eq hf.inv hhas hv
  rw [he] at hval
  simp only [List.map_cons, List.map_nil, List.cons.injEq, and_true] at hval
  rw [hex] at hm
  simp only [List.mem_cons, List.not_mem_nil, or_false] at hm
  rw [he]
  rcases hm with rfl | rfl | rfl
  · have := hval.1.trans hval.2.2.symm
    norm_num at this
  · have := hval.2.1.trans hval.2.2.symm
    norm_num at this
  · rfl

/-- the hypotheses of `C68_reach_initial` and `C68_reach_parameters` are met -/
example : ∃ (c : Client ℝ) (yt : List (List Var)) (s' : St ℝ) (l : List (Call ℝ)), Reach demo c ∧ Balanced l ∧
    Reach (demo ++ l) ⟨s', c.env ++ yt.flatten, c.marks⟩ := by
  obtain ⟨c, yt, s', h1, h2, h3, h4⟩ := initial_code_case
  obtain ⟨l, a1, -, a2⟩ := C68_reach_initial h1 (fun v hv => by simp at hv; rw [hv, demo_env h1]; simp) (by simp) square_sane h4
  exact ⟨c, yt, s', l, h1, a1, a2⟩

example : ∃ (c : Client ℝ) (yt : List (List Var)) (s' : St ℝ) (l : List (Call ℝ)), Reach demo c ∧ Balanced l ∧
    Reach (demo ++ l) ⟨s', c.env ++ yt.flatten, c.marks⟩ := by
  obtain ⟨c, yt, y1, s', h1, h2, h3, h4⟩ := parameters_code_case
  obtain ⟨l, a1, -, a2⟩ := C68_reach_parameters h1 (fun v hv => by rw [demo_env h1]; exact hv) (by simp) linear_sane h4
  exact ⟨c, yt, s', l, h1, a1, a2⟩

end Props
