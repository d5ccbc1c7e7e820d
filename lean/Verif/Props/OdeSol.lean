import Verif.Props.Ode
import Verif.Proof.OdeSolTotal

/-!
# C27: solutions with sensitivities

The solver is any `Solver`.  `Solves`/`SolvesAll` (Spec/Ode.lean) say what it returns when its questions are
answered with the mathematically correct numbers.  `Gives c.st s' r x u a`: the variable `r` has the value `x` and,
by a sweep, the derivative `a` with respect to `u`, and earlier variables are unaffected.
-/

set_option linter.unusedSectionVars false

namespace Props
open Fz Spec

variable {W : Type} [Rep W ℝ] [LawfulRep W ℝ] {σ : Type}
variable {h : List (Call ℝ)} {c : Client W} {u : Var} {b : Var → ℝ}

theorem sol_gives {pr : Problem} {ok : ℝ → List ℝ → List (List ℝ) → Prop} {ode : CvsRhs W ℝ} {K n : Nat}
    (hr : Reach h c) {ops : List Var} (hops : ∀ v ∈ ops, v ∈ existing c.st) (hu : u ∈ existing c.st)
    (hb : Rates c.st u b) (hf : pr.f = ode.f) (hs : SensOk pr ok ode K) {sv : Solver ℝ σ} (hns : ode.ns = ops.length)
    {ts : List ℝ} {mem : σ} (room : c.st.tape.head + ts.length * (n * (6 + 3 * ops.length)) + K ≤ tapeLimit)
    (ha : AsksAll pr sv ok ts mem) {yt : List (List Var)} {y0 y1 : List ℝ} {s' : St W}
    (e : solLoop sv ode ops n ts mem y0 c.st = .ok ((yt, y1), s')) :
    ∃ sol, SolvesAll pr sv ts mem sol ∧ y1 = (sol.map Prod.fst).getLastD y0 ∧ yt.length = ts.length ∧ sol.length = ts.length ∧
      ∀ k (h1 : k < yt.length) (h2 : k < sol.length), yt[k].length = n ∧ ∀ i (hi : i < yt[k].length),
        i < sol[k].1.length ∧ Gives c.st s' yt[k][i] (sol[k].1.getD i 0) u (sensSum sol[k].2 ops b i) := by
  obtain ⟨g, val, adj, D, ε, G, H, hD⟩ := rated hr hu hb
  have hh : ∀ v ∈ ops, g.Has v := fun v hv => (mem_existing G.inv).mp (hops v hv)
  obtain ⟨sol, g', val', adj', D', ε', S, hy, H', L, h1, h2, h3⟩ := solLoop_later hf hs sv n hns ts mem H hh room ha e
  refine ⟨sol, S, hy, h1, h2, fun k k1 k2 => ?_⟩
  obtain ⟨a1, a2⟩ := h3 k k1 k2
  refine ⟨a1, fun i hi => ?_⟩
  obtain ⟨b1, b2, b3, b4⟩ := a2 i hi
  refine ⟨b1, H.gives H' L.pre L.dd L.vv L.aa b2 b3 ?_⟩
  rw [b4]
  unfold sensSum
  congr 1
  have : ∀ (l : List Var) (ks : List ℝ), (∀ v ∈ l, v ∈ existing c.st) →
      List.zipWith (fun k v => k * D (g.pos v) 1) ks l = List.zipWith (fun k v => k * b v) ks l := by
    intro l
    induction l with
    | nil => intro ks _; simp
    | cons v l ih =>
      intro ks hl
      cases ks with
      | nil => rfl
      | cons k ks =>
        simp only [List.zipWith_cons_cons]
        rw [ih ks fun w hw => hl w (by simp [hw]), hD v (hl v (by simp))]
  exact this ops _ hops

/-- **C27**, initial values: if `cvodes_sol(t0, y0, ts, f, fy)` completes, there are solutions and sensitivities
`sol` that the solver returns when it starts from the values of `y0` and the unit vectors and all its questions are
answered correctly; component `i` at output time `k` has the solver's value, and its derivative with respect to
any variable `u` is the sum over `j` of the solver's sensitivity with respect to `y0(j)` times the derivative of
`y0(j)` with respect to `u`. -/
theorem C27_initial (hr : Reach h c) {y0 : List Var} (hy : ∀ v ∈ y0, v ∈ existing c.st) {z : List ℝ}
    (hz : vals y0 c.st = .ok (z, c.st)) (sv : Solver ℝ σ) (t0 : ℝ) (ts : List ℝ) (f : ℝ → List ℝ → List ℝ)
    (p : ℝ → Prog) (K : Nat)
    (ha : AsksAll (initProblem f p) sv (Fair p [] y0.length y0.length K) ts (sv.init t0 z (unitVectors y0.length)))
    (room : c.st.tape.head + ts.length * (y0.length * (6 + 3 * y0.length)) + K ≤ tapeLimit)
    (hu : u ∈ existing c.st) (hb : Rates c.st u b) {yt : List (List Var)} {s' : St W}
    (hrun : cvodesSolY0 sv t0 y0 ts f (odeY p []) c.st = .ok (yt, s')) :
    ∃ sol, SolvesAll (initProblem f p) sv ts (sv.init t0 z (unitVectors y0.length)) sol ∧
      yt.length = ts.length ∧ sol.length = ts.length ∧
      ∀ k (h1 : k < yt.length) (h2 : k < sol.length), yt[k].length = y0.length ∧ ∀ i (hi : i < yt[k].length),
        i < sol[k].1.length ∧ Gives c.st s' yt[k][i] (sol[k].1.getD i 0) u (sensSum sol[k].2 y0 b i) := by
  unfold cvodesSolY0 at hrun
  rw [bind_ok hz, sensInit_y] at hrun
  obtain ⟨⟨yt', y1⟩, s1, e1, k1⟩ := bind_inv hrun
  cases k1
  obtain ⟨sol, h1, -, h2⟩ := sol_gives hr hy hu hb rfl sensOk_y rfl room ha e1
  exact ⟨sol, h1, h2⟩

/-- **C27**, parameters: the sensitivities start from zero vectors.  Partial: with a number of parameters other than
three no call completes that asks for a sensitivity right-hand side (`C27_parameters_refuted`). -/
theorem C27_parameters_partial (hr : Reach h c) {q : List Var} (hq : ∀ v ∈ q, v ∈ existing c.st) {z : List ℝ}
    (hz : vals q c.st = .ok (z, c.st)) (sv : Solver ℝ σ) (t0 : ℝ) (y : List ℝ) (ts : List ℝ)
    (f : ℝ → List ℝ → List ℝ) (p : ℝ → Prog) (K : Nat)
    (ha : AsksAll (paramProblem f p z) sv (Fair p z y.length q.length K) ts
      (sv.init t0 y (List.replicate q.length (List.replicate y.length 0))))
    (room : c.st.tape.head + ts.length * (y.length * (6 + 3 * q.length)) + K ≤ tapeLimit)
    (hu : u ∈ existing c.st) (hb : Rates c.st u b) {yt : List (List Var)} {y1 : List ℝ} {s' : St W}
    (hrun : cvodesSolPar sv t0 y ts q f (odeP p []) c.st = .ok ((yt, y1), s')) :
    ∃ sol, SolvesAll (paramProblem f p z) sv ts
        (sv.init t0 y (List.replicate q.length (List.replicate y.length 0))) sol ∧
      yt.length = ts.length ∧ sol.length = ts.length ∧
      ∀ k (h1 : k < yt.length) (h2 : k < sol.length), yt[k].length = y.length ∧ ∀ i (hi : i < yt[k].length),
        i < sol[k].1.length ∧ Gives c.st s' yt[k][i] (sol[k].1.getD i 0) u (sensSum sol[k].2 q b i) := by
  have hl : q.length = z.length := by
    obtain ⟨g, val, adj, G⟩ := hr.good
    rw [vals_eq G.inv (fun v hv => (mem_existing G.inv).mp (hq v hv)) hz]
    simp
  unfold cvodesSolPar at hrun
  rw [bind_ok hz, sensInit_p] at hrun
  rw [hl] at ha hrun ⊢
  obtain ⟨sol, h1, -, h2⟩ := sol_gives hr hq hu hb rfl sensOk_p hl.symm room ha hrun
  exact ⟨sol, h1, h2⟩

/-- the solver's first call leads to a question for the sensitivity right-hand side -/
def AsksSens {σ : Type} (f : ℝ → List ℝ → List ℝ) : Solving ℝ σ → Prop
  | .done _ _ _ _ => False
  | .rhs t y k => AsksSens f (k (f t y))
  | .sens _ _ _ _ => True

theorem answer_stuck {q : List ℝ} (hq : q.length ≠ 3) {f : ℝ → List ℝ → List ℝ}
    {fp : ℝ → List Var → List Var → List Var → M W (List Var)} : ∀ (call : Solving ℝ σ) (s : St W), AsksSens f call →
    ∃ e, answer (newCvsRhsPvar false q.length q f fp) call s = .error e := by
  intro call
  induction call with
  | done => intro s h; cases h
  | rhs t y k ih => intro s h; exact ih _ s h
  | sens t y yS k ih =>
    intro s _
    obtain ⟨e, he⟩ := setSens_p_stuck (W := W) (s := s) hq (f := f) (fp := fp) (u := t) (y := y) (b := false)
      (ns := q.length) (by simp) (S := yS) (out := fun _ _ => Arith.zero)
    exact ⟨e, by unfold answer; exact bind_err he⟩

/-- **C27** fails for every number of parameters other than three. -/
theorem C27_parameters_refuted (sv : Solver ℝ σ) (t0 t : ℝ) (ts : List ℝ) (y : List ℝ) {q : List Var} {z : List ℝ}
    {s : St W} (hz : vals q s = .ok (z, s)) (hq : q.length = z.length) (h3 : q.length ≠ 3)
    (f : ℝ → List ℝ → List ℝ) (fp : ℝ → List Var → List Var → List Var → M W (List Var))
    (ha : AsksSens f (sv.step (sv.init t0 y (List.replicate q.length (List.replicate y.length 0))) t)) :
    ∃ e, cvodesSolPar sv t0 y (t :: ts) q f fp s = .error e := by
  rw [hq] at ha h3
  obtain ⟨e, he⟩ := answer_stuck (W := W) h3 (fp := fp) _ s ha
  refine ⟨e, ?_⟩
  unfold cvodesSolPar
  rw [bind_ok hz, sensInit_p, hq]
  unfold solLoop
  exact bind_err he

theorem data_loop (sv : Solver ℝ σ) (f : ℝ → List ℝ → List ℝ) (ts : List ℝ) : ∀ (mem : σ) (y0 : List ℝ) (s s' : St W)
    (l : List (List ℝ)) (y1 : List ℝ), dataLoop sv (newCvsRhs f) ts mem y0 s = .ok ((l, y1), s') →
    s' = s ∧ y1 = l.getLastD y0 ∧ ∃ sol, SolvesAll ⟨f, fun _ _ _ _ => False⟩ sv ts mem sol ∧ l = sol.map Prod.fst := by
  have key : ∀ (call : Solving ℝ σ) (s s' : St W) r, answer (newCvsRhs f) call s = .ok (r, s') →
      s' = s ∧ Solves ⟨f, fun _ _ _ _ => False⟩ call r := by
    intro call
    induction call with
    | done => intro s s' r e; cases e; exact ⟨rfl, .done⟩
    | rhs t y k ih =>
      intro s s' r e
      obtain ⟨h1, h2⟩ := ih _ s s' r e
      exact ⟨h1, .rhs h2⟩
    | sens t y yS k ih =>
      intro s s' r e
      exfalso
      unfold answer at e
      obtain ⟨out, s1, e1, -⟩ := bind_inv e
      unfold setSensRhs at e1
      obtain ⟨_, s2, -, k1⟩ := bind_inv e1
      obtain ⟨yv, s3, -, k2⟩ := bind_inv k1
      obtain ⟨fv, s4, -, k3⟩ := bind_inv k2
      obtain ⟨pf, s5, k4, -⟩ := bind_inv k3
      simp only [newCvsRhs, Bool.false_and, Bool.not_false, if_true, deref] at k4
      obtain ⟨_, s6, k5, -⟩ := bind_inv k4
      cases k5
  induction ts with
  | nil => intro mem y0 s s' l y1 e; cases e; exact ⟨rfl, rfl, [], .nil, rfl⟩
  | cons t ts ih =>
    intro mem y0 s s' l y1 e
    unfold dataLoop at e
    obtain ⟨⟨ierr, y, yS, mem'⟩, s1, e1, k1⟩ := bind_inv e
    obtain ⟨rfl, hs⟩ := key _ _ _ _ e1
    simp only at k1
    split at k1
    · cases k1
    · rename_i hz
      have hz : ierr = 0 := by simpa using hz
      subst hz
      obtain ⟨⟨rest, y2⟩, s2, e2, k2⟩ := bind_inv k1
      cases k2
      obtain ⟨rfl, hl, sol, h1, rfl⟩ := ih _ _ _ _ _ _ e2
      exact ⟨rfl, by rw [List.getLastD_cons]; exact hl, (y, yS) :: sol, .cons hs h1, rfl⟩

/-- **C27**: without variables the result is the solver's solution, nothing is recorded on the tape. -/
theorem C27_data (sv : Solver ℝ σ) (f : ℝ → List ℝ → List ℝ) (t0 : ℝ) (y ts : List ℝ) {s s' : St W}
    {l : List (List ℝ)} {y1 : List ℝ} (hrun : cvodesSolData sv t0 y ts f s = .ok ((l, y1), s')) :
    s' = s ∧ ∃ sol, SolvesAll ⟨f, fun _ _ _ _ => False⟩ sv ts (sv.init t0 y []) sol ∧ l = sol.map Prod.fst :=
  have h := data_loop sv f ts _ _ s s' l _ hrun
  ⟨h.1, h.2.2⟩

theorem isSens_unique {F : Nat → List ℝ → ℝ} {y q : List ℝ} {src : Nat → Option Nat} {S o o' : List (List ℝ)}
    (h : IsSensRhs F y q src S o) (h' : IsSensRhs F y q src S o') : o = o' := by
  refine List.ext_getElem (h.1.trans h'.1.symm) fun j h1 h2 => ?_
  have hj : j < S.length := h.1 ▸ h1
  obtain ⟨l1, r1⟩ := h.2 j hj
  obtain ⟨l2, r2⟩ := h'.2 j hj
  have e1 : o.getD j [] = o[j] := by simp [List.getD_eq_getElem?_getD, h1]
  have e2 : o'.getD j [] = o'[j] := by simp [List.getD_eq_getElem?_getD, h2]
  rw [e1] at l1 r1
  rw [e2] at l2 r2
  refine List.ext_getElem (l1.trans l2.symm) fun i k1 k2 => ?_
  have hi : i < y.length := l1 ▸ k1
  obtain ⟨dy, dq, a1, a2, a3⟩ := r1 i hi
  obtain ⟨dy', dq', b1, b2, b3⟩ := r2 i hi
  obtain ⟨rfl, rfl⟩ := List.append_inj (a2.unique b2) (a1.trans b1.symm)
  rw [← b3] at a3
  simpa [List.getD_eq_getElem?_getD, k1, k2] using a3

theorem solves_unique {pr : Problem} (hpr : ∀ t y S o o', pr.sens t y S o → pr.sens t y S o' → o = o') :
    ∀ (call : Solving ℝ σ) {r r'}, Solves pr call r → Solves pr call r' → r = r' := by
  intro call
  induction call with
  | done => intro r r' h h'; cases h; cases h'; rfl
  | rhs t y k ih =>
    intro r r' h h'
    cases h with | rhs h =>
    cases h' with | rhs h' =>
    exact ih _ h h'
  | sens t y yS k ih =>
    intro r r' h h'
    cases h with | sens h1 h2 =>
    cases h' with | sens h3 h4 =>
    rw [hpr _ _ _ _ _ h1 h3] at h2
    exact ih _ h2 h4

/-- **C27**: the solutions and sensitivities that the solver returns to correct answers are unique, so the theorems
above say which ones the variables have. -/
theorem C27_unique (f : ℝ → List ℝ → List ℝ) (p : ℝ → Prog) {pr : Problem}
    (hp : pr = initProblem f p ∨ ∃ q, pr = paramProblem f p q) (sv : Solver ℝ σ) (ts : List ℝ) :
    ∀ {mem : σ} {sol sol' : List (List ℝ × List (List ℝ))},
      SolvesAll pr sv ts mem sol → SolvesAll pr sv ts mem sol' → sol = sol' := by
  have hpr : ∀ t y S o o', pr.sens t y S o → pr.sens t y S o' → o = o' := by
    rcases hp with rfl | ⟨q, rfl⟩
    · simp only [initProblem]
      exact fun _ _ _ _ _ => isSens_unique
    · simp only [paramProblem]
      exact fun _ _ _ _ _ => isSens_unique
  induction ts with
  | nil => intro mem sol sol' h h'; cases h; cases h'; rfl
  | cons t ts ih =>
    intro mem sol sol' h h'
    cases h with | cons h1 h2 =>
    cases h' with | cons h3 h4 =>
    have := solves_unique hpr _ h1 h3
    cases this
    rw [ih h2 h4]

/-- **C27**: an error flag of the solver stops the program: no variables are returned. -/
theorem C27_error_stops {W R : Type} [Arith R] [Rep W R] (sv : Solver R σ) (ode : CvsRhs W R) (ops : List Var)
    (n : Nat) (t : R) (ts : List R) (mem : σ) (y0 : List R) {s s' : St W} {ierr : Int} {y : List R} {yS : List (List R)} {mem' : σ}
    (e : answer ode (sv.step mem t) s = .ok ((ierr, y, yS, mem'), s')) (hi : ierr ≠ 0) :
    solLoop sv ode ops n (t :: ts) mem y0 s = .error .stop := by
  unfold solLoop
  rw [bind_ok e]
  simp only [if_pos hi]
  rfl

/-- the call can be made: as `Fair`; the right-hand side returns `n` numbers, and the tape does not become exactly
full (C36) -/
def Callable (p : ℝ → Prog) (n K : Nat) (t : ℝ) (y : List ℝ) (S : List (List ℝ)) : Prop :=
  Fair p [] n n K t y S ∧ (∀ v ∈ S, v.length = n) ∧ ((p t).sem (y ++ List.replicate n 0)).length = n ∧ 0 < n ∧
    ∀ j, 1 + 6 * n + (6 * (2 * n) + (p t).cost (y ++ List.replicate n 0)) ≠ 12288 * 2 ^ j + 1

/-- **C27** completes, from the start of the program with one output time, for right-hand sides that make no new
constants, if the solver succeeds. -/
theorem C27_completes (z : List ℝ) (sv : Solver ℝ σ) (t0 t : ℝ) (f : ℝ → List ℝ → List ℝ)
    (p : ℝ → Prog) (K : Nat) (hc : ∀ t, ¬ (p t).hasConst)
    (ha : Asks (initProblem f p) (Callable p z.length K) (sv.step (sv.init t0 z (unitVectors z.length)) t))
    (hgood : ∀ r, Solves (initProblem f p) (sv.step (sv.init t0 z (unitVectors z.length)) t) r → r.1 = 0 ∧
      r.2.1.length = z.length ∧ r.2.2.1.length = z.length ∧ ∀ v ∈ r.2.2.1, v.length = z.length)
    (room : 1 + 6 * z.length + z.length * (6 + 3 * z.length) + K ≤ tapeLimit) :
    ∃ y0 s1 yt s2, (newVars z : M W (List Var)) St.init = .ok (y0, s1) ∧ y0.length = z.length ∧
      cvodesSolY0 sv t0 y0 [t] f (odeY p []) s1 = .ok (yt, s2) := by
  have hcap : cap = tapeLimit := rfl
  have hret : ∀ l : List ℝ, l.length = z.length → (List.range z.length).map (look l) = l := fun l h => by
    apply List.ext_getElem (by simp [h])
    intro k h1 h2
    simp [look, List.getD_eq_getElem?_getD, h2]
  obtain ⟨y0, outs, s1, s2, e1, e2, g', val', adj', D', ε', r⟩ := ranC (W := W) (x := z) (ys := [])
    (p := .ret (List.range z.length)) (inv_init (fun _ => 0) (fun _ => 0)) (env := []) (by simp) rfl
    (by simp [Prog.Ok]) (by
      simp only [Room, Prog.cost, St.init, Tape.init]
      omega)
  have hyl : y0.length = z.length := newVars_len _ e1
  cases e2
  have hy0 : (List.range z.length).map (lookV (y0 ++ [])) = y0 := by
    apply List.ext_getElem (by simp [hyl])
    intro k h1 h2
    simp [lookV, List.getD_eq_getElem?_getD, h2]
  have hv := r.vals r.sim.inv
  rw [hy0] at r hv
  have hf := r.fine (fine_init _ _ _ _)
  have hleaf := r.leafs (n := 0) (fine_init _ _ _ _)
  have hh := r.head
  have hlev := r.keep.level
  simp only [Prog.cost, St.init, Tape.init, List.length_map, coords_length] at hh hlev
  have hhas : ∀ v ∈ y0, g'.Has v := fun v hv => by
    obtain ⟨k, hk, rfl⟩ := List.getElem_of_mem hv
    exact (r.xs k hk).1
  simp only [Prog.sem, List.append_nil, hret z rfl] at hv
  have ft : Fine s1 g' val' adj' (2 * z.length) False := ⟨r.sim.inv, hf, fun k hk _ => hleaf k hk⟩
  obtain ⟨yt, y1, s3, e3⟩ := solLoop_total (sv := sv) (ops := y0) (n := z.length)
    (ode := newCvsRhsYvar true z.length f (odeY p [])) (pr := initProblem f p) (ok := Callable p z.length K) rfl
    (by
      have hb : s1.tape.head = 1 + 6 * z.length := by omega
      have := @sensTotal_y W _ _ f p z.length K s1.tape.head s1.level
        (by rw [hlev]; simp [maxNestedStack]) (by rw [hh]; omega) hc
      unfold Callable
      rw [hb] at this ⊢
      intros
      apply this <;> assumption) hyl.symm t
    (sv.init t0 z (unitVectors z.length)) z ft hhas (by rw [hh, hyl]; omega) ha (by rw [hyl]; exact hgood)
  refine ⟨y0, s1, yt, s3, e1, hyl, ?_⟩
  unfold cvodesSolY0
  rw [bind_ok hv, sensInit_y, hyl]
  rw [bind_ok e3]
  rfl

/-- as `Callable`, with the parameters `q` -/
def CallablePar (p : ℝ → Prog) (q : List ℝ) (n K : Nat) (t : ℝ) (y : List ℝ) (S : List (List ℝ)) : Prop :=
  Fair p q n q.length K t y S ∧ (∀ v ∈ S, v.length = n) ∧ ((p t).sem (y ++ List.replicate n 0 ++ q)).length = n ∧
    ∀ j, 1 + 6 * q.length + (6 * (2 * n + q.length) + (p t).cost (y ++ List.replicate n 0 ++ q)) ≠ 12288 * 2 ^ j + 1

/-- **C27** completes for three parameters, from the start of the program with one output time, for right-hand sides
that make no new constants, if the solver succeeds. -/
theorem C27_completes_parameters (z : List ℝ) (hz : z.length = 3) (sv : Solver ℝ σ) (t0 t : ℝ) (y : List ℝ)
    (f : ℝ → List ℝ → List ℝ) (p : ℝ → Prog) (K : Nat) (hc : ∀ t, ¬ (p t).hasConst)
    (ha : Asks (paramProblem f p z) (CallablePar p z y.length K)
      (sv.step (sv.init t0 y (List.replicate z.length (List.replicate y.length 0))) t))
    (hgood : ∀ r, Solves (paramProblem f p z)
      (sv.step (sv.init t0 y (List.replicate z.length (List.replicate y.length 0))) t) r → r.1 = 0 ∧
      r.2.1.length = y.length ∧ r.2.2.1.length = z.length ∧ ∀ v ∈ r.2.2.1, v.length = y.length)
    (room : 1 + 6 * z.length + y.length * (6 + 3 * z.length) + K ≤ tapeLimit) :
    ∃ q s1 yt y1 s2, (newVars z : M W (List Var)) St.init = .ok (q, s1) ∧ q.length = z.length ∧
      cvodesSolPar sv t0 y [t] q f (odeP p []) s1 = .ok ((yt, y1), s2) := by
  have hcap : cap = tapeLimit := rfl
  have hret : ∀ l : List ℝ, l.length = z.length → (List.range z.length).map (look l) = l := fun l h => by
    apply List.ext_getElem (by simp [h])
    intro k h1 h2
    simp [look, List.getD_eq_getElem?_getD, h2]
  obtain ⟨y0, outs, s1, s2, e1, e2, g', val', adj', D', ε', r⟩ := ranC (W := W) (x := z) (ys := [])
    (p := .ret (List.range z.length)) (inv_init (fun _ => 0) (fun _ => 0)) (env := []) (by simp) rfl
    (by simp [Prog.Ok]) (by
      simp only [Room, Prog.cost, St.init, Tape.init]
      omega)
  have hyl : y0.length = z.length := newVars_len _ e1
  cases e2
  have hy0 : (List.range z.length).map (lookV (y0 ++ [])) = y0 := by
    apply List.ext_getElem (by simp [hyl])
    intro k h1 h2
    simp [lookV, List.getD_eq_getElem?_getD, h2]
  have hv := r.vals r.sim.inv
  rw [hy0] at r hv
  have hf := r.fine (fine_init _ _ _ _)
  have hleaf := r.leafs (n := 0) (fine_init _ _ _ _)
  have hh := r.head
  have hlev := r.keep.level
  simp only [Prog.cost, St.init, Tape.init, List.length_map, coords_length] at hh hlev
  have hhas : ∀ v ∈ y0, g'.Has v := fun v hv => by
    obtain ⟨k, hk, rfl⟩ := List.getElem_of_mem hv
    exact (r.xs k hk).1
  simp only [Prog.sem, List.append_nil, hret z rfl] at hv
  have ft : Fine s1 g' val' adj' (2 * y.length + 3) False := ⟨r.sim.inv, hf, fun k hk _ => hleaf k hk⟩
  obtain ⟨yt, y1, s3, e3⟩ := solLoop_total (sv := sv) (ops := y0) (n := y.length)
    (ode := newCvsRhsPvar false z.length z f (odeP p [])) (pr := paramProblem f p z) (ok := CallablePar p z y.length K) rfl
    (by
      have hb : s1.tape.head = 1 + 6 * z.length := by omega
      have := @sensTotal_p W _ _ f p z y.length K s1.tape.head s1.level hz
        (by rw [hlev]; simp [maxNestedStack]) (by rw [hh]; omega) hc
      unfold CallablePar
      rw [hb] at this ⊢
      apply this) hyl.symm t
    (sv.init t0 y (List.replicate z.length (List.replicate y.length 0))) y ft hhas (by rw [hh, hyl]; omega) ha
    (by rw [hyl]; exact hgood)
  refine ⟨y0, s1, yt, y1, s3, e1, hyl, ?_⟩
  unfold cvodesSolPar
  rw [bind_ok hv, sensInit_p, hyl]
  exact e3
/-- the explicit Euler method, one step from output time to output time -/
noncomputable def euler : Solver ℝ (ℝ × List ℝ × List (List ℝ)) where
  init t y S := (t, y, S)
  step m t := .rhs m.1 m.2.1 fun f => .sens m.1 m.2.1 m.2.2 fun o =>
    let y := List.zipWith (fun a b => a + (t - m.1) * b) m.2.1 f
    let S := List.zipWith (List.zipWith fun a b => a + (t - m.1) * b) m.2.2 o
    .done 0 y S (t, y, S)

/-- `y' = y²` -/
noncomputable def square (_ : ℝ) : Prog := .op (.bin .mul 0 0) <| .ret [2]

/-- the hypotheses of `C27_initial` are met by the second variable of the history `demo` as the initial value, the
equation `y' = y²` and the Euler method -/
theorem initial_case : ∃ (c : Client ℝ) (yt : List (List Var)) (s' : St ℝ), Reach demo c ∧ (∀ v ∈ [⟨2⟩], v ∈ existing c.st) ∧
    vals [⟨2⟩] c.st = .ok ([3], c.st) ∧
    AsksAll (initProblem (fun _ y => y.map fun a => a * a) square) euler (Fair square [] 1 1 30) [1]
      (euler.init 0 [3] (unitVectors 1)) ∧
    c.st.tape.head + 1 * (1 * (6 + 3 * 1)) + 30 ≤ tapeLimit ∧ ⟨1⟩ ∈ existing c.st ∧ Rates c.st ⟨1⟩ demoB ∧
    cvodesSolY0 euler 0 [⟨2⟩] [1] (fun _ y => y.map fun a => a * a) (odeY square []) c.st = .ok (yt, s') := by
  obtain ⟨c, hr, hv, ha, hh, hl, ⟨v, he⟩, g, val, adj, hf, hhas⟩ := demo_reach (W := ℝ)
  obtain ⟨c', hr', -, hex, h1, h2, h3, hb⟩ := demo_rates (W := ℝ)
  obtain rfl : c = c' := by
    have := hr.2.symm.trans hr'.2
    cases this; rfl
  have hops : ∀ v ∈ [(⟨2⟩ : Var)], g.Has v := fun v hv => hhas v (by rw [he]; simp at hv; simp [hv])
  have hz : vals [⟨2⟩] c.st = .ok ([3], c.st) := by
    rw [hf.inv.varVals hops]
    have := vals_eq hf.inv hhas hv
    rw [he] at this
    simp at this
    simp [this.2.1]
  have hfair : ∀ S, S.length = 1 → Fair square [] 1 1 30 0 [3] S := fun S hS => by
    refine ⟨rfl, hS, ?_, ?_⟩
    · simp [square, Prog.Ok, Instr.Ok, Instr.sem, Bin.domVV]
    · simp [square, Prog.cost, Instr.cost]
  have hu : (unitVectors 1).length = 1 := rfl
  obtain ⟨yt, y1, s', e⟩ := solLoop_total (W := ℝ) (n := 1) (ops := [⟨2⟩]) (ok := _) rfl
    (@sensTotal_y ℝ _ _ (fun _ y => y.map fun a => a * a) square 1 30 c.st.tape.head c.st.level
      (by rw [hl]; simp [maxNestedStack]) (by rw [hh]; simp [cap]) (by simp [square, Prog.hasConst]))
    euler rfl 1 (euler.init 0 [3] (unitVectors 1)) [3] (hf.weak (Or.inr trivial) fun _ => trivial) hops
    (by rw [hh]; simp [cap])
    ⟨⟨hfair _ hu, by simp [unitVectors, euler], by simp [square, Prog.sem, Instr.sem], by simp, fun j => by
      rw [hh]
      have := Nat.one_le_two_pow (n := j)
      simp [square, Prog.cost, Instr.cost]
      omega⟩, fun _ _ => trivial⟩ (by
      intro r h
      cases h with | rhs h =>
      cases h with | sens h1 h2 =>
      cases h2
      obtain ⟨a1, a2⟩ := h1
      rename_i o
      obtain ⟨x, rfl⟩ : ∃ x, o = [x] := List.length_eq_one_iff.mp a1
      have := (a2 0 (by simp [euler, unitVectors])).1
      simp [euler] at this
      simp [euler, unitVectors, initProblem, this])
  refine ⟨c, yt, s', hr, ?_, hz, ⟨⟨hfair _ hu, fun _ _ => trivial⟩, fun _ _ _ _ => trivial⟩, ?_, ?_, hb, ?_⟩
  · simp [hex]
  · rw [hh]; simp [tapeLimit]
  · simp [hex]
  · unfold cvodesSolY0
    rw [bind_ok hz]
    exact bind_ok e

/-- `y' = q₁ q₂ y + q₃`, `linear` of `Props/Ode.lean`; the hypotheses of `C27_parameters_partial` are met by the three
variables of the history `demo` as parameters -/
theorem parameters_case : ∃ (c : Client ℝ) (yt : List (List Var)) (y1 : List ℝ) (s' : St ℝ), Reach demo c ∧
    (∀ v ∈ [⟨1⟩, ⟨2⟩, ⟨3⟩], v ∈ existing c.st) ∧ vals [⟨1⟩, ⟨2⟩, ⟨3⟩] c.st = .ok ([2, 3, 6], c.st) ∧
    AsksAll (paramProblem (fun _ y => y.map fun a => 6 * a + 6) linear [2, 3, 6]) euler (Fair linear [2, 3, 6] 1 3 60) [1]
      (euler.init 0 [7] (List.replicate 3 (List.replicate 1 0))) ∧
    c.st.tape.head + 1 * (1 * (6 + 3 * 3)) + 60 ≤ tapeLimit ∧ ⟨1⟩ ∈ existing c.st ∧ Rates c.st ⟨1⟩ demoB ∧
    cvodesSolPar euler 0 [7] [1] [⟨1⟩, ⟨2⟩, ⟨3⟩] (fun _ y => y.map fun a => 6 * a + 6) (odeP linear []) c.st =
      .ok ((yt, y1), s') := by
  obtain ⟨c, hr, hv, ha, hh, hl, -, g, val, adj, hf, hhas⟩ := demo_reach (W := ℝ)
  obtain ⟨c', hr', -, hex, h1, h2, h3, hb⟩ := demo_rates (W := ℝ)
  obtain rfl : c = c' := by
    have := hr.2.symm.trans hr'.2
    cases this; rfl
  have hops : ∀ v ∈ [(⟨1⟩ : Var), ⟨2⟩, ⟨3⟩], g.Has v := fun v hv => (mem_existing hf.inv).mp (by rw [hex]; exact hv)
  have hz : vals [⟨1⟩, ⟨2⟩, ⟨3⟩] c.st = .ok ([2, 3, 6], c.st) := by
    rw [hf.inv.varVals hops]
    rw [hf.inv.varVal (hops _ (by simp))] at h1
    rw [hf.inv.varVal (hops _ (by simp))] at h2
    rw [hf.inv.varVal (hops _ (by simp))] at h3
    injection h1 with h1; injection h2 with h2; injection h3 with h3
    injection h1 with h1; injection h2 with h2; injection h3 with h3
    simp [h1, h2, h3]
  have hfair : ∀ S, S.length = 3 → Fair linear [2, 3, 6] 1 3 60 0 [7] S := fun S hS => by
    refine ⟨rfl, hS, ?_, ?_⟩
    · simp [linear, Prog.Ok, Instr.Ok, Instr.sem, Bin.domVV]
    · simp [linear, Prog.cost, Instr.cost]
  obtain ⟨yt, y1, s', e⟩ := solLoop_total (W := ℝ) (n := 1) (ops := [⟨1⟩, ⟨2⟩, ⟨3⟩]) (ok := _) rfl
    (@sensTotal_p ℝ _ _ (fun _ y => y.map fun a => 6 * a + 6) linear [2, 3, 6] 1 60 c.st.tape.head c.st.level rfl
      (by rw [hl]; simp [maxNestedStack]) (by rw [hh]; simp [cap]) (by simp [linear, Prog.hasConst]))
    euler rfl 1 (euler.init 0 [7] (List.replicate 3 (List.replicate 1 0))) [7]
    (hf.weak (Or.inr trivial) fun _ => trivial) hops (by rw [hh]; simp [cap])
    ⟨⟨hfair _ rfl, by simp [euler], by simp [linear, Prog.sem, Instr.sem], fun j => by
      rw [hh]
      have := Nat.one_le_two_pow (n := j)
      simp [linear, Prog.cost, Instr.cost]
      omega⟩, fun _ _ => trivial⟩ (by
      intro r h
      cases h with | rhs h =>
      cases h with | sens h1 h2 =>
      cases h2
      obtain ⟨a1, a2⟩ := h1
      rename_i o
      obtain ⟨x, x', x'', rfl⟩ : ∃ x x' x'', o = [x, x', x''] := List.length_eq_three.mp a1
      have b0 := (a2 0 (by simp [euler])).1
      have b1 := (a2 1 (by simp [euler])).1
      have b2 := (a2 2 (by simp [euler])).1
      simp [euler] at b0 b1 b2
      simp [euler, paramProblem, List.replicate, b0, b1, b2])
  refine ⟨c, yt, y1, s', hr, ?_, hz, ⟨⟨hfair _ rfl, fun _ _ => trivial⟩, fun _ _ _ _ => trivial⟩, ?_, ?_, hb, ?_⟩
  · simp [hex]
  · rw [hh]; simp [tapeLimit]
  · simp [hex]
  · unfold cvodesSolPar
    rw [bind_ok hz]
    exact e

end Props
