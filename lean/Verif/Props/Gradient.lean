import Verif.Proof.Demo

/-!
# C01, C02, C03, C08, C10: values and derivatives

`Reach h c`: the client `c` (program state and variables) is reached by the history `h` of library
calls, any calls in any order.  `ys` are the values of the client's variables.  A program `p` (see
`Spec/Prog.lean`) may use new independent variables, with values `x`, and the client's variables.
`p.sem` is its mathematical meaning, `p.Ok` says that every step is taken inside the domain of
differentiability of its function and avoids the defects listed as C15, C16, C17; `Room` that the tape
stays below its largest size.  All over the exact reals.
-/

set_option linter.unusedSectionVars false

namespace Props
open Fz Spec

variable {W : Type} [Rep W ℝ] [LawfulRep W ℝ]

/-- the values of the client's variables can always be read -/
theorem values_readable {h : List (Call ℝ)} {c : Client W} (hr : Reach h c) :
    ∃ ys : List ℝ, vals c.env c.st = .ok (ys, c.st) := by
  obtain ⟨g, val, adj, G⟩ := hr.good
  exact ⟨_, G.inv.varVals G.has⟩

/-- **C01, C02**: after `f%grad()` the adjoints of the independent variables are the partial
derivatives of the program's output, in every reachable state, for every program over scalars, vectors
and matrices. -/
theorem C01_exact_partials {h : List (Call ℝ)} {c : Client W} (hr : Reach h c) {ys : List ℝ}
    (hys : vals c.env c.st = .ok (ys, c.st)) (p : Prog) (x : List ℝ) (k : Nat)
    (hok : p.Ok (x ++ ys)) (hk : k < (p.sem (x ++ ys)).length) (hroom : Room c.st p x ys)
    {o df : List ℝ} {s' : St W} (hrun : derive p c.env x k c.st = .ok ((o, df), s')) :
    o = p.sem (x ++ ys) ∧ IsGradAt (fun z => (p.sem (z ++ ys)).getD k 0) x df := by
  obtain ⟨g, val, adj, G⟩ := hr.good
  exact derive_ok G.inv G.okf G.has (G.vals hys) hok hroom hk hrun

/-- **C01, C02**: from the start of the program the computation always completes. -/
theorem C01_completes (p : Prog) (x : List ℝ) (k : Nat) (hok : p.Ok x) (hk : k < (p.sem x).length)
    (hroom : 1 + (6 * x.length + p.cost x) ≤ tapeLimit) :
    ∃ df s', derive p [] x k (St.init : St W) = .ok ((p.sem x, df), s') ∧
      IsGradAt (fun z => (p.sem z).getD k 0) x df := by
  obtain ⟨o, df, s', e, -⟩ := derive_total (W := W) (x := x) (ys := []) (p := p) (env := [])
    (fine_init 0 True (fun _ => 0) (fun _ => 0)) (by simp) rfl (by simpa using hok)
    (by simpa [Room, St.init, Tape.init] using hroom) (k := k) (by simpa using hk)
  obtain ⟨rfl, hg⟩ := derive_ok (inv_init (fun _ => 0) (fun _ => 0)) (by simp [Graph.empty]) (by simp) rfl
    (by simpa using hok) (by simpa [Room, St.init, Tape.init] using hroom) (by simpa using hk) e
  refine ⟨df, s', by simpa using e, ?_⟩
  have he : p.out [] k = fun z => (p.sem z).getD k 0 := by funext z; simp [Prog.out]
  have hg' : IsGradAt (p.out [] k) x df := hg
  rw [he] at hg'
  exact hg'

/-- a program with scalar, vector and matrix instructions, a branch, and repeated operands -/
noncomputable def sample : Prog :=
  .op (.bin .mul 0 0) <| .op (.un .sin 1) <| .op (.sum [0, 1, 2, 3]) <|
  .op (.matmulVV ⟨1, 2, fun _ j => j⟩ ⟨2, 1, fun i _ => i + 2⟩) <|
  .ifVD .gt 0 0 (.ret [4, 5]) (.ret [0, 5])

/-- the hypotheses of `C01_completes` and `C01_exact_partials` are met, by `sample` at `(2, 3)` -/
example : ∃ df s', derive sample [] [2, 3] 1 (St.init : St ℝ) = .ok ((sample.sem [2, 3], df), s') ∧
    IsGradAt (fun z => (sample.sem z).getD 1 0) [2, 3] df := by
  apply C01_completes
  · simp [sample, Prog.Ok, Instr.Ok, Instr.sem, Bin.domVV, Un.dom, Rel.holds, look, entries]
    exact ⟨fun j hj => by omega, fun j hj => by omega⟩
  · simp [sample, Prog.sem, Instr.sem, Rel.holds, look]
  · simp [sample, Prog.cost, Instr.cost, Un.cost, tapeLimit, Rel.holds, look]

example : ∃ (c : Client ℝ) (ys o df : List ℝ) (s' : St ℝ), Reach demo c ∧
    vals c.env c.st = .ok (ys, c.st) ∧ sample.Ok ([2, 3] ++ ys) ∧
    1 < (sample.sem ([2, 3] ++ ys)).length ∧ Room c.st sample [2, 3] ys ∧
    derive sample c.env [2, 3] 1 c.st = .ok ((o, df), s') := by
  obtain ⟨c, hr, hv, ha, hh, hl, he, g, val, adj, hf, hhas⟩ := demo_reach (W := ℝ)
  have hok : sample.Ok ([2, 3] ++ [2, 3, 6]) := by
    simp [sample, Prog.Ok, Instr.Ok, Instr.sem, Bin.domVV, Un.dom, Rel.holds, look, entries]
    exact ⟨fun j hj => by omega, fun j hj => by omega⟩
  have hk : 1 < (sample.sem ([2, 3] ++ [2, 3, 6])).length := by
    simp [sample, Prog.sem, Instr.sem, Rel.holds, look]
  have hroom : Room c.st sample [2, 3] [2, 3, 6] := by
    simp [Room, hh, sample, Prog.cost, Instr.cost, Un.cost, tapeLimit, Rel.holds, look]
  obtain ⟨o, df, s', e, -⟩ := derive_total hf hhas (by
    have := hf.inv.varVals hhas
    rw [hv] at this
    injection this with this
    injection this) hok hroom hk
  exact ⟨c, _, o, df, s', hr, hv, hok, hk, hroom, e⟩

/-- **C03**: the forward values are the mathematical ones, in every reachable state; running the
program never fails. -/
theorem C03_values {h : List (Call ℝ)} {c : Client W} (hr : Reach h c) {ys : List ℝ}
    (hys : vals c.env c.st = .ok (ys, c.st)) (p : Prog) (x : List ℝ) (hok : p.Ok (x ++ ys))
    (hroom : Room c.st p x ys) :
    ∃ s', (do let xv ← newVars x
              let outs ← p.run (xv ++ c.env)
              vals outs : M W (List ℝ)) c.st = .ok (p.sem (x ++ ys), s') := by
  obtain ⟨g, val, adj, G⟩ := hr.good
  obtain ⟨xv, outs, s1, s', e1, e2, g', val', adj', D', ε', r⟩ := ranC G.inv G.has (G.vals hys) hok hroom
  exact ⟨s', by rw [bind_ok e1, bind_ok e2]; exact r.vals r.sim.inv⟩

/-- **C08**: `gradient(f, x)` returns the value and the partial derivatives of `f`, whatever is on the
tape already. -/
theorem C08_gradient {h : List (Call ℝ)} {c : Client W} (hr : Reach h c) {ys : List ℝ}
    (hys : vals c.env c.st = .ok (ys, c.st)) (p : Prog) (x : List ℝ)
    (hok : p.Ok (x ++ ys)) (hk : p.sem (x ++ ys) ≠ []) (hroom : Room c.st p x ys)
    {y : ℝ} {df : List ℝ} {s' : St W}
    (hrun : gradient (p.scalarFn c.env) x c.st = .ok ((y, df), s')) :
    y = (p.sem (x ++ ys)).getD 0 0 ∧ IsGradAt (fun z => (p.sem (z ++ ys)).getD 0 0) x df := by
  obtain ⟨g, val, adj, G⟩ := hr.good
  exact gradient_ok G.inv G.okf G.has (G.vals hys) hok hroom hk hrun

/-- the hypotheses of `C03_values` and `C08_gradient` are met after the history `demo`, by `sample` -/
example : ∃ (c : Client ℝ) (ys : List ℝ) (y : ℝ) (df : List ℝ) (s' : St ℝ), Reach demo c ∧
    vals c.env c.st = .ok (ys, c.st) ∧ sample.Ok ([2, 3] ++ ys) ∧
    sample.sem ([2, 3] ++ ys) ≠ [] ∧ Room c.st sample [2, 3] ys ∧
    gradient (sample.scalarFn c.env) [2, 3] c.st = .ok ((y, df), s') := by
  obtain ⟨c, hr, hv, ha, hh, hl, he, g, val, adj, hf, hhas⟩ := demo_reach (W := ℝ)
  have hok : sample.Ok ([2, 3] ++ [2, 3, 6]) := by
    simp [sample, Prog.Ok, Instr.Ok, Instr.sem, Bin.domVV, Un.dom, Rel.holds, look, entries]
    exact ⟨fun j hj => by omega, fun j hj => by omega⟩
  have hcost : sample.cost ([2, 3] ++ [2, 3, 6]) = 43 := by
    simp [sample, Prog.cost, Instr.cost, Un.cost, Rel.holds, look]
  have hk : sample.sem ([2, 3] ++ [2, 3, 6]) ≠ [] := by
    simp [sample, Prog.sem, Instr.sem, Rel.holds, look]
  have hroom : Room c.st sample [2, 3] [2, 3, 6] := by
    unfold Room; rw [hh, hcost]; simp [tapeLimit]
  obtain ⟨y, df, s', e, -⟩ := gradient_total (p := sample) (x := [2, 3])
    (hf.weak (Or.inr trivial) fun _ => trivial) (by rw [hl]; simp [maxNestedStack]) hhas (by
    have := hf.inv.varVals hhas
    rw [hv] at this
    injection this with this
    injection this) hok hroom hk ⟨by rw [hh]; omega, fun j => by
      rw [hh, hcost]
      have := Nat.one_le_two_pow (n := j)
      simp only [List.length_cons, List.length_nil]
      omega⟩
  exact ⟨c, _, y, df, s', hr, hv, hok, hk, hroom, e⟩

/-- **C10**: `jacobian(f, n, x)` returns all values and all partial derivatives, row by row. -/
theorem C10_jacobian {h : List (Call ℝ)} {c : Client W} (hr : Reach h c) {ys : List ℝ}
    (hys : vals c.env c.st = .ok (ys, c.st)) (p : Prog) (x : List ℝ) (n : Nat)
    (hok : p.Ok (x ++ ys)) (hroom : Room c.st p x ys) {o : List ℝ} {rows : List (List ℝ)} {s' : St W}
    (hrun : jacobian (p.vectorFn c.env) n x c.st = .ok ((o, rows), s')) :
    n = (p.sem (x ++ ys)).length ∧ o = p.sem (x ++ ys) ∧ rows.length = n ∧
      ∀ i (hi : i < rows.length), IsGradAt (fun z => (p.sem (z ++ ys)).getD i 0) x rows[i] := by
  obtain ⟨g, val, adj, G⟩ := hr.good
  obtain ⟨h1, h2, h3⟩ := jacobian_ok G.inv G.okf G.has (G.vals hys) hok hroom hrun
  have hl := h3.length_eq
  rw [List.length_range] at hl
  refine ⟨h1, h2, hl.symm, fun i hi => ?_⟩
  have := (List.forall₂_iff_get.mp h3).2 i (by simp; omega) hi
  simp only [List.get_eq_getElem, List.getElem_range] at this
  exact this

/-- the hypotheses of `C10_jacobian` are met after the history `demo`, by `sample` -/
example : ∃ (c : Client ℝ) (ys o : List ℝ) (rows : List (List ℝ)) (s' : St ℝ), Reach demo c ∧
    vals c.env c.st = .ok (ys, c.st) ∧ sample.Ok ([2, 3] ++ ys) ∧ Room c.st sample [2, 3] ys ∧
    jacobian (sample.vectorFn c.env) (sample.sem ([2, 3] ++ ys)).length [2, 3] c.st = .ok ((o, rows), s') := by
  obtain ⟨c, hr, hv, ha, hh, hl, he, g, val, adj, hf, hhas⟩ := demo_reach (W := ℝ)
  have hok : sample.Ok ([2, 3] ++ [2, 3, 6]) := by
    simp [sample, Prog.Ok, Instr.Ok, Instr.sem, Bin.domVV, Un.dom, Rel.holds, look, entries]
    exact ⟨fun j hj => by omega, fun j hj => by omega⟩
  have hcost : sample.cost ([2, 3] ++ [2, 3, 6]) = 43 := by
    simp [sample, Prog.cost, Instr.cost, Un.cost, Rel.holds, look]
  have hroom : Room c.st sample [2, 3] [2, 3, 6] := by
    unfold Room; rw [hh, hcost]; simp [tapeLimit]
  obtain ⟨y, df, s', e, -⟩ := jacobian_total (p := sample) (x := [2, 3])
    (hf.weak (Or.inr trivial) fun _ => trivial) (by rw [hl]; simp [maxNestedStack]) hhas (by
    have := hf.inv.varVals hhas
    rw [hv] at this
    injection this with this
    injection this) hok hroom ⟨by rw [hh]; omega, fun j => by
      rw [hh, hcost]
      have := Nat.one_le_two_pow (n := j)
      simp only [List.length_cons, List.length_nil]
      omega⟩
  exact ⟨c, _, y, df, s', hr, hv, hok, hroom, e⟩

/-- a call of `gradient` or of `jacobian` -/
inductive Task where
  | gradient (p : Prog) (x : List ℝ)
  | jacobian (p : Prog) (x : List ℝ)

/-- the program -/
def Task.prog : Task → Prog
  | .gradient p _ => p
  | .jacobian p _ => p
/-- the point -/
def Task.at : Task → List ℝ
  | .gradient _ x => x
  | .jacobian _ x => x

/-- the call; `env` are variables of the caller the program may use, `ys` their values.  The result is
the list of values and the list of rows of derivatives. -/
noncomputable def Task.call (env : List Var) (ys : List ℝ) : Task → M W (List ℝ × List (List ℝ))
  | .gradient p x => do
    let (y, df) ← Fz.gradient (p.scalarFn env) x
    pure ([y], [df])
  | .jacobian p x => Fz.jacobian (p.vectorFn env) (p.sem (x ++ ys)).length x

/-- the results are right -/
def Task.Right (ys : List ℝ) : Task → List ℝ × List (List ℝ) → Prop
  | .gradient p x, r => ∃ df, r = ([(p.sem (x ++ ys)).getD 0 0], [df]) ∧
      IsGradAt (fun z => (p.sem (z ++ ys)).getD 0 0) x df
  | .jacobian p x, r => r.1 = p.sem (x ++ ys) ∧ r.2.length = (p.sem (x ++ ys)).length ∧
      ∀ i (hi : i < r.2.length), IsGradAt (fun z => (p.sem (z ++ ys)).getD i 0) x r.2[i]

/-- A main program is run on new variables from the start of the program, giving the variables `env`
with values `ys`; then `gradient` and `jacobian` are called, any number of times, with functions that
may use `env`. -/
noncomputable def session (p0 : Prog) (x0 : List ℝ) (tasks : List Task) :
    M W (List (List ℝ × List (List ℝ))) := do
  let xv ← newVars x0
  let env ← p0.run (xv ++ [])
  tasks.mapM (Task.call env (p0.sem x0))

/-- words of the tape in use at the end of the call's function; `w0` words are in use before -/
noncomputable def Task.words (t : Task) (w0 : Nat) (ys : List ℝ) : Nat :=
  w0 + (6 * t.at.length + t.prog.cost (t.at ++ ys))

/-- Conditions on a call of a session: differentiable steps, at least one output, `n` independent
variables and no constants made with `var(d)` (else C33), enough memory, and the tape is not left exactly
full (C36). -/
def Task.Ok (w0 n : Nat) (ys : List ℝ) (t : Task) : Prop :=
  t.prog.Ok (t.at ++ ys) ∧ t.prog.sem (t.at ++ ys) ≠ [] ∧ t.at.length = n ∧ ¬ t.prog.hasConst ∧
  1 + t.words w0 ys ≤ tapeLimit ∧ 0 < t.words w0 ys ∧ ∀ j, t.words w0 ys ≠ 12288 * 2 ^ j

theorem task_completes {env : List Var} {ys : List ℝ} {n w0 : Nat} {g : Graph ℝ}
    (he : ∀ v ∈ env, g.Has v) (t : Task) {s : St W} {val adj : Nat → ℝ}
    (hf : Fine s g val adj n False) (hh : s.tape.head = 1 + w0) (hl : s.level < maxNestedStack)
    (hy : ys = env.map fun v => val (g.pos v)) (hok : t.Ok w0 n ys) :
    ∃ r s', (t.call env ys : M W (List ℝ × List (List ℝ))) s = .ok (r, s') ∧ t.Right ys r ∧
      s'.level = s.level ∧ s'.tape.head = s.tape.head ∧
      ∃ val' a, Fine s' g val' a n False ∧ ys = env.map fun v => val' (g.pos v) := by
  obtain ⟨c1, c2, c3, c4, c5, c6, c7⟩ := hok
  have hfit : ∀ nd ∈ g.nodes, nd.ChainOK ∨ nd.Fits val := fun nd hn => Or.inr (hf.fits nd hn)
  have hkeep : ∀ val' : Nat → ℝ, (∀ q < s.tape.head, val' q = val q) →
      ys = env.map fun v => val' (g.pos v) := by
    intro val' hv
    rw [hy]
    apply List.map_congr_left
    intro v hv'
    exact (hv _ (hf.inv.has_lt (he v hv'))).symm
  cases t with
  | gradient p x =>
    simp only [Task.prog, Task.at, Task.words] at c1 c2 c3 c4 c5 c6 c7
    subst c3
    have hroom : Room s p x ys := by unfold Room; omega
    have hn : NotFull s (6 * x.length + p.cost (x ++ ys)) :=
      ⟨by omega, fun j => by have := c7 j; omega⟩
    obtain ⟨y, df, s', e, l1, l2, l3, val', a, hf', hv'⟩ :=
      gradient_total (hf.weak (Or.inl (Nat.le_refl _)) fun h => c4 h) hl he hy c1 hroom c2 hn
    obtain ⟨rfl, hg⟩ := gradient_ok hf.inv hfit he hy c1 hroom c2 e
    refine ⟨_, s', ?_, ⟨df, rfl, hg⟩, l1, l2, val', a, hf', hkeep _ hv'⟩
    exact bind_ok (f := fun r : ℝ × List ℝ => pure ([r.1], [r.2])) e
  | jacobian p x =>
    simp only [Task.prog, Task.at, Task.words] at c1 c2 c3 c4 c5 c6 c7
    subst c3
    have hroom : Room s p x ys := by unfold Room; omega
    have hn : NotFull s (6 * x.length + p.cost (x ++ ys)) :=
      ⟨by omega, fun j => by have := c7 j; omega⟩
    obtain ⟨o, rows, s', e, l1, l2, l3, val', a, hf', hv'⟩ :=
      jacobian_total (hf.weak (Or.inl (Nat.le_refl _)) fun h => c4 h) hl he hy c1 hroom hn
    obtain ⟨-, rfl, hg⟩ := jacobian_ok hf.inv hfit he hy c1 hroom e
    have hlen := hg.length_eq
    rw [List.length_range] at hlen
    refine ⟨_, s', e, ⟨rfl, hlen.symm, fun i hi => ?_⟩, l1, l2, val', a, hf', hkeep _ hv'⟩
    have := (List.forall₂_iff_get.mp hg).2 i (by simp only [List.length_range]; simp only at hi; omega) hi
    simp only [List.get_eq_getElem, List.getElem_range] at this
    exact this

theorem tasks_complete {env : List Var} {ys : List ℝ} {n w0 : Nat} {g : Graph ℝ}
    (he : ∀ v ∈ env, g.Has v) : ∀ (tasks : List Task) {s : St W} {val adj : Nat → ℝ},
    Fine s g val adj n False → s.tape.head = 1 + w0 → s.level < maxNestedStack →
    (ys = env.map fun v => val (g.pos v)) → (∀ t ∈ tasks, t.Ok w0 n ys) →
    ∃ res s', (tasks.mapM (Task.call env ys) : M W (List (List ℝ × List (List ℝ)))) s = .ok (res, s') ∧
      List.Forall₂ (Task.Right ys) tasks res := by
  intro tasks
  induction tasks with
  | nil => intro s val adj _ _ _ _ _; exact ⟨[], s, rfl, List.Forall₂.nil⟩
  | cons t l ih =>
    intro s val adj hf hh hl hy hall
    obtain ⟨r, s1, e1, hr, l1, l2, val', a, hf', hy'⟩ := task_completes he t hf hh hl hy (hall t (by simp))
    obtain ⟨res, s2, e2, hres⟩ := ih hf' (by rw [l2, hh]) (by rw [l1]; exact hl) hy'
      (fun t ht => hall t (by simp [ht]))
    refine ⟨r :: res, s2, ?_, List.Forall₂.cons hr hres⟩
    rw [List.mapM_cons, bind_ok e1, bind_ok e2]
    rfl

/-- **C08, C10**: a session of `gradient` and `jacobian` calls completes, with all results right. -/
theorem C08_C10_session (p0 : Prog) (x0 : List ℝ) (n : Nat) (tasks : List Task) (h0 : p0.Ok x0)
    (hroom : 1 + (6 * x0.length + p0.cost x0) ≤ tapeLimit)
    (hok : ∀ t ∈ tasks, t.Ok (6 * x0.length + p0.cost x0) n (p0.sem x0)) :
    ∃ res s', session p0 x0 tasks (St.init : St W) = .ok (res, s') ∧
      List.Forall₂ (Task.Right (p0.sem x0)) tasks res := by
  obtain ⟨xv, outs, s1, s2, e1, e2, e3, hh, hl, g', val', adj', hf, hhas⟩ :=
    setup_total (W := W) (x := x0) (ys := []) (p := p0) (env := [])
      (fine_init n True (fun _ => 0) (fun _ => 0)) (by simp) rfl (by simpa using h0)
      (by simpa [Room, St.init, Tape.init] using hroom)
  have hy : p0.sem x0 = outs.map fun v => val' (g'.pos v) := by
    have := hf.inv.varVals hhas
    rw [e3] at this
    injection this with this
    injection this with this
    simpa using this
  obtain ⟨res, s', e4, hres⟩ := tasks_complete (w0 := 6 * x0.length + p0.cost x0) hhas tasks
    (hf.weak (Or.inl (Nat.le_refl n)) fun h => h.elim)
    (by simpa [St.init, Tape.init] using hh) (by rw [hl]; simp [St.init, maxNestedStack]) hy hok
  refine ⟨res, s', ?_, hres⟩
  unfold session
  rw [bind_ok e1, bind_ok e2]
  exact e4

/-- a session: the main program is `demoProg` at `(2, 3)`; then a gradient and a jacobian in two
variables that use the results of the main program -/
noncomputable def sampleTasks : List Task :=
  [.gradient (.op (.bin .mul 0 4) (.op (.bin .add 5 1) (.ret [6]))) [1, 5],
   .jacobian (.op (.un .sin 0) (.op (.bin .pow 1 2) (.ret [5, 6, 0]))) [4, 7]]

example : ∃ res s', session demoProg [2, 3] sampleTasks (St.init : St ℝ) = .ok (res, s') ∧
    List.Forall₂ (Task.Right (demoProg.sem [2, 3])) sampleTasks res := by
  have hs : demoProg.sem [2, 3] = [2, 3, 6] := by
    simp [demoProg, Prog.sem, Instr.sem, look, Bin.fn]; norm_num
  have h2 : ∀ (w : Nat), w < 12288 → ∀ j : Nat, w ≠ 12288 * 2 ^ j := fun w hw j => by
    have := Nat.one_le_two_pow (n := j)
    omega
  apply C08_C10_session (n := 2)
  · simp [demoProg, Prog.Ok, Instr.Ok, Instr.sem, Bin.domVV]
  · simp [demoProg, Prog.cost, Instr.cost, tapeLimit]
  · rw [hs]
    intro t ht
    simp only [sampleTasks, List.mem_cons, List.not_mem_nil, or_false] at ht
    rcases ht with rfl | rfl
    · refine ⟨?_, ?_, ?_, ?_, ?_, ?_, h2 _ ?_⟩ <;>
        simp [Task.prog, Task.at, Task.words, Prog.Ok, Instr.Ok, Instr.sem, Bin.domVV, Prog.sem, Prog.hasConst,
          demoProg, Prog.cost, Instr.cost, tapeLimit]
    · refine ⟨?_, ?_, ?_, ?_, ?_, ?_, h2 _ ?_⟩ <;>
        simp [Task.prog, Task.at, Task.words, Prog.Ok, Instr.Ok, Instr.sem, Bin.domVV, Prog.sem, Prog.hasConst,
          demoProg, Prog.cost, Instr.cost, tapeLimit, Un.dom, Un.cost, look]

end Props
