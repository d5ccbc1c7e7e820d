import Verif.Proof.Rhs
import Verif.Proof.RhsZero
import Verif.Props.Imperative
import Verif.Props.LenientOde
import Verif.Props.Assign

/-!
# C78: right-hand sides of differential equations written as code

C26, C27 and C60 for right-hand sides that assign to the elements of the array `fy` and to local variables, copy elements,
and have loops and decisions.  `Stmt.sem` (Spec/Imperative.lean) says what the code means with reals, `rhsFn`
(Spec/Rhs.lean) what it is as a function of state and parameters; `Problem`, `SolvesAll`, `Gives` are those of C27.
-/

set_option linter.unusedSectionVars false

namespace Props
open Fz Spec

variable {W : Type} [Rep W ℝ] [LawfulRep W ℝ] {σ : Type}
variable {h : List (Call ℝ)} {c : Client W} {u : Var} {b : Var → ℝ}

/-- **C78**, one sensitivity right-hand side, initial values: `∂f/∂y · S` for the function `f` that the code computes. -/
theorem C78_sens_initial_partial (hr : Reach h c) (f : ℝ → List ℝ → List ℝ) (p : ℝ → Proc)
    (t : ℝ) (y : List ℝ) (hn : ∀ t, (p t).body.Clean y.length) (S : List (List ℝ)) (K : Nat) (hok : FairRhs p [] y.length y.length K t y S)
    (hroom : c.st.tape.head + K ≤ tapeLimit) {out out' : Nat → Nat → ℝ} {s' : St W}
    (hrun : setSensRhs (newCvsRhsYvar true y.length f (rhsY p)) t y S out c.st = .ok (out', s')) :
    IsSensRhs (rhsFn (p t) y.length) y [] (fun _ => none) S (vecs y.length y.length out') := by
  obtain ⟨g, val, adj, G⟩ := hr.good
  obtain ⟨p', hp⟩ := rests hn
  have hcap : cap = tapeLimit := rfl
  rw [(rest_eqY (hp t) (akin_self _) G.inv (sens_level hrun) (by have := hok.2.2.2.2; simp at this; omega) S out).1] at hrun
  rw [(hp t).rhsFn]
  replace hok := RestOf.fair hp hok
  replace hn := fun t => (hp t).plain
  obtain ⟨-, hS, h1, h2, h3⟩ := hok
  have hr : c.st.tape.head + (6 * (y ++ List.replicate y.length 0 ++ []).length +
      (p' t).body.cost (y ++ List.replicate y.length 0 ++ [])) ≤ tapeLimit := by
    simp only [List.length_append, List.length_replicate, List.length_nil] at *
    omega
  exact sens_line (line_steady G.inv (hn t) h1 h2 hr) (setSens_y (env := []) (ys := [])
    (P := fun _ => lineOf (p' t) (y ++ List.replicate y.length 0 ++ [])) G.inv G.okf (by simp) rfl
    (line_ok (hn t) h1) (by
      have := line_cost (x := y ++ List.replicate y.length 0 ++ []) (hn t)
      unfold Room
      rw [this]
      simpa using hr) hS (sens_sameY G.inv (hn t) h1 hr hrun)).1

/-- **C78**, one sensitivity right-hand side, parameters: `∂f/∂y · S + ∂f/∂q`.  `b` says whether the initial values are
varied too; then the sensitivities with respect to them come first. -/
theorem C78_sens_parameters_partial (hr : Reach h c) (f : ℝ → List ℝ → List ℝ) (p : ℝ → Proc)
    (t : ℝ) (y q : List ℝ) (hn : ∀ t, (p t).body.Clean y.length) (hq : q.length = 3) (b : Bool) (S : List (List ℝ)) (K : Nat)
    (hok : FairRhs p q y.length ((if b then y.length else 0) + 3) K t y S) (hroom : c.st.tape.head + K ≤ tapeLimit)
    {out out' : Nat → Nat → ℝ} {s' : St W}
    (hrun : setSensRhs (newCvsRhsPvar b S.length q f (rhsP p)) t y S out c.st = .ok (out', s')) :
    IsSensRhs (rhsFn (p t) y.length) y q
      (fun j => if j < (if b then y.length else 0) then none else some (j - if b then y.length else 0)) S
      (vecs S.length y.length out') := by
  obtain ⟨g, val, adj, G⟩ := hr.good
  obtain ⟨p', hp⟩ := rests hn
  have hcap : cap = tapeLimit := rfl
  have hb0 : ¬ (b = true ∧ S.length = y.length) := by
    rintro ⟨rfl, h⟩
    have := hok.2.1
    simp at this
    omega
  rw [(rest_eqP hb0 (hp t) (akin_self _) G.inv (sens_levelP hb0 hrun) (by have := hok.2.2.2.2; omega) S out).1] at hrun
  rw [(hp t).rhsFn]
  replace hok := RestOf.fair hp hok
  replace hn := fun t => (hp t).plain
  obtain ⟨-, hS, h1, h2, h3⟩ := hok
  have hr' : c.st.tape.head + (6 * (y ++ List.replicate y.length 0 ++ q).length +
      (p' t).body.cost (y ++ List.replicate y.length 0 ++ q)) ≤ tapeLimit := by
    simp only [List.length_append, List.length_replicate] at *
    omega
  have hb' : ¬ (b = true ∧ S.length = y.length) := by
    rintro ⟨rfl, h⟩
    simp at hS
    omega
  have := (setSens_p (env := []) (ys := []) (b := b)
    (P := fun _ => lineOf (p' t) (y ++ List.replicate y.length 0 ++ q)) G.inv G.okf (by simp) rfl
    (by rw [List.append_nil]; exact line_ok (hn t) h1) (by
      have := line_cost (x := y ++ List.replicate y.length 0 ++ q) (hn t)
      unfold Room
      rw [List.append_nil, this]
      exact hr') hb' rfl (sens_sameP hb' G.inv (hn t) h1 hr' hrun)).2.1
  have hsrc : sensSrc true (S.length - if b then S.length - y.length else S.length) =
      (fun j => if j < (if b then y.length else 0) then none else some (j - if b then y.length else 0)) := by
    funext j
    cases b
    · simp [sensSrc]
    · have : S.length - (S.length - y.length) = y.length := by
        simp at hS
        omega
      simp only [sensSrc, if_true, this]
      by_cases hj : j < y.length
      · rw [if_pos hj, if_neg (by simp [hj])]
      · rw [if_neg hj, if_pos ⟨trivial, by omega⟩]
  rw [hsrc] at this
  exact sens_line (line_steady G.inv (hn t) h1 h2 hr') this

/-- **C78**: the entries of the Jacobian, `∂f_i/∂y_j` at position `i + j n` (counted from 0). -/
theorem C78_jacobian_partial (hr : Reach h c) (f : ℝ → List ℝ → List ℝ) (p : ℝ → Proc)
    (t : ℝ) (y : List ℝ) (hn : ∀ t, (p t).body.Clean y.length) (b : Bool) (ns K : Nat) (hok : FairRhs p [] y.length 0 K t y [])
    (hroom : c.st.tape.head + K ≤ tapeLimit) {jac jac' : Nat → ℝ} {s' : St W}
    (hrun : calcJacYvar (newCvsRhsYvar b ns f (rhsY p)) t y jac c.st = .ok (jac', s')) :
    ∀ i < y.length, IsGradAt (rhsFn (p t) y.length i) y ((List.range y.length).map fun j => jac' (i + j * y.length)) := by
  obtain ⟨g, val, adj, G⟩ := hr.good
  obtain ⟨p', hp⟩ := rests hn
  have hcap : cap = tapeLimit := rfl
  rw [(rest_eqY (f := f) (hp t) (akin_self _) G.inv (jac_level hrun) (by have := hok.2.2.2.2; simp at this; omega) [] fun _ _ => 0).2.2
    b ns jac] at hrun
  rw [(hp t).rhsFn]
  replace hok := RestOf.fair hp hok
  replace hn := fun t => (hp t).plain
  obtain ⟨-, -, h1, h2, h3⟩ := hok
  have hr' : c.st.tape.head + (6 * (y ++ List.replicate y.length 0 ++ []).length +
      (p' t).body.cost (y ++ List.replicate y.length 0 ++ [])) ≤ tapeLimit := by
    simp only [List.length_append, List.length_replicate, List.length_nil] at *
    omega
  have hj := (calcJac_ok (env := []) (ys := []) (P := fun _ => lineOf (p' t) (y ++ List.replicate y.length 0 ++ []))
    G.inv G.okf (by simp) rfl (line_ok (hn t) h1) (by
      have := line_cost (x := y ++ List.replicate y.length 0 ++ []) (hn t)
      unfold Room
      rw [this]
      simpa using hr') (jac_sameY G.inv (hn t) h1 hr' hrun)).1
  intro i hi
  have hi' := hj i hi
  have := line_grad (q := []) (i := i) (D := (List.range y.length).map fun j => jac' (i + j * y.length))
    (line_steady G.inv (hn t) h1 h2 hr') (by simpa using hi')
  simpa using this

/-- **C78**, solutions, initial values: as `C27_initial`. -/
theorem C78_initial_partial (hr : Reach h c) {y0 : List Var} (hy : ∀ v ∈ y0, v ∈ existing c.st) {z : List ℝ}
    (hz : vals y0 c.st = .ok (z, c.st)) (sv : Solver ℝ σ) (t0 : ℝ) (ts : List ℝ) (f : ℝ → List ℝ → List ℝ)
    (p : ℝ → Proc) (hn : ∀ t, (p t).body.Clean y0.length) (K : Nat)
    (ha : AsksAll (rhsInit f p) sv (FairRhs p [] y0.length y0.length K) ts (sv.init t0 z (unitVectors y0.length)))
    (room : c.st.tape.head + ts.length * (y0.length * (6 + 3 * y0.length)) + K ≤ tapeLimit)
    (hu : u ∈ existing c.st) (hb : Rates c.st u b) {yt : List (List Var)} {s' : St W}
    (hrun : cvodesSolY0 sv t0 y0 ts f (rhsY p) c.st = .ok (yt, s')) :
    ∃ sol, SolvesAll (rhsInit f p) sv ts (sv.init t0 z (unitVectors y0.length)) sol ∧
      yt.length = ts.length ∧ sol.length = ts.length ∧
      ∀ k (h1 : k < yt.length) (h2 : k < sol.length), yt[k].length = y0.length ∧ ∀ i (hi : i < yt[k].length),
        i < sol[k].1.length ∧ Gives c.st s' yt[k][i] (sol[k].1.getD i 0) u (sensSum sol[k].2 y0 b i) := by
  unfold cvodesSolY0 at hrun
  rw [bind_ok hz, sensInit_y] at hrun
  obtain ⟨⟨yt', y1⟩, s1, e1, k1⟩ := Fz.bind_inv hrun
  cases k1
  obtain ⟨sol, h1, -, h2⟩ := sol_gives hr hy hu hb rfl (sensOk_cleanY hn) rfl room ha e1
  exact ⟨sol, h1, h2⟩

/-- **C78**, solutions, parameters: as `C27_parameters_partial`. -/
theorem C78_parameters_partial (hr : Reach h c) {q : List Var} (hq : ∀ v ∈ q, v ∈ existing c.st) {z : List ℝ}
    (hz : vals q c.st = .ok (z, c.st)) (sv : Solver ℝ σ) (t0 : ℝ) (y : List ℝ) (ts : List ℝ)
    (f : ℝ → List ℝ → List ℝ) (p : ℝ → Proc) (hn : ∀ t, (p t).body.Clean y.length) (K : Nat)
    (ha : AsksAll (rhsParam f p z) sv (FairRhs p z y.length q.length K) ts
      (sv.init t0 y (List.replicate q.length (List.replicate y.length 0))))
    (room : c.st.tape.head + ts.length * (y.length * (6 + 3 * q.length)) + K ≤ tapeLimit)
    (hu : u ∈ existing c.st) (hb : Rates c.st u b) {yt : List (List Var)} {y1 : List ℝ} {s' : St W}
    (hrun : cvodesSolPar sv t0 y ts q f (rhsP p) c.st = .ok ((yt, y1), s')) :
    ∃ sol, SolvesAll (rhsParam f p z) sv ts
        (sv.init t0 y (List.replicate q.length (List.replicate y.length 0))) sol ∧
      yt.length = ts.length ∧ sol.length = ts.length ∧
      ∀ k (h1 : k < yt.length) (h2 : k < sol.length), yt[k].length = y.length ∧ ∀ i (hi : i < yt[k].length),
        i < sol[k].1.length ∧ Gives c.st s' yt[k][i] (sol[k].1.getD i 0) u (sensSum sol[k].2 q b i) := by
  have hl : q.length = z.length := by
    obtain ⟨g, val, adj, G⟩ := hr.good
    rw [vals_eq G.inv (fun v hv => (mem_existing G.inv).mp (hq v hv)) hz]
    simp
  unfold cvodesSolPar at hrun
  rw [bind_ok hz, sensInit_p] at hrun
  rw [hl] at ha hrun ⊢
  obtain ⟨sol, h1, -, h2⟩ := sol_gives hr hq hu hb rfl (sensOk_cleanP hn) hl.symm room ha hrun
  exact ⟨sol, h1, h2⟩

/-- **C78**: the solutions and sensitivities that the solver returns to correct answers are unique. -/
theorem C78_unique (f : ℝ → List ℝ → List ℝ) (p : ℝ → Proc) {pr : Problem}
    (hp : pr = rhsInit f p ∨ ∃ q, pr = rhsParam f p q) (sv : Solver ℝ σ) (ts : List ℝ) :
    ∀ {mem : σ} {sol sol' : List (List ℝ × List (List ℝ))},
      SolvesAll pr sv ts mem sol → SolvesAll pr sv ts mem sol' → sol = sol' := by
  have hpr : ∀ t y S o o', pr.sens t y S o → pr.sens t y S o' → o = o' := by
    rcases hp with rfl | ⟨q, rfl⟩
    · simp only [rhsInit]
      exact fun _ _ _ _ _ => isSens_unique
    · simp only [rhsParam]
      exact fun _ _ _ _ _ => isSens_unique
  induction ts with
  | nil => intro mem sol sol' h h'; cases h; cases h'; rfl
  | cons t ts ih =>
    intro mem sol sol' h h'
    cases h with | cons h1 h2 =>
    cases h' with | cons h3 h4 =>
    have := solves_unique hpr _ h1 h3
    cases this
    rw [ih h2 h4]

/-- **C78**, without checks of array shapes, initial values: after every history of correct calls, the call completes for
any number of output times if the solver succeeds (compare `C60_initial`). -/
theorem C78_unchecked_initial_partial (h : OrderlyS c) {y0 : List Var} (hy : ∀ v ∈ y0, v ∈ existing c.st) {z : List ℝ}
    (hz : vals y0 c.st = .ok (z, c.st)) (hn : 0 < y0.length) (sv : Solver ℝ σ) (t0 : ℝ) (ts : List ℝ)
    (f : ℝ → List ℝ → List ℝ) (p : ℝ → Proc) (hp : ∀ t, (p t).body.Clean y0.length ∧ (p t).body.Mild) (K : Nat)
    (hl : c.marks.length < 10)
    (ha : AsksAll (rhsInit f p) sv (CallableRhs p [] y0.length y0.length K c.st.tape.head ts.length) ts
      (sv.init t0 z (unitVectors y0.length)))
    (hg : Succeeds (rhsInit f p) sv y0.length y0.length ts (sv.init t0 z (unitVectors y0.length)))
    (room : c.st.tape.head + ts.length * (y0.length * (6 + 3 * y0.length)) + K ≤ tapeLimit)
    (hu : u ∈ existing c.st) (hb : RatesL c.st u b) :
    ∃ yt s', (∀ J : Junk W ℝ, cvodesSolY0L J sv t0 y0 ts f (rhsY p) c.st = .ok (yt, s')) ∧
      ∃ sol, SolvesAll (rhsInit f p) sv ts (sv.init t0 z (unitVectors y0.length)) sol ∧
        yt.length = ts.length ∧ sol.length = ts.length ∧
        ∀ k (h1 : k < yt.length) (h2 : k < sol.length), yt[k].length = y0.length ∧ sol[k].1.length = y0.length ∧
          ∀ i (hi : i < yt[k].length), GivesL c.st s' yt[k][i] (sol[k].1.getD i 0) u (sensSum sol[k].2 y0 b i) := by
  obtain ⟨yt, y1, s', e, sol, h1, -, h2⟩ := solL_gives (ode := newCvsRhsYvar true y0.length f (rhsY p)) (y0 := z)
    h hy hu hb rfl rfl (by omega) (fun k0 k hk => by
      have hm : k * (y0.length * (6 + 3 * y0.length)) ≤ ts.length * (y0.length * (6 + 3 * y0.length)) :=
        Nat.mul_le_mul_right _ (by omega)
      have hcap : cap = tapeLimit := rfl
      exact sensL_cleanY (K := K) hl hk rfl hn (by omega) (fun t => (hp t).1) (fun t => (hp t).2)) ha hg
  refine ⟨yt, s', fun J => ?_, sol, h1, h2⟩
  unfold cvodesSolY0L
  rw [bind_ok hz, sensInit_y, bind_ok (e J)]
  rfl

/-- **C78**, without checks of array shapes, three parameters (for another number see `C27_parameters_refuted`). -/
theorem C78_unchecked_parameters_partial (h : OrderlyS c) {q : List Var} (hq : ∀ v ∈ q, v ∈ existing c.st) {z : List ℝ}
    (hz : vals q c.st = .ok (z, c.st)) (h3 : q.length = 3) (sv : Solver ℝ σ) (t0 : ℝ) (y ts : List ℝ)
    (f : ℝ → List ℝ → List ℝ) (p : ℝ → Proc) (hp : ∀ t, (p t).body.Clean y.length ∧ (p t).body.Mild) (K : Nat)
    (hl : c.marks.length < 10)
    (ha : AsksAll (rhsParam f p z) sv (CallableRhs p z y.length q.length K c.st.tape.head ts.length) ts
      (sv.init t0 y (List.replicate q.length (List.replicate y.length 0))))
    (hg : Succeeds (rhsParam f p z) sv y.length q.length ts
      (sv.init t0 y (List.replicate q.length (List.replicate y.length 0))))
    (room : c.st.tape.head + ts.length * (y.length * (6 + 3 * q.length)) + K ≤ tapeLimit)
    (hu : u ∈ existing c.st) (hb : RatesL c.st u b) :
    ∃ yt y1 s', (∀ J : Junk W ℝ, cvodesSolParL J sv t0 y ts q f (rhsP p) c.st = .ok ((yt, y1), s')) ∧
      ∃ sol, SolvesAll (rhsParam f p z) sv ts (sv.init t0 y (List.replicate q.length (List.replicate y.length 0))) sol ∧
        y1 = (sol.map Prod.fst).getLastD y ∧ yt.length = ts.length ∧ sol.length = ts.length ∧
        ∀ k (h1 : k < yt.length) (h2 : k < sol.length), yt[k].length = y.length ∧ sol[k].1.length = y.length ∧
          ∀ i (hi : i < yt[k].length), GivesL c.st s' yt[k][i] (sol[k].1.getD i 0) u (sensSum sol[k].2 q b i) := by
  have hlz : q.length = z.length := by
    obtain ⟨d, g, val, adj, S⟩ := orderlyS_shadow commutes_real h
    have hh : ∀ v ∈ q, g.Has v := fun v hv => (mem_existing S.sound.good.inv).mp (by rw [← S.alike.existing]; exact hq v hv)
    obtain ⟨s2, e2, -⟩ := blind_vals _ _ _ _ _ S.alike (S.sound.good.inv.varVals hh)
    rw [hz] at e2
    cases e2
    simp
  obtain ⟨yt, y1, s', e, sol, h1⟩ := solL_gives (ode := newCvsRhsPvar false q.length z f (rhsP p)) (y0 := y)
    (pr := rhsParam f p z) h hq hu hb rfl rfl (n := y.length) (ts := ts) (by omega) (fun k0 k hk => by
      have hm : k * (y.length * (6 + 3 * q.length)) ≤ ts.length * (y.length * (6 + 3 * q.length)) :=
        Nat.mul_le_mul_right _ (by omega)
      have hcap : cap = tapeLimit := rfl
      rw [hlz] at h3 hm room ⊢
      exact sensL_cleanP (K := K) h3 hl hk rfl (by omega) (fun t => (hp t).1) (fun t => (hp t).2)) ha hg
  refine ⟨yt, y1, s', fun J => ?_, sol, h1⟩
  unfold cvodesSolParL
  rw [bind_ok hz, sensInit_p]
  exact e J

/-- **C78** completes, from the start of the program with one output time, for right-hand sides that make no new
constants, if the solver succeeds. -/
theorem C78_completes_partial (z : List ℝ) (sv : Solver ℝ σ) (t0 t : ℝ) (f : ℝ → List ℝ → List ℝ)
    (p : ℝ → Proc) (K : Nat) (hc : ∀ t, (p t).body.Clean z.length ∧ (p t).body.NoConst)
    (ha : Asks (rhsInit f p) (CallableRhs p [] z.length z.length K (1 + 6 * z.length) 1) (sv.step (sv.init t0 z (unitVectors z.length)) t))
    (hgood : ∀ r, Solves (rhsInit f p) (sv.step (sv.init t0 z (unitVectors z.length)) t) r → r.1 = 0 ∧
      r.2.1.length = z.length ∧ r.2.2.1.length = z.length ∧ ∀ v ∈ r.2.2.1, v.length = z.length)
    (h0 : 0 < z.length) (room : 1 + 6 * z.length + z.length * (6 + 3 * z.length) + K ≤ tapeLimit) :
    ∃ y0 s1 yt s2, (newVars z : M W (List Var)) St.init = .ok (y0, s1) ∧ y0.length = z.length ∧
      cvodesSolY0 sv t0 y0 [t] f (rhsY p) s1 = .ok (yt, s2) := by
  have hcap : cap = tapeLimit := rfl
  have hret : ∀ l : List ℝ, l.length = z.length → (List.range z.length).map (look l) = l := fun l h => by
    apply List.ext_getElem (by simp [h])
    intro k h1 h2
    simp [look, List.getD_eq_getElem?_getD, h2]
  obtain ⟨y0, outs, s1, s2, e1, e2, g', val', adj', D', ε', r⟩ := ranC (W := W) (x := z) (ys := [])
    (p := .ret (List.range z.length)) (inv_init (fun _ => 0) (fun _ => 0)) (env := []) (by simp) rfl
    (by simp [Prog.Ok]) (by
      simp only [Room, Prog.cost, St.init, Tape.init]
      omega)
  have hyl : y0.length = z.length := newVars_len _ e1
  cases e2
  have hy0 : (List.range z.length).map (lookV (y0 ++ [])) = y0 := by
    apply List.ext_getElem (by simp [hyl])
    intro k h1 h2
    simp [lookV, List.getD_eq_getElem?_getD, h2]
  have hv := r.vals r.sim.inv
  rw [hy0] at r hv
  have hf := r.fine (fine_init _ _ _ _)
  have hleaf := r.leafs (n := 0) (fine_init _ _ _ _)
  have hh := r.head
  have hlev := r.keep.level
  simp only [Prog.cost, St.init, Tape.init, List.length_map, coords_length] at hh hlev
  have hhas : ∀ v ∈ y0, g'.Has v := fun v hv => by
    obtain ⟨k, hk, rfl⟩ := List.getElem_of_mem hv
    exact (r.xs k hk).1
  simp only [Prog.sem, List.append_nil, hret z rfl] at hv
  have ft : Fine s1 g' val' adj' (2 * z.length) False := ⟨r.sim.inv, hf, fun k hk _ => hleaf k hk⟩
  obtain ⟨yt, y1, s3, e3⟩ := solLoop_total (sv := sv) (ops := y0) (n := z.length)
    (ode := newCvsRhsYvar true z.length f (rhsY p)) (pr := rhsInit f p) (ok := CallableRhs p [] z.length z.length K (1 + 6 * z.length) 1) rfl
    (by
      have hb : s1.tape.head = 1 + 6 * z.length := by omega
      rw [← hb]
      exact @sensTotal_cleanY W _ _ z.length p f K s1.tape.head s1.level (by rw [hlev]; simp [maxNestedStack]) (by rw [hh]; omega) (fun t => (hc t).1) (fun t => (hc t).2) h0) hyl.symm t
    (sv.init t0 z (unitVectors z.length)) z ft hhas (by rw [hh, hyl]; omega) ha (by rw [hyl]; exact hgood)
  refine ⟨y0, s1, yt, s3, e1, hyl, ?_⟩
  unfold cvodesSolY0
  rw [bind_ok hv, sensInit_y, hyl]
  rw [bind_ok e3]
  rfl

/-- **C78** completes for three parameters, from the start of the program with one output time, for right-hand sides
that make no new constants, if the solver succeeds. -/
theorem C78_completes_parameters_partial (z : List ℝ) (hz : z.length = 3) (sv : Solver ℝ σ) (t0 t : ℝ) (y : List ℝ)
    (f : ℝ → List ℝ → List ℝ) (p : ℝ → Proc) (K : Nat) (hc : ∀ t, (p t).body.Clean y.length ∧ (p t).body.NoConst)
    (ha : Asks (rhsParam f p z) (CallableRhs p z y.length z.length K (1 + 6 * z.length) 1)
      (sv.step (sv.init t0 y (List.replicate z.length (List.replicate y.length 0))) t))
    (hgood : ∀ r, Solves (rhsParam f p z)
      (sv.step (sv.init t0 y (List.replicate z.length (List.replicate y.length 0))) t) r → r.1 = 0 ∧
      r.2.1.length = y.length ∧ r.2.2.1.length = z.length ∧ ∀ v ∈ r.2.2.1, v.length = y.length)
    (room : 1 + 6 * z.length + y.length * (6 + 3 * z.length) + K ≤ tapeLimit) :
    ∃ q s1 yt y1 s2, (newVars z : M W (List Var)) St.init = .ok (q, s1) ∧ q.length = z.length ∧
      cvodesSolPar sv t0 y [t] q f (rhsP p) s1 = .ok ((yt, y1), s2) := by
  have hcap : cap = tapeLimit := rfl
  have hret : ∀ l : List ℝ, l.length = z.length → (List.range z.length).map (look l) = l := fun l h => by
    apply List.ext_getElem (by simp [h])
    intro k h1 h2
    simp [look, List.getD_eq_getElem?_getD, h2]
  obtain ⟨y0, outs, s1, s2, e1, e2, g', val', adj', D', ε', r⟩ := ranC (W := W) (x := z) (ys := [])
    (p := .ret (List.range z.length)) (inv_init (fun _ => 0) (fun _ => 0)) (env := []) (by simp) rfl
    (by simp [Prog.Ok]) (by
      simp only [Room, Prog.cost, St.init, Tape.init]
      omega)
  have hyl : y0.length = z.length := newVars_len _ e1
  cases e2
  have hy0 : (List.range z.length).map (lookV (y0 ++ [])) = y0 := by
    apply List.ext_getElem (by simp [hyl])
    intro k h1 h2
    simp [lookV, List.getD_eq_getElem?_getD, h2]
  have hv := r.vals r.sim.inv
  rw [hy0] at r hv
  have hf := r.fine (fine_init _ _ _ _)
  have hleaf := r.leafs (n := 0) (fine_init _ _ _ _)
  have hh := r.head
  have hlev := r.keep.level
  simp only [Prog.cost, St.init, Tape.init, List.length_map, coords_length] at hh hlev
  have hhas : ∀ v ∈ y0, g'.Has v := fun v hv => by
    obtain ⟨k, hk, rfl⟩ := List.getElem_of_mem hv
    exact (r.xs k hk).1
  simp only [Prog.sem, List.append_nil, hret z rfl] at hv
  have ft : Fine s1 g' val' adj' (2 * y.length + 3) False := ⟨r.sim.inv, hf, fun k hk _ => hleaf k hk⟩
  obtain ⟨yt, y1, s3, e3⟩ := solLoop_total (sv := sv) (ops := y0) (n := y.length)
    (ode := newCvsRhsPvar false z.length z f (rhsP p)) (pr := rhsParam f p z) (ok := CallableRhs p z y.length z.length K (1 + 6 * z.length) 1) rfl
    (by
      have hb : s1.tape.head = 1 + 6 * z.length := by omega
      rw [← hb]
      exact @sensTotal_cleanP W _ _ y.length p f z K s1.tape.head s1.level hz (by rw [hlev]; simp [maxNestedStack]) (by rw [hh]; omega) (fun t => (hc t).1) (fun t => (hc t).2)) hyl.symm t
    (sv.init t0 y (List.replicate z.length (List.replicate y.length 0))) y ft hhas (by rw [hh, hyl]; omega) ha
    (by rw [hyl]; exact hgood)
  refine ⟨y0, s1, yt, y1, s3, e1, hyl, ?_⟩
  unfold cvodesSolPar
  rw [bind_ok hv, sensInit_p, hyl]
  exact e3
/-! ## a real assigned to a variable -/

/-- `t = var(0.0); f(1) = t; f(1) = 2.0; f(1) = t * y(1)` -/
noncomputable def reused (_ : ℝ) : Proc :=
  ⟨.seq (.declare (.const 0)) (.seq (.copy 1 2) (.seq (.real 1 2) (.call [1] (.bin .mul 2 0)))), [1]⟩

/-- `t = var(2.0); f(1) = t; f(1) = t * y(1)` -/
noncomputable def renewed (_ : ℝ) : Proc :=
  ⟨.seq (.declare (.const 2)) (.seq (.copy 1 2) (.call [1] (.bin .mul 2 0))), [1]⟩

theorem reused_run {s : St W} {g : Graph ℝ} {val adj : Nat → ℝ} (hi : Inv s g val adj) (y f : Var) (u : ℝ) :
    ((reused u).run [y, f] : M W (List Var)) s = (renewed u).run [y, f] s := by
  have hv := hi.vhead
  have := declare_assign hi.ok (by omega) hi.vcap [(2 : ℝ)] (fun vs => match vs with
    | [t] => (do let r ← Bin.mul.apiVV t y; pure [r] : M W (List Var))
    | _ => fail .oob)
  have e1 : ((reused u).run [y, f] : M W (List Var)) = (do
      let vs ← newVar1d (R := ℝ) [(2 : ℝ)].length
      Var.assign1d vs [(2 : ℝ)]
      match vs with
      | [t] => (do let r ← Bin.mul.apiVV t y; pure [r] : M W (List Var))
      | _ => fail .oob) := by
    show _ = (do let vs ← (do let v ← newVar0 (R := ℝ); let vs ← (pure [] : M W (List Var)); pure (v :: vs))
                 Var.assign1d vs [(2 : ℝ)]; _ : M W (List Var))
    have h0 : (newVar0 : M W Var) = newVar (0 : ℝ) := rfl
    simp only [reused, Proc.run, Stmt.run, Instr.run, Spec.one, bind_assoc, pure_bind, Var.assign1d, h0]
    rfl
  have e2 : ((renewed u).run [y, f] : M W (List Var)) = (newVars [(2 : ℝ)] >>= fun vs => match vs with
      | [t] => (do let r ← Bin.mul.apiVV t y; pure [r] : M W (List Var))
      | _ => fail .oob) := by
    unfold newVars
    simp only [renewed, Proc.run, Stmt.run, Instr.run, Spec.one, List.mapM_cons, List.mapM_nil, bind_assoc, pure_bind]
    rfl
  rw [e1, e2]
  exact this

theorem reused_sem (x z : ℝ) (u : ℝ) : (reused u).sem [x, z] = [0] := by
  simp [reused, Proc.sem, Stmt.sem, Instr.sem, move, writeAt, look, Bin.fn]

theorem renewed_sem (x z : ℝ) (u : ℝ) : (renewed u).sem [x, z] = [2 * x] := by
  simp [renewed, Proc.sem, Stmt.sem, Instr.sem, move, writeAt, look, Bin.fn]

theorem reused_fair (x u : ℝ) : FairRhs reused [] 1 1 30 u [x] [[1]] := by
  refine ⟨rfl, rfl, ⟨?_, ?_⟩, ?_, ?_⟩ <;>
    simp [reused, Stmt.Ok, Stmt.sem, Stmt.Stable, Stmt.cost, Instr.Ok, Instr.sem, Instr.cost, Instr.arity, move, writeAt,
      look, Bin.domVV, Bin.fn]

theorem renewed_ok (x u : ℝ) : (renewed u).Ok [x, 0] ∧ (renewed u).body.Stable [x, 0] ∧ (renewed u).body.NoReal ∧
    (renewed u).body.cost [x, 0] = 14 := by
  refine ⟨⟨?_, ?_⟩, ?_, ?_, ?_⟩ <;>
    simp [renewed, Stmt.Ok, Stmt.sem, Stmt.Stable, Stmt.cost, Stmt.NoReal, Instr.Ok, Instr.sem, Instr.cost, Instr.arity,
      move, writeAt, look, Bin.domVV, Bin.fn]

/-- **C78** fails for code that assigns reals to variables: `t = var(0.0); f(1) = t; f(1) = 2.0; f(1) = t * y(1)` computes
zero for reals, and its sensitivity right-hand side is zero; with variables it is 2. -/
theorem C78_refuted (f : ℝ → List ℝ → List ℝ) (u x : ℝ) : FairRhs reused [] 1 1 30 u [x] [[1]] ∧
    IsSensRhs (rhsFn (reused u) 1) [x] [] (fun _ => none) [[1]] [[0]] ∧
    ∃ (out : Nat → Nat → ℝ) (s' : St W), setSensRhs (newCvsRhsYvar true 1 f (rhsY reused)) u [x] [[1]] (fun _ _ => 0)
      St.init = .ok (out, s') ∧ vecs 1 1 out = [[2]] := by
  have one_sens : ∀ (F : Nat → List ℝ → ℝ) (d : ℝ), HasDerivAt (fun t => F 0 [t]) d x →
      IsSensRhs F [x] [] (fun _ => none) [[1]] [[d]] := by
    intro F d hd
    refine ⟨rfl, fun j hj => ?_⟩
    obtain rfl : j = 0 := by simpa using hj
    refine ⟨rfl, fun i hi => ?_⟩
    obtain rfl : i = 0 := by simpa using hi
    exact ⟨[d], [], rfl, isGradAt_one hd, by simp⟩
  refine ⟨reused_fair x u, one_sens _ _ ?_, ?_⟩
  · have : (fun t => rhsFn (reused u) 1 0 [t]) = fun _ => 0 := by
      funext t
      have := reused_sem t 0 u
      simp [rhsFn, this]
    rw [this]
    exact hasDerivAt_const _ _
  · obtain ⟨h1, h2, h3, h4⟩ := renewed_ok x u
    have hi := inv_init (W := W) (fun _ => (0 : ℝ)) (fun _ => 0)
    have hb := beginNested_ok (St.init : St W) (by simp [St.init, maxNestedStack])
    have hr : (St.init : St W).tape.head + (6 * ([x] ++ List.replicate [x].length 0 ++ []).length +
        (renewed u).body.cost ([x] ++ List.replicate [x].length 0 ++ [])) ≤ tapeLimit := by
      show 1 + (12 + (renewed u).body.cost [x, 0]) ≤ tapeLimit
      rw [h4]
      simp [tapeLimit]
    -- the two codes run alike
    obtain ⟨xv, s1, e1, -⟩ := line_run (W := W) (x := [x, 0]) hi.begun h3 h1 hr
    obtain ⟨xv', s1', e1', -, g1, val1, adj1, D1, ε1, sim, -⟩ := inputs_tracks (x := [x, 0]) (W := W) (caps := []) hi.begun
      (by simp) (by show 1 + _ ≤ cap; simp [cap])
    rw [e1] at e1'
    cases e1'
    have hsame := (same_y (y := [x]) (F := rhsY reused) (G := rhsY renewed) (f := f) (u := u) hb e1 (fun yv fv h => by
      obtain ⟨a, b, rfl⟩ : ∃ a b, xv = [a, b] := List.length_eq_two.mp (newVars_len _ e1)
      show ((reused u).run (yv ++ fv) : M W (List Var)) s1 = (renewed u).run (yv ++ fv) s1
      rw [← h]
      exact reused_run sim.inv a b u) [[1]] (fun _ _ => 0)).1
    obtain ⟨out', t, val', a, e, -⟩ := setSens_y_total (W := W) (ys := []) (env := []) (u := u) (y := [x])
      (P := fun _ => lineOf (renewed u) [x, 0]) (fine_init _ _ (fun _ => 0) (fun _ => 0)) (by simp [St.init, maxNestedStack]) (by simp) rfl f
      (line_ok h3 h1) (by
        have := line_cost (x := [x, 0]) h3
        rw [h4] at this
        show 1 + (12 + (lineOf (renewed u) [x, 0]).cost [x, 0]) ≤ tapeLimit
        rw [this]
        simp [tapeLimit]) (by
        show ((lineOf (renewed u) [x, 0]).sem [x, 0]).length = 1
        rw [line_len h3]
        rfl) ⟨by simp [St.init, Tape.init], fun j => by
          have := line_cost (x := [x, 0]) h3
          rw [h4] at this
          show 1 + (6 * (2 * 1) + (lineOf (renewed u) [x, 0]).cost [x, 0]) ≠ _
          rw [this]
          have := Nat.one_le_two_pow (n := j)
          omega⟩ (S := [[1]]) rfl (by simp) (fun _ _ => 0)
    have e' := (sens_eqY (P := renewed) (f := f) (y := [x]) hi ⟨_, hb⟩ h3 h1 hr [[1]] (fun _ _ => 0)).trans e
    refine ⟨out', t, hsame.trans e', ?_⟩
    have := C78_sens_initial_partial (W := W) (h := []) (c := Client.init) ⟨by simp, rfl⟩ f renewed
      u [x] (fun t => .inl (renewed_ok x t).2.2.1) [[1]] 30 ⟨rfl, rfl, h1, h2, by
        show 6 * (2 * 1 + 0) + (renewed u).body.cost [x, 0] ≤ 30
        omega⟩ (by show 1 + 30 ≤ tapeLimit; simp [tapeLimit]) e'
    refine isSens_unique this (one_sens _ _ ?_)
    have : (fun t => rhsFn (renewed u) 1 0 [t]) = fun t => 2 * t := by
      funext t
      have := renewed_sem t 0 u
      simp [rhsFn, this]
    show HasDerivAt (fun t => rhsFn (renewed u) 1 0 [t]) 2 x
    rw [this]
    simpa using (hasDerivAt_id x).const_mul 2

/-! The hypotheses are met: `f(1) = y(1); f(1) = f(1) * y(1)`, with checks of array shapes, for one output time and the
history `demo`; `f(1) = y(1); f(1) = f(1) * q(k)` for `k` = 1, 2, 3, without checks, for three output times. -/

/-- `f(1) = y(1); f(1) = f(1) * y(1)` -/
noncomputable def copyTimes (_ : ℝ) : Proc := ⟨.seq (.copy 1 0) (.call [1] (.bin .mul 1 0)), [1]⟩

theorem copyTimes_callable (u x : ℝ) {S : List (List ℝ)} (hS : S.length = 1) (hS' : ∀ v ∈ S, v.length = 1) {hd m : Nat}
    (hd' : hd + 9 * m ≤ 12000) : CallableRhs copyTimes [] 1 1 30 hd m u [x] S := by
  refine ⟨⟨rfl, hS, ⟨?_, ?_⟩, ?_, ?_⟩, hS', rfl, fun k hk j => ?_⟩
  · simp [copyTimes, Stmt.Ok, Stmt.sem, Instr.Ok, Instr.arity, move, Bin.domVV]
  · simp [copyTimes, Stmt.sem, Instr.sem, move, writeAt]
  · simp [copyTimes, Stmt.Stable]
  · simp [copyTimes, Stmt.cost, Instr.cost]
  · have := Nat.one_le_two_pow (n := j)
    simp [copyTimes, Stmt.cost, Instr.cost]
    omega

theorem copyTimes_asks (x : ℝ) {hd : Nat} (hd' : hd ≤ 1000) :
    Asks (rhsInit (fun _ y => y.map fun a => a * a) copyTimes) (CallableRhs copyTimes [] 1 1 30 hd 1)
      (euler.step (euler.init 0 [x] (unitVectors 1)) 1) ∧
    ∀ r, Solves (rhsInit (fun _ y => y.map fun a => a * a) copyTimes) (euler.step (euler.init 0 [x] (unitVectors 1)) 1) r →
      r.1 = 0 ∧ r.2.1.length = 1 ∧ r.2.2.1.length = 1 ∧ ∀ v ∈ r.2.2.1, v.length = 1 := by
  refine ⟨⟨copyTimes_callable 0 x (by simp [euler, unitVectors]) (by simp [euler, unitVectors]) (by omega), fun _ _ => trivial⟩,
    fun r h => ?_⟩
  cases h with | rhs h =>
  cases h with | sens h1 h2 =>
  cases h2
  obtain ⟨a1, a2⟩ := h1
  rename_i o
  obtain ⟨x, rfl⟩ : ∃ x, o = [x] := List.length_eq_one_iff.mp a1
  have := (a2 0 (by simp [euler, unitVectors])).1
  simp [euler] at this
  simp [euler, unitVectors, rhsInit, this]

/-- of `C78_completes_partial` -/
example : ∃ y0 s1 yt s2, (newVars [3] : M W (List Var)) St.init = .ok (y0, s1) ∧ y0.length = 1 ∧
    cvodesSolY0 euler 0 y0 [1] (fun _ y => y.map fun a => a * a) (rhsY copyTimes) s1 = .ok (yt, s2) :=
  C78_completes_partial (W := W) [3] euler 0 1 (fun _ y => y.map fun a => a * a) copyTimes 30
    (fun _ => ⟨.inl (by simp [copyTimes, Stmt.NoReal]), by simp [copyTimes, Stmt.NoConst]⟩) (copyTimes_asks 3 (by simp)).1 (copyTimes_asks 3 (hd := 0) (by simp)).2
    (by simp) (by simp [tapeLimit])

/-- of `C78_initial_partial`: `y' = y²`, one step of the Euler method, the initial value being the second variable of `demo` -/
example : ∃ (c : Client ℝ) (yt : List (List Var)) (s' : St ℝ), Reach demo c ∧ (∀ v ∈ [⟨2⟩], v ∈ existing c.st) ∧
    vals [⟨2⟩] c.st = .ok ([3], c.st) ∧
    AsksAll (rhsInit (fun _ y => y.map fun a => a * a) copyTimes) euler (FairRhs copyTimes [] 1 1 30) [1]
      (euler.init 0 [3] (unitVectors 1)) ∧
    c.st.tape.head + 1 * (1 * (6 + 3 * 1)) + 30 ≤ tapeLimit ∧ ⟨1⟩ ∈ existing c.st ∧ Rates c.st ⟨1⟩ demoB ∧
    cvodesSolY0 euler 0 [⟨2⟩] [1] (fun _ y => y.map fun a => a * a) (rhsY copyTimes) c.st = .ok (yt, s') := by
  obtain ⟨c, hr, hv, ha, hh, hl, ⟨v, he⟩, g, val, adj, hf, hhas⟩ := demo_reach (W := ℝ)
  obtain ⟨c', hr', -, hex, h1, h2, h3, hb⟩ := demo_rates (W := ℝ)
  obtain rfl : c = c' := by
    have := hr.2.symm.trans hr'.2
    cases this; rfl
  have hops : ∀ v ∈ [(⟨2⟩ : Var)], g.Has v := fun v hv => hhas v (by rw [he]; simp at hv; simp [hv])
  have hz : vals [⟨2⟩] c.st = .ok ([3], c.st) := by
    rw [hf.inv.varVals hops]
    have := vals_eq hf.inv hhas hv
    rw [he] at this
    simp at this
    simp [this.2.1]
  have hq := copyTimes_asks 3 (hd := c.st.tape.head) (by rw [hh]; simp)
  obtain ⟨yt, y1, s', e⟩ := solLoop_total (W := ℝ) (n := 1) (ops := [⟨2⟩]) rfl
    (@sensTotal_rhsY ℝ _ _ (fun _ y => y.map fun a => a * a) copyTimes 1 30 c.st.tape.head c.st.level
      (by rw [hl]; simp [maxNestedStack]) (by rw [hh]; simp [cap]) (by simp [copyTimes, Stmt.NoReal])
      (by simp [copyTimes, Stmt.NoConst]) (by simp))
    euler rfl 1 (euler.init 0 [3] (unitVectors 1)) [3] (hf.weak (Or.inr trivial) fun _ => trivial) hops
    (by rw [hh]; simp [cap]) hq.1 hq.2
  refine ⟨c, yt, s', hr, ?_, hz, ⟨⟨hq.1.1.1, fun _ _ => trivial⟩, fun _ _ _ _ => trivial⟩, ?_, ?_, hb, ?_⟩
  · simp [hex]
  · rw [hh]; simp [tapeLimit]
  · simp [hex]
  · unfold cvodesSolY0
    rw [bind_ok hz]
    exact bind_ok e

/-- of `C78_sens_initial_partial`: the first question of that solver -/
example : ∃ (out : Nat → Nat → ℝ) (s' : St W), FairRhs copyTimes [] 1 1 30 0 [3] [[1]] ∧
    setSensRhs (newCvsRhsYvar true 1 (fun _ y => y) (rhsY copyTimes)) 0 [3] [[1]] (fun _ _ => 0) (Client.init : Client W).st =
      .ok (out, s') := by
  obtain ⟨out, t, -, -, e, -⟩ := @sensTotal_rhsY W _ _ (fun _ y => y) copyTimes 1 30 1 0
    (by simp [maxNestedStack]) (by simp [cap]) (by simp [copyTimes, Stmt.NoReal])
    (by simp [copyTimes, Stmt.NoConst]) (by simp) _ _ _ _ 0 [3] [[1]] (fun _ _ => 0)
    (fine_init _ _ (fun _ => 0) (fun _ => 0)) rfl rfl (copyTimes_callable 0 3 rfl (by simp) (by simp))
  exact ⟨out, t, (copyTimes_callable 0 3 (hd := 0) (m := 0) rfl (by simp) (by simp)).1, e⟩

/-- `do i = 1, 2; f(i) = 0; end do; f(1) = f(1) + y(2); f(2) = f(2) + y(1)` -/
noncomputable def accrual (_ : ℝ) : Proc :=
  ⟨.seq (.loop 2 fun i => .real (2 + i) 0) (.seq (.call [2] (.bin .add 2 1)) (.call [3] (.bin .add 3 0))), [2, 3]⟩

/-- also for a right-hand side that begins by setting its result to zero -/
example : (∀ t, (accrual t).body.Clean 2 ∧ ¬ (accrual t).body.NoReal) ∧ ∃ (out : Nat → Nat → ℝ) (s' : St W),
    FairRhs accrual [] 2 2 60 0 [3, 5] (unitVectors 2) ∧
    setSensRhs (newCvsRhsYvar true 2 (fun _ y => y) (rhsY accrual)) 0 [3, 5] (unitVectors 2) (fun _ _ => 0)
      (Client.init : Client W).st = .ok (out, s') := by
  have hn : ∀ t, (accrual t).body.Clean 2 := fun t => .inr ⟨_, _, rfl,
    .seq (.seq .nop (.real (by simp) (by simp))) (.real (by simp) (by simp)), by simp [Stmt.NoReal]⟩
  have hc : CallableRhs accrual [] 2 2 60 1 1 0 [3, 5] (unitVectors 2) := by
    refine ⟨⟨rfl, rfl, ⟨?_, ?_⟩, ?_, ?_⟩, ?_, rfl, fun k hk j => ?_⟩
    · simp [accrual, Stmt.loop, Stmt.Ok, Stmt.sem, Instr.Ok, Instr.arity, Bin.domVV, writeAt, Instr.sem]
    · simp [accrual, Stmt.loop, Stmt.sem, Instr.sem, writeAt]
    · simp [accrual, Stmt.loop, Stmt.Stable]
    · simp [accrual, Stmt.loop, Stmt.cost, Instr.cost]
    · simp [unitVectors]
    · have := Nat.one_le_two_pow (n := j)
      simp [accrual, Stmt.loop, Stmt.cost, Instr.cost]
      omega
  obtain ⟨out, t, -, -, e, -⟩ := @sensTotal_cleanY W _ _ 2 accrual (fun _ y => y) 60 1 0
    (by simp [maxNestedStack]) (by simp [cap]) hn
    (by simp [accrual, Stmt.loop, Stmt.NoConst]) (by simp) _ _ _ _ 0 [3, 5] (unitVectors 2) (fun _ _ => 0)
    (fine_init _ _ (fun _ => 0) (fun _ => 0)) rfl rfl hc
  exact ⟨fun t => ⟨hn t, by simp [accrual, Stmt.loop, Stmt.NoReal]⟩, out, t, hc.1, e⟩

/-- of `C78_jacobian_partial` -/
example : ∃ (jac : Nat → ℝ) (s' : St W), FairRhs copyTimes [] 1 0 30 0 [3] [] ∧
    calcJacYvar (newCvsRhsYvar true 1 (fun _ y => y) (rhsY copyTimes)) 0 [3] (fun _ => 0) (Client.init : Client W).st =
      .ok (jac, s') := by
  obtain ⟨⟨-, -, h1, h2, h3⟩, -⟩ := copyTimes_callable 0 3 (S := [[1]]) (hd := 0) (m := 0) rfl (by simp) (by simp)
  have hn : (copyTimes 0).body.NoReal := by simp [copyTimes, Stmt.NoReal]
  have hc : (copyTimes 0).body.cost [3, 0] = 8 := by simp [copyTimes, Stmt.cost, Instr.cost]
  have hi := inv_init (W := W) (fun _ => (0 : ℝ)) (fun _ => 0)
  have hb := beginNested_ok (St.init : St W) (by simp [St.init, maxNestedStack])
  obtain ⟨xv, s1, e1, e2⟩ := line_run (W := W) (x := [3, 0]) hi.begun hn h1 (by
    show 1 + (12 + (copyTimes 0).body.cost [3, 0]) ≤ tapeLimit
    rw [hc]; simp [tapeLimit])
  have hl := line_cost (x := [3, 0]) hn
  rw [hc] at hl
  obtain ⟨jac, t, e⟩ := calcJac_total (W := W) (ys := []) (env := []) (u := 0) (y := [3])
    (P := fun _ => lineOf (copyTimes 0) [3, 0]) (fine_init _ _ (fun _ => 0) (fun _ => 0))
    (by simp [St.init, maxNestedStack]) (by simp) rfl (fun _ y => y) (line_ok hn h1) (by
      show 1 + (12 + (lineOf (copyTimes 0) [3, 0]).cost [3, 0]) ≤ tapeLimit
      rw [hl]; simp [tapeLimit]) (by
      show ((lineOf (copyTimes 0) [3, 0]).sem [3, 0]).length = 1
      rw [line_len hn]; rfl) ⟨by simp [St.init, Tape.init], fun j => by
        show 1 + (6 * (2 * 1) + (lineOf (copyTimes 0) [3, 0]).cost [3, 0]) ≠ _
        rw [hl]
        have := Nat.one_le_two_pow (n := j)
        omega⟩ true 1 (fun _ => 0)
  refine ⟨jac, t, ⟨rfl, rfl, h1, h2, h3⟩, ?_⟩
  refine (same_jac (y := [3]) (F := rhsY copyTimes) (G := odeY (fun _ => lineOf (copyTimes 0) [3, 0]) [])
    (f := fun _ y => y) (u := 0) hb e1 (fun yv fv h => ?_) true 1 (fun _ => 0)).trans e
  subst h
  simpa [rhsY, odeY] using e2

theorem copyTimes_step {r a x t : ℝ} {z}
    (h : Solves (rhsInit (fun _ y => y.map fun a => a * a) copyTimes) (euler.step (r, [a], [[x]]) t) z) :
    ∃ a' w, z = (0, [a'], [[w]], t, [a'], [[w]]) := by
  cases h with | rhs h =>
  cases h with | sens h1 h2 =>
  cases h2
  rename_i o
  simp only [rhsInit] at h1
  obtain ⟨a1, a2⟩ := h1
  obtain ⟨l, rfl⟩ : ∃ l, o = [l] := List.length_eq_one_iff.mp a1
  have b0 := (a2 0 (by simp)).1
  simp at b0
  obtain ⟨w, rfl⟩ := List.length_eq_one_iff.mp b0
  exact ⟨_, _, rfl⟩

theorem copyTimes_asksAll {hd m : Nat} (hm : hd + 9 * m ≤ 12000) : ∀ (ts : List ℝ) (r a x : ℝ),
    AsksAll (rhsInit (fun _ y => y.map fun a => a * a) copyTimes) euler (CallableRhs copyTimes [] 1 1 30 hd m) ts
      (r, [a], [[x]]) ∧
      Succeeds (rhsInit (fun _ y => y.map fun a => a * a) copyTimes) euler 1 1 ts (r, [a], [[x]]) := by
  intro ts
  induction ts with
  | nil => intro r a x; exact ⟨trivial, trivial⟩
  | cons t ts ih =>
    intro r a x
    refine ⟨⟨⟨copyTimes_callable _ _ rfl (by simp) hm, fun _ _ => trivial⟩, fun y yS m' h => ?_⟩,
      fun z h => ?_, fun y yS m' h => ?_⟩
    · obtain ⟨a', w, e⟩ := copyTimes_step h
      cases e
      exact (ih _ _ _).1
    · obtain ⟨a', w, rfl⟩ := copyTimes_step h
      exact ⟨rfl, rfl, rfl, by simp⟩
    · obtain ⟨a', w, e⟩ := copyTimes_step h
      cases e
      exact (ih _ _ _).2

/-- of `C78_unchecked_initial_partial`, for two output times -/
example : ∃ (c : Client W) (y0 u : Var) (b : Var → ℝ) (yt : List (List Var)) (s' : St W), OrderlyL ℝ c ∧ RatesL c.st u b ∧
    (∀ J : Junk W ℝ, cvodesSolY0L J euler 0 [y0] [1, 2] (fun _ y => y.map fun a => a * a) (rhsY copyTimes) c.st =
      .ok (yt, s')) ∧ yt.length = 2 := by
  obtain ⟨c, o, v, hh, hm, hn⟩ := orderlyL_three (W := W)
  obtain ⟨d, g, val, adj, S⟩ := orderlyL_shadow commutes_real o
  have hex : ∀ k < 3, nth c.env k ∈ existing c.st := fun k hk => by
    rw [S.alike.existing]
    exact (mem_existing S.sound.good.inv).mpr (S.sound.good.has _ (by rw [S.env]; exact nth_mem (by omega)))
  have v1 : (vals [nth c.env 1] : M W (List ℝ)) c.st = .ok ([3], c.st) := by
    have hv := ValL.ofRead S.sound.good.inv (by rw [← S.env]; exact S.sound.good.has) (S.vals (fun _ h => h) v)
    have h1 := (hv.nths (is := [1]) (by simp [hn])).read S.sound.good.inv
    obtain ⟨s2, e2, -⟩ := blind_vals _ _ _ _ _ S.alike h1
    have := vals_st e2
    subst this
    rw [← List.map_singleton (f := nth c.env), e2]
    simp [num]
  obtain ⟨b, hb⟩ := C60_rates o.solves (hex 0 (by omega))
  obtain ⟨yt, s', e, sol, -, h1, -⟩ := C78_unchecked_initial_partial o.solves (y0 := [nth c.env 1])
    (by simpa using hex 1 (by omega)) v1 (by simp) euler 0 [1, 2] (fun _ y => y.map fun a => a * a) copyTimes
    (fun _ => ⟨.inl (by simp [copyTimes, Stmt.NoReal]), by simp [copyTimes, Stmt.Mild, Instr.Mild]⟩) 30 (by simp [hm])
    (copyTimes_asksAll (by rw [hh]; simp) _ _ _ _).1 (copyTimes_asksAll (hd := 0) (m := 0) (by simp) _ _ _ _).2
    (by rw [hh]; simp [tapeLimit]) (hex 0 (by omega)) hb
  exact ⟨c, _, _, b, yt, s', o, hb, e, h1⟩

/-- `f(1) = y(1); do k = 1, 3; f(1) = f(1) * q(k); end do` -/
noncomputable def copyLoop (_ : ℝ) : Proc := ⟨.seq (.copy 1 0) (.loop 3 fun k => .call [1] (.bin .mul 1 (2 + k))), [1]⟩

theorem copyLoop_callable (u x : ℝ) {S : List (List ℝ)} (hS : S.length = 3) (hS' : ∀ v ∈ S, v.length = 1) {hd m : Nat}
    (hd' : hd + 15 * m ≤ 12000) : CallableRhs copyLoop [2, 3, 6] 1 3 60 hd m u [x] S := by
  refine ⟨⟨rfl, hS, ⟨?_, ?_⟩, ?_, ?_⟩, hS', rfl, fun k hk j => ?_⟩
  · simp [copyLoop, Stmt.loop, Stmt.Ok, Stmt.sem, Instr.Ok, Instr.sem, Instr.arity, move, writeAt, Bin.domVV]
  · simp [copyLoop, Stmt.loop, Stmt.sem, Instr.sem, move, writeAt]
  · simp [copyLoop, Stmt.loop, Stmt.Stable]
  · simp [copyLoop, Stmt.loop, Stmt.cost, Instr.cost]
  · have := Nat.one_le_two_pow (n := j)
    simp [copyLoop, Stmt.loop, Stmt.cost, Instr.cost]
    omega

theorem copyLoop_plain (u : ℝ) : (copyLoop u).body.NoReal ∧ (copyLoop u).body.NoConst ∧ (copyLoop u).body.Mild := by
  simp [copyLoop, Stmt.loop, Stmt.NoReal, Stmt.NoConst, Stmt.Mild, Instr.Mild]

/-- `f` of the equation `y' = q₁ q₂ q₃ y`, where `q = (2, 3, 6)` -/
noncomputable def copyLoopF (_ : ℝ) (y : List ℝ) : List ℝ := y.map fun a => 36 * a

theorem copyLoop_step {r a x x' x'' t : ℝ} {z}
    (h : Solves (rhsParam copyLoopF copyLoop [2, 3, 6]) (euler.step (r, [a], [[x], [x'], [x'']]) t) z) :
    ∃ a' w w' w'', z = (0, [a'], [[w], [w'], [w'']], t, [a'], [[w], [w'], [w'']]) := by
  cases h with | rhs h =>
  cases h with | sens h1 h2 =>
  cases h2
  rename_i o
  simp only [rhsParam] at h1
  obtain ⟨a1, a2⟩ := h1
  obtain ⟨l, l', l'', rfl⟩ : ∃ l l' l'', o = [l, l', l''] := List.length_eq_three.mp a1
  have b0 := (a2 0 (by simp)).1
  have b1 := (a2 1 (by simp)).1
  have b2 := (a2 2 (by simp)).1
  simp at b0 b1 b2
  obtain ⟨w, rfl⟩ := List.length_eq_one_iff.mp b0
  obtain ⟨w', rfl⟩ := List.length_eq_one_iff.mp b1
  obtain ⟨w'', rfl⟩ := List.length_eq_one_iff.mp b2
  exact ⟨_, _, _, _, rfl⟩

theorem copyLoop_asks {hd m : Nat} (hm : hd + 15 * m ≤ 12000) : ∀ (ts : List ℝ) (r a x x' x'' : ℝ),
    AsksAll (rhsParam copyLoopF copyLoop [2, 3, 6]) euler (CallableRhs copyLoop [2, 3, 6] 1 3 60 hd m) ts
      (r, [a], [[x], [x'], [x'']]) ∧
      Succeeds (rhsParam copyLoopF copyLoop [2, 3, 6]) euler 1 3 ts (r, [a], [[x], [x'], [x'']]) := by
  intro ts
  induction ts with
  | nil => intro r a x x' x''; exact ⟨trivial, trivial⟩
  | cons t ts ih =>
    intro r a x x' x''
    refine ⟨⟨⟨copyLoop_callable _ _ rfl (by simp) hm, fun _ _ => trivial⟩, fun y yS m' h => ?_⟩,
      fun z h => ?_, fun y yS m' h => ?_⟩
    · obtain ⟨a', w, w', w'', e⟩ := copyLoop_step h
      cases e
      exact (ih _ _ _ _ _).1
    · obtain ⟨a', w, w', w'', rfl⟩ := copyLoop_step h
      exact ⟨rfl, rfl, rfl, by simp⟩
    · obtain ⟨a', w, w', w'', e⟩ := copyLoop_step h
      cases e
      exact (ih _ _ _ _ _).2

/-- of `C78_unchecked_parameters_partial` -/
example : ∃ (c : Client W) (u : Var) (b : Var → ℝ) (yt : List (List Var)) (y1 : List ℝ) (s' : St W), OrderlyL ℝ c ∧
    RatesL c.st u b ∧
    (∀ J : Junk W ℝ, cvodesSolParL J euler 0 [7] [1, 2, 5] c.env copyLoopF (rhsP copyLoop) c.st = .ok ((yt, y1), s')) ∧
    yt.length = 3 := by
  obtain ⟨c, o, v, hh, hm, hn⟩ := orderlyL_three (W := W)
  obtain ⟨d, g, val, adj, S⟩ := orderlyL_shadow commutes_real o
  have hex : ∀ v ∈ c.env, v ∈ existing c.st := fun v hv => by
    rw [S.alike.existing]
    exact (mem_existing S.sound.good.inv).mpr (S.sound.good.has _ (by rw [S.env]; exact hv))
  have h0 : nth c.env 0 ∈ existing c.st := hex _ (nth_mem (by omega))
  obtain ⟨b, hb⟩ := C60_rates o.solves h0
  obtain ⟨yt, y1, s', e, sol, -, -, h1, -⟩ := C78_unchecked_parameters_partial o.solves (q := c.env) hex v hn euler 0 [7]
    [1, 2, 5] copyLoopF copyLoop (fun u => ⟨.inl (copyLoop_plain u).1, (copyLoop_plain u).2.2⟩) 60 (by simp [hm])
    (by rw [hn]; exact (copyLoop_asks (by rw [hh]; simp) _ _ _ _ _ _).1)
    (by rw [hn]; exact (copyLoop_asks (hd := 0) (m := 0) (by simp) _ _ _ _ _ _).2)
    (by rw [hh, hn]; simp [tapeLimit]) h0 hb
  exact ⟨c, _, b, yt, y1, s', o, hb, e, h1⟩

/-- of `C78_completes_parameters_partial` -/
example : ∃ q s1 yt y1 s2, (newVars [2, 3, 6] : M W (List Var)) St.init = .ok (q, s1) ∧ q.length = 3 ∧
    cvodesSolPar euler 0 [7] [1] q copyLoopF (rhsP copyLoop) s1 = .ok ((yt, y1), s2) := by
  have h := copyLoop_asks (hd := 1 + 6 * 3) (m := 1) (by simp) [1] 0 7 0 0 0
  exact C78_completes_parameters_partial (W := W) [2, 3, 6] rfl euler 0 1 [7] copyLoopF copyLoop 60
    (fun u => ⟨.inl (copyLoop_plain u).1, (copyLoop_plain u).2.1⟩) h.1.1 h.2.1 (by simp [tapeLimit])

/-- of `C78_sens_parameters_partial`, the initial values not being varied -/
example : ∃ (out : Nat → Nat → ℝ) (s' : St W), FairRhs copyLoop [2, 3, 6] 1 ((if false then 1 else 0) + 3) 60 0 [7] [[0], [0], [0]] ∧
    setSensRhs (newCvsRhsPvar false 3 [2, 3, 6] copyLoopF (rhsP copyLoop)) 0 [7] [[0], [0], [0]] (fun _ _ => 0)
      (Client.init : Client W).st = .ok (out, s') := by
  obtain ⟨out, t, -, -, e, -⟩ := @sensTotal_rhsP W _ _ copyLoopF copyLoop [2, 3, 6] 1 60 1 0 rfl
    (by simp [maxNestedStack]) (by simp [cap]) (fun u => (copyLoop_plain u).1) (fun u => (copyLoop_plain u).2.1)
    _ _ _ _ 0 [7] [[0], [0], [0]] (fun _ _ => 0)
    (fine_init _ _ (fun _ => 0) (fun _ => 0)) rfl rfl (copyLoop_callable 0 7 rfl (by simp) (by simp))
  exact ⟨out, t, (copyLoop_callable 0 7 (hd := 0) (m := 0) rfl (by simp) (by simp)).1, e⟩

/-- of `C78_parameters_partial`: the parameters are the variables of `demo` -/
example : ∃ (c : Client ℝ) (yt : List (List Var)) (y1 : List ℝ) (s' : St ℝ), Reach demo c ∧
    (∀ v ∈ [⟨1⟩, ⟨2⟩, ⟨3⟩], v ∈ existing c.st) ∧ vals [⟨1⟩, ⟨2⟩, ⟨3⟩] c.st = .ok ([2, 3, 6], c.st) ∧
    AsksAll (rhsParam copyLoopF copyLoop [2, 3, 6]) euler (FairRhs copyLoop [2, 3, 6] 1 3 60) [1]
      (euler.init 0 [7] (List.replicate 3 (List.replicate 1 0))) ∧
    c.st.tape.head + 1 * (1 * (6 + 3 * 3)) + 60 ≤ tapeLimit ∧ ⟨1⟩ ∈ existing c.st ∧ Rates c.st ⟨1⟩ demoB ∧
    cvodesSolPar euler 0 [7] [1] [⟨1⟩, ⟨2⟩, ⟨3⟩] copyLoopF (rhsP copyLoop) c.st = .ok ((yt, y1), s') := by
  obtain ⟨c, hr, hv, ha, hh, hl, -, g, val, adj, hf, hhas⟩ := demo_reach (W := ℝ)
  obtain ⟨c', hr', -, hex, h1, h2, h3, hb⟩ := demo_rates (W := ℝ)
  obtain rfl : c = c' := by
    have := hr.2.symm.trans hr'.2
    cases this; rfl
  have hops : ∀ v ∈ [(⟨1⟩ : Var), ⟨2⟩, ⟨3⟩], g.Has v := fun v hv => (mem_existing hf.inv).mp (by rw [hex]; exact hv)
  have hz : vals [⟨1⟩, ⟨2⟩, ⟨3⟩] c.st = .ok ([2, 3, 6], c.st) := by
    rw [hf.inv.varVals hops]
    rw [hf.inv.varVal (hops _ (by simp))] at h1
    rw [hf.inv.varVal (hops _ (by simp))] at h2
    rw [hf.inv.varVal (hops _ (by simp))] at h3
    injection h1 with h1; injection h2 with h2; injection h3 with h3
    injection h1 with h1; injection h2 with h2; injection h3 with h3
    simp [h1, h2, h3]
  have hq := copyLoop_asks (hd := c.st.tape.head) (m := 1) (by rw [hh]; simp) [1] 0 7 0 0 0
  obtain ⟨yt, y1, s', e⟩ := solLoop_total (W := ℝ) (n := 1) (ops := [⟨1⟩, ⟨2⟩, ⟨3⟩]) rfl
    (@sensTotal_rhsP ℝ _ _ copyLoopF copyLoop [2, 3, 6] 1 60 c.st.tape.head c.st.level rfl
      (by rw [hl]; simp [maxNestedStack]) (by rw [hh]; simp [cap]) (fun u => (copyLoop_plain u).1)
      (fun u => (copyLoop_plain u).2.1))
    euler rfl 1 (euler.init 0 [7] (List.replicate 3 (List.replicate 1 0))) [7]
    (hf.weak (Or.inr trivial) fun _ => trivial) hops (by rw [hh]; simp [cap]) hq.1.1 hq.2.1
  refine ⟨c, yt, y1, s', hr, ?_, hz, ⟨⟨hq.1.1.1.1, fun _ _ => trivial⟩, fun _ _ _ _ => trivial⟩, ?_, ?_, hb, ?_⟩
  · simp [hex]
  · rw [hh]; simp [tapeLimit]
  · simp [hex]
  · unfold cvodesSolPar
    rw [bind_ok hz]
    exact e

end Props
