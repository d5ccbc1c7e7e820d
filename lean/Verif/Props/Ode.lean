import Verif.Proof.OdeSol
import Verif.Proof.Demo

/-!
# C26, C27: sensitivities of ODE solutions

`p` is the user's right-hand side as a program on variables: its inputs are the state, the array `f` on entry
(zeros), the parameters if any, and variables of the caller.
-/

set_option linter.unusedSectionVars false

namespace Props
open Fz Spec

variable {W : Type} [Rep W ℝ] [LawfulRep W ℝ]
variable {h : List (Call ℝ)} {c : Client W}

/-! ## C26 -/

/-- **C26**, initial values: every completed call, in any reachable state, gives `J s_j` for every sensitivity
vector `s_j`, `J` being the Jacobian of the right-hand side with respect to the state. -/
theorem C26_initial (hr : Reach h c) {ys : List ℝ} (hys : vals c.env c.st = .ok (ys, c.st))
    (f : ℝ → List ℝ → List ℝ) (p : ℝ → Prog) (t : ℝ) (y : List ℝ) (S : List (List ℝ)) (hS : S.length = y.length)
    (hok : (p t).Ok (y ++ List.replicate y.length 0 ++ ys))
    (hroom : Room c.st (p t) (y ++ List.replicate y.length 0) ys) {out out' : Nat → Nat → ℝ} {s' : St W}
    (hrun : setSensRhs (newCvsRhsYvar true y.length f (odeY p c.env)) t y S out c.st = .ok (out', s')) :
    IsSensRhs (odeFn (p t) y.length ys) y [] (fun _ => none) S (vecs y.length y.length out') := by
  obtain ⟨g, val, adj, G⟩ := hr.good
  exact (setSens_y G.inv G.okf G.has (G.vals hys) hok hroom hS hrun).1

/-- **C26**, parameters.  Partial: as `C26_parameters_refuted` shows, only calls with exactly three parameters
complete.  `b` says whether the initial values are varied too; then the sensitivities with respect to them come
first. -/
theorem C26_parameters_partial (hr : Reach h c) {ys : List ℝ} (hys : vals c.env c.st = .ok (ys, c.st))
    (f : ℝ → List ℝ → List ℝ) (p : ℝ → Prog) (t : ℝ) (y q : List ℝ) (hq : q.length = 3) (b : Bool)
    (S : List (List ℝ)) (hS : S.length = (if b then y.length else 0) + 3)
    (hok : (p t).Ok (y ++ List.replicate y.length 0 ++ q ++ ys))
    (hroom : Room c.st (p t) (y ++ List.replicate y.length 0 ++ q) ys) {out out' : Nat → Nat → ℝ} {s' : St W}
    (hrun : setSensRhs (newCvsRhsPvar b S.length q f (odeP p c.env)) t y S out c.st = .ok (out', s')) :
    IsSensRhs (odeFn (p t) y.length ys) y q
      (fun j => if j < (if b then y.length else 0) then none else some (j - if b then y.length else 0)) S
      (vecs S.length y.length out') := by
  obtain ⟨g, val, adj, G⟩ := hr.good
  have := (setSens_p G.inv G.okf G.has (G.vals hys) hok hroom (by
    rintro ⟨rfl, h⟩
    simp at hS
    omega) rfl hrun).2.1
  have hsrc : sensSrc true (S.length - if b then S.length - y.length else S.length) =
      (fun j => if j < (if b then y.length else 0) then none else some (j - if b then y.length else 0)) := by
    funext j
    cases b
    · simp [sensSrc]
    · have : S.length - (S.length - y.length) = y.length := by
        simp at hS
        omega
      simp only [sensSrc, if_true, this]
      by_cases hj : j < y.length
      · rw [if_pos hj, if_neg (by simp [hj])]
      · rw [if_neg hj, if_pos ⟨trivial, by omega⟩]
  rwa [hsrc] at this

/-- **C26** fails for every number of parameters other than three: the call is erroneous in every state. -/
theorem C26_parameters_refuted (f : ℝ → List ℝ → List ℝ) (fp : ℝ → List Var → List Var → List Var → M W (List Var))
    (t : ℝ) (y q : List ℝ) (hq : q.length ≠ 3) (S : List (List ℝ)) (out : Nat → Nat → ℝ) (s : St W) :
    ∃ e, setSensRhs (newCvsRhsPvar false q.length q f fp) t y S out s = .error e :=
  setSens_p_stuck hq (by simp)

/-- **C26**: the entries of the Jacobian, `∂f_i/∂y_j` at position `i + j n` (counted from 0). -/
theorem C26_jacobian (hr : Reach h c) {ys : List ℝ} (hys : vals c.env c.st = .ok (ys, c.st))
    (f : ℝ → List ℝ → List ℝ) (p : ℝ → Prog) (t : ℝ) (y : List ℝ) (b : Bool) (ns : Nat)
    (hok : (p t).Ok (y ++ List.replicate y.length 0 ++ ys))
    (hroom : Room c.st (p t) (y ++ List.replicate y.length 0) ys) {jac jac' : Nat → ℝ} {s' : St W}
    (hrun : calcJacYvar (newCvsRhsYvar b ns f (odeY p c.env)) t y jac c.st = .ok (jac', s')) :
    ∀ i < y.length, IsGradAt (odeFn (p t) y.length ys i) y
      ((List.range y.length).map fun j => jac' (i + j * y.length)) := by
  obtain ⟨g, val, adj, G⟩ := hr.good
  exact (calcJac_ok G.inv G.okf G.has (G.vals hys) hok hroom hrun).1

/-- **C26**: every component of the result is assigned: whether the call completes, its effects and its result do
not depend on what the output vectors contained before; for every user routine, arithmetic and state. -/
theorem C26_fills {W R : Type} [Arith R] [Rep W R] (ode : CvsRhs W R) (t : R) (y : List R) (S : List (List R))
    (o₁ o₂ : Nat → Nat → R) (s : St W) :
    (∃ e, setSensRhs ode t y S o₁ s = .error e ∧ setSensRhs ode t y S o₂ s = .error e) ∨
    ∃ r₁ r₂ s', setSensRhs ode t y S o₁ s = .ok (r₁, s') ∧ setSensRhs ode t y S o₂ s = .ok (r₂, s') ∧
      vecs ode.ns y.length r₁ = vecs ode.ns y.length r₂ := by
  rcases setSensRhs_same ode t y S o₁ o₂ s with h | ⟨r₁, r₂, s', h1, h2, h3⟩
  · exact Or.inl h
  · refine Or.inr ⟨r₁, r₂, s', h1, h2, ?_⟩
    unfold vecs
    refine List.map_congr_left fun j hj => List.map_congr_left fun i hi => ?_
    exact h3 j (List.mem_range.mp hj) i (List.mem_range.mp hi)

/-- **C26**: the call is transparent: if the routine does not use the caller's variables, what can be read about
them is as before, in particular their adjoints, and the nesting level too. -/
theorem C26_transparent (hr : Reach h c) (f : ℝ → List ℝ → List ℝ) (p : ℝ → Prog) (t : ℝ) (y : List ℝ)
    (S : List (List ℝ)) (hS : S.length = y.length) (hok : (p t).Ok (y ++ List.replicate y.length 0))
    (hroom : Room c.st (p t) (y ++ List.replicate y.length 0) []) {out out' : Nat → Nat → ℝ} {s' : St W}
    (hrun : setSensRhs (newCvsRhsYvar true y.length f (odeY p [])) t y S out c.st = .ok (out', s')) :
    existing s' = existing c.st ∧ (∀ v ∈ existing c.st, seen (R := ℝ) s' v = seen c.st v) ∧
      s'.level = c.st.level ∧ s'.tape.head = c.st.tape.head := by
  obtain ⟨g, val, adj, G⟩ := hr.good
  obtain ⟨-, a1, a2, a3, a, hi, ha⟩ := setSens_y (env := []) (ys := []) G.inv G.okf (by simp) rfl
    (by simpa using hok) hroom hS hrun
  have ha := ha rfl
  subst ha
  refine ⟨by simp [existing, a3], fun v hv => ?_, a1, a2⟩
  obtain ⟨nd, h1, h2⟩ := ((mem_existing G.inv).mp hv).at
  rw [hi.seen h1, G.inv.seen h1]

/-- `y' = x y`, `x` being the first variable of the caller -/
noncomputable def growth (_ : ℝ) : Prog := .op (.bin .mul 0 2) (.ret [5])

/-- the hypotheses of `C26_initial` and `C26_jacobian` are met after the history `demo`, by `growth` -/
example : ∃ (c : Client ℝ) (ys : List ℝ) (out' : Nat → Nat → ℝ) (jac' : Nat → ℝ) (s' s'' : St ℝ), Reach demo c ∧
    vals c.env c.st = .ok (ys, c.st) ∧ (growth 0).Ok ([7] ++ List.replicate 1 0 ++ ys) ∧
    Room c.st (growth 0) ([7] ++ List.replicate 1 0) ys ∧
    setSensRhs (newCvsRhsYvar true 1 (fun _ y => y) (odeY growth c.env)) 0 [7] [[1]] (fun _ _ => 0) c.st =
      .ok (out', s') ∧
    calcJacYvar (newCvsRhsYvar true 1 (fun _ y => y) (odeY growth c.env)) 0 [7] (fun _ => 0) c.st = .ok (jac', s'') := by
  obtain ⟨c, hr, hv, ha, hh, hl, he, g, val, adj, hf, hhas⟩ := demo_reach (W := ℝ)
  have hok : (growth 0).Ok ([7] ++ List.replicate 1 0 ++ [2, 3, 6]) := by
    simp [growth, Prog.Ok, Instr.Ok, Instr.sem, Bin.domVV]
  have hcost : (growth 0).cost ([7] ++ List.replicate 1 0 ++ [2, 3, 6]) = 8 := by
    simp [growth, Prog.cost, Instr.cost]
  have hroom : Room c.st (growth 0) ([7] ++ List.replicate 1 0) [2, 3, 6] := by
    unfold Room; rw [hcost, hh]; simp [tapeLimit]
  have hfull : NotFull c.st (6 * (2 * [(7 : ℝ)].length) + (growth 0).cost ([7] ++ List.replicate 1 0 ++ [2, 3, 6])) :=
    ⟨by omega, fun j => by
      rw [hcost, hh]
      have := Nat.one_le_two_pow (n := j)
      simp only [List.length_singleton]
      omega⟩
  obtain ⟨out', t, val', a, e, -⟩ := setSens_y_total (P := growth) (u := 0) (y := [7]) (ys := [2, 3, 6])
    (hf.weak (Or.inr trivial) fun _ => trivial)
    (by rw [hl]; simp [maxNestedStack]) hhas (vals_eq hf.inv hhas hv) (fun _ y => y) hok hroom
    (by simp [growth, Prog.sem, Instr.sem]) hfull (S := [[1]]) rfl (by simp) (fun _ _ => 0)
  obtain ⟨jac', t', e'⟩ := calcJac_total (P := growth) (u := 0) (y := [7]) (ys := [2, 3, 6])
    (hf.weak (Or.inr trivial) fun _ => trivial)
    (by rw [hl]; simp [maxNestedStack]) hhas (vals_eq hf.inv hhas hv) (fun _ y => y) hok hroom
    (by simp [growth, Prog.sem, Instr.sem]) hfull true 1 (fun _ => 0)
  exact ⟨c, _, out', jac', t, t', hr, hv, hok, hroom, e, e'⟩

/-- `y' = q₁ q₂ y + q₃` -/
noncomputable def linear (_ : ℝ) : Prog :=
  .op (.bin .mul 2 3) <| .op (.bin .mul 5 0) <| .op (.bin .add 6 4) <| .ret [7]

/-- the hypotheses of `C26_parameters_partial` are met, at the start, by `linear` -/
example : ∃ (out' : Nat → Nat → ℝ) (s' : St ℝ), Reach [] (Client.init : Client ℝ) ∧
    (linear 0).Ok ([7] ++ List.replicate 1 0 ++ [1, 2, 3] ++ []) ∧
    Room (St.init : St ℝ) (linear 0) ([7] ++ List.replicate 1 0 ++ [1, 2, 3]) [] ∧
    setSensRhs (newCvsRhsPvar true 4 [1, 2, 3] (fun _ y => y) (odeP linear [])) 0 [7] [[1], [0], [0], [0]]
      (fun _ _ => 0) (St.init : St ℝ) = .ok (out', s') := by
  have hok : (linear 0).Ok ([7] ++ List.replicate 1 0 ++ [1, 2, 3] ++ []) := by
    simp [linear, Prog.Ok, Instr.Ok, Instr.sem, Bin.domVV]
  have hcost : (linear 0).cost ([7] ++ List.replicate 1 0 ++ [1, 2, 3] ++ []) = 24 := by
    simp [linear, Prog.cost, Instr.cost]
  have hroom : Room (St.init : St ℝ) (linear 0) ([7] ++ List.replicate 1 0 ++ [1, 2, 3]) [] := by
    unfold Room; rw [hcost]; simp [tapeLimit, St.init, Tape.init]
  obtain ⟨out', t, val', a, e, -⟩ := setSens_p_total (W := ℝ) (P := linear) (u := 0) (y := [7]) (q := [1, 2, 3])
    (ys := []) (env := []) rfl (fine_init _ _ (fun _ => 0) (fun _ => 0))
    (by simp [St.init, maxNestedStack]) (by simp) rfl (fun _ y => y) hok hroom
    (by simp [linear, Prog.sem, Instr.sem]) ⟨by simp [St.init, Tape.init], fun j => by
      show (St.init : St ℝ).tape.head + (6 * (2 * 1 + 3) + (linear 0).cost ([7] ++ List.replicate 1 0 ++ [1, 2, 3] ++ [])) ≠ _
      rw [hcost]
      have := Nat.one_le_two_pow (n := j)
      simp only [St.init, Tape.init]
      omega⟩
    (b := true) (ns := 4) rfl (S := [[1], [0], [0], [0]]) rfl (by simp) (fun _ _ => 0)
  exact ⟨out', t, ⟨by simp, (rfl : run ([] : List (Call ℝ)) _ = _)⟩, hok, hroom, e⟩

end Props
