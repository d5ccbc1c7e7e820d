import Verif.Proof.FlowRun
import Verif.Props.LenientOde

/-!
# C63: derivatives of functions that solve differential equations

End to end: the user's function may call `cvodes_sol` any number of times.  What `gradient` and `jacobian` return are
the derivatives of the function in which every call is replaced by the solution, provided that the solver solves.
-/

namespace Props
open Fz Arith Spec

variable {W : Type} [Rep W ℝ] [LawfulRep W ℝ] {c : Client W} {τ : Type}

/-- **C63**, `gradient`: after every history of correct calls, whatever is in memory, the call completes; the value is that
of the function, the list are its partial derivatives; the tape and the values of all variables are as before; and
everything said of correct histories holds again afterwards. -/
theorem C63_gradient (h : OrderlyS c) {fl : Flow τ} {is : List Nat} {ys x : List ℝ} (hf : fl.ProperL c is ys x) :
    ∃ df s', (∀ J : Junk W ℝ, gradientL J (fl.scalarL J (is.map (nth c.env))) x c.st =
        .ok (((fl.sem (x ++ ys)).getD 0 0, df), s')) ∧
      IsGradAt (fun z => (fl.sem (z ++ ys)).getD 0 0) x df ∧ s'.tape.head = c.st.tape.head ∧
      (∀ w : List ℝ, vals c.env c.st = .ok (w, c.st) → vals c.env s' = .ok (w, s')) ∧ OrderlyS ⟨s', c.env, c.marks⟩ := by
  obtain ⟨d, g, val, adj, S⟩ := orderlyS_shadow commutes_real h
  obtain ⟨df, s', e, hg, hh, hv, -⟩ := S.flowGradient hf
  refine ⟨df, s', e, hg, hh, fun w hw => ?_, .gradient (fun _ _ _ _ => 0) fl is ys x _ h hf (e _)⟩
  rw [hv]
  have := S.vals (fun v hv => hv) hw
  rw [S.sound.good.inv.varVals fun v hv => S.sound.good.has v (by rw [S.env]; exact hv)] at this
  cases this
  rfl

/-- **C63**, `jacobian`: as for `gradient`, row by row. -/
theorem C63_jacobian (h : OrderlyS c) {fl : Flow τ} {is : List Nat} {ys x : List ℝ} (hf : fl.ProperL c is ys x) :
    ∃ rows s', (∀ J : Junk W ℝ, jacobianL J (fl.vectorL J (is.map (nth c.env))) (fl.sem (x ++ ys)).length x c.st =
        .ok ((fl.sem (x ++ ys), rows), s')) ∧
      rows.length = (fl.sem (x ++ ys)).length ∧
      (∀ k (hk : k < rows.length), IsGradAt (fun z => (fl.sem (z ++ ys)).getD k 0) x rows[k]) ∧
      s'.tape.head = c.st.tape.head ∧
      (∀ w : List ℝ, vals c.env c.st = .ok (w, c.st) → vals c.env s' = .ok (w, s')) ∧ OrderlyS ⟨s', c.env, c.marks⟩ := by
  obtain ⟨d, g, val, adj, S⟩ := orderlyS_shadow commutes_real h
  obtain ⟨df, s', e, hr, hg, hh, hv, -⟩ := S.flowJacobian hf
  refine ⟨df, s', e, hr, hg, hh, fun w hw => ?_, .jacobian (fun _ _ _ _ => 0) fl is ys x _ h hf (e _)⟩
  rw [hv]
  have := S.vals (fun v hv => hv) hw
  rw [S.sound.good.inv.varVals fun v hv => S.sound.good.has v (by rw [S.env]; exact hv)] at this
  cases this
  rfl

/-- **C63**: histories are not cut short: a correct call of `cvodes_sol` on initial values completes, whatever is in
memory. -/
theorem C63_solve_initial (h : OrderlyS c) {e : Ivp τ} {is : List Nat} {z : List ℝ} (he : e.ProperY c is z) :
    ∃ yt s', (∀ J : Junk W ℝ, cvodesSolY0L J e.sv e.t0 (is.map (nth c.env)) e.ts e.f (odeY e.p []) c.st = .ok (yt, s')) ∧
      OrderlyS ⟨s', c.env ++ yt.flatten, c.marks⟩ := by
  obtain ⟨d, g, val, adj, S⟩ := orderlyS_shadow commutes_real h
  obtain ⟨yt, s', e1, -⟩ := S.solveY he
  exact ⟨yt, s', e1, .init (fun _ _ _ _ => 0) e is z yt h he (e1 _)⟩

/-- **C63**: and one on parameters. -/
theorem C63_solve_parameters (h : OrderlyS c) {e : Ivp τ} {y : List ℝ} {is : List Nat} {z : List ℝ}
    (he : e.ProperP c y is z) :
    ∃ r s', (∀ J : Junk W ℝ, cvodesSolParL J e.sv e.t0 y e.ts (is.map (nth c.env)) e.f (odeP e.p []) c.st = .ok (r, s')) ∧
      OrderlyS ⟨s', c.env ++ r.1.flatten, c.marks⟩ := by
  obtain ⟨d, g, val, adj, S⟩ := orderlyS_shadow commutes_real h
  obtain ⟨r, s', e1, -⟩ := S.solveP he
  exact ⟨r, s', e1, .par (fun _ _ _ _ => 0) e y is z r h he (e1 _)⟩

/-! The hypotheses are met: `x ↦ φ(x) x y`, where `φ(x) = 3 x` is one step of the Euler method for `φ' = 2 φ`, and `y = 3`
is a variable of the caller. -/

noncomputable def eulerIvp : Ivp (ℝ × List ℝ × List (List ℝ)) :=
  ⟨euler, 0, [1], doublingF, doubling, 30, [fun w => w.map fun a => 3 * a]⟩

noncomputable def eulerFlow : Flow (ℝ × List ℝ × List (List ℝ)) :=
  .init eulerIvp [0] <| .op (.bin .mul 2 0) <| .op (.bin .mul 3 1) <| .ret [4]

theorem doubling_sens {y a : ℝ} (h : IsSensRhs (odeFn (doubling 0) 1 []) [y] [] (fun _ => none) [[1]] [[a]]) : a = 2 := by
  obtain ⟨dy, dq, l, hg, e⟩ := (h.2 0 (by simp)).2 0 (by simp)
  obtain ⟨u, rfl⟩ := List.length_eq_one_iff.mp l
  have hd : IsGradAt (odeFn (doubling 0) 1 [] 0) [y] [2] := isGradAt_one (by
    have : (fun t => odeFn (doubling 0) 1 [] 0 [t]) = fun t => t * 2 := by
      funext t
      simp [odeFn, doubling, Prog.sem, Instr.sem, look, Bin.fn]
    rw [this]
    simpa using (hasDerivAt_id y).mul_const 2)
  have hq : dq = [] := by
    have := hg.1
    simp at this
    exact this
  subst hq
  have := hg.unique hd
  simp at this e
  rw [e, this]

theorem euler_right (y : ℝ) : Right (initProblem doublingF doubling) euler 1 [y] [1] (0, [y], [[1]]) eulerIvp.sol := by
  refine ⟨fun r h => ?_, fun _ _ _ _ => trivial⟩
  cases h with | rhs h =>
  cases h with | sens h1 h2 =>
  cases h2
  simp only [initProblem] at h1
  obtain ⟨o, rfl⟩ := single_answer (y := [y]) (S := [[1]]) rfl rfl h1
  obtain rfl := doubling_sens h1
  refine ⟨rfl, ?_, rfl, by simp, fun i hi => ?_⟩
  · simp [initProblem, doublingF]
    ring
  · obtain rfl : i = 0 := by omega
    refine isGradAt_one ?_
    simp only [List.map_cons, List.map_nil, List.getD_cons_zero]
    have := (hasDerivAt_id y).const_mul 3
    simp at this ⊢
    rw [show (1 : ℝ) + 2 = 3 by norm_num]
    exact this

theorem eulerFlow_proper (o : OrderlyS c) (v : (vals c.env : M W (List ℝ)) c.st = .ok ([2, 3, 6], c.st))
    (hh : c.st.tape.head = 21) (hm : c.marks = []) (hn : c.env.length = 3) : eulerFlow.ProperL c [1] [3] [5] := by
  have v1 : (vals ([1].map (nth c.env)) : M W (List ℝ)) c.st = .ok ([3], c.st) := by
    obtain ⟨d, g, val, adj, S⟩ := orderlyS_shadow commutes_real o
    have hv := ValL.ofRead S.sound.good.inv (by rw [← S.env]; exact S.sound.good.has) (S.vals (fun _ h => h) v)
    have h1 := (hv.nths (is := [1]) (by simp [hn])).read S.sound.good.inv
    obtain ⟨s2, e2, -⟩ := blind_vals _ _ _ _ _ S.alike h1
    obtain rfl := vals_st e2
    rw [e2]
    simp [num]
  refine ⟨by simp [hm], by simp [hn], v1, by simp [hh, tapeLimit], ?_, by simp [eulerFlow, Flow.sem]⟩
  rw [hh]
  refine ⟨by simp, by simp, ⟨?_, ?_, ?_, euler_right 5, ?_⟩, ?_⟩
  · simp [eulerIvp, doubling, Prog.Mild, Instr.Mild]
  · simp [eulerIvp, tapeLimit]
  · exact (doubling_asks (by simp [eulerIvp]) _ _ _ _).1
  · simp [eulerIvp]
  · simp [Flow.Ok, Instr.Ok, Instr.Mild, Bin.domVV, Instr.cost, Instr.sem, eulerIvp, Ivp.states, tapeLimit]
    intro j
    have := Nat.one_le_two_pow (n := j)
    omega

/-- `x ↦ 3 x · x · y` at `x = 5`, `y = 3` -/
example : ∃ (c : Client W) (s' : St W), OrderlyS c ∧ ∀ J : Junk W ℝ,
    gradientL J (eulerFlow.scalarL J ([1].map (nth c.env))) [5] c.st = .ok ((225, [90]), s') := by
  obtain ⟨c, o, v, hh, hm, hn⟩ := orderlyL_three (W := W)
  have o' := o.solves
  obtain ⟨df, s', e, hg, -⟩ := C63_gradient o' (eulerFlow_proper o' v hh hm hn)
  refine ⟨c, s', o', fun J => ?_⟩
  have hd : IsGradAt (fun z => (eulerFlow.sem (z ++ [3])).getD 0 0) [5] [90] := isGradAt_one (by
    have : (fun t : ℝ => (eulerFlow.sem ([t] ++ [3])).getD 0 0) = fun t => 9 * t ^ 2 := by
      funext t
      simp [eulerFlow, Flow.sem, Instr.sem, look, Bin.fn, Ivp.states, eulerIvp]
      ring
    rw [this]
    have := (hasDerivAt_pow 2 (5 : ℝ)).const_mul 9
    norm_num at this
    exact this)
  have hu := hg.unique hd
  rw [e J, hu]
  have : (eulerFlow.sem ([5] ++ [3])).getD 0 0 = 225 := by
    simp [eulerFlow, Flow.sem, Instr.sem, look, Bin.fn, Ivp.states, eulerIvp]
    norm_num
  rw [this]

/-- a history in which the equation has been solved from the variable `y = 3`, and the function differentiated before that -/
example : ∃ (c : Client W) (s s' : St W) (yt : List (List Var)), OrderlyS c ∧ OrderlyS ⟨s, c.env, c.marks⟩ ∧
    OrderlyS ⟨s', c.env ++ yt.flatten, c.marks⟩ ∧ ∀ J : Junk W ℝ,
      (∃ r, jacobianL J (eulerFlow.vectorL J ([1].map (nth c.env))) 1 [5] c.st = .ok (r, s)) ∧
      cvodesSolY0L J euler 0 ([1].map (nth c.env)) [1] doublingF (odeY doubling []) s = .ok (yt, s') := by
  obtain ⟨c, o, v, hh, hm, hn⟩ := orderlyL_three (W := W)
  have o' := o.solves
  obtain ⟨rows, s, e, -, -, hh', hv, o''⟩ := C63_jacobian o' (eulerFlow_proper o' v hh hm hn)
  have v1 := (eulerFlow_proper o'' (hv _ v) (hh'.trans hh) hm hn).2.2.1
  have hp : eulerIvp.ProperY (⟨s, c.env, c.marks⟩ : Client W) [1] [3] := ⟨by simp [hm], by simp [hn], by simp, v1,
    by simp [eulerIvp, doubling, Prog.Mild, Instr.Mild], by simp [eulerIvp, hh', hh, tapeLimit],
    (doubling_asks (by simp [eulerIvp, hh', hh]) _ _ _ _).1, (doubling_asks (hd := 0) (m := 0) (by simp) _ _ _ _).2⟩
  obtain ⟨yt, s', e', o3⟩ := C63_solve_initial o'' hp
  exact ⟨c, s, s', yt, o', o'', o3, fun J => ⟨⟨_, by simpa [eulerFlow, Flow.sem] using e J⟩, e' J⟩⟩

/-- programs without differential equations are among these functions -/
theorem flow_program (p : Prog) (xs : List ℝ) : (p.flow : Flow τ).sem xs = p.sem xs := by
  induction p generalizing xs with
  | ret outs => rfl
  | op i k ih => exact ih _
  | ifVV o i j p q ihp ihq => simp only [Prog.flow, Flow.sem, Prog.sem, ihp, ihq]
  | ifVD o i d p q ihp ihq => simp only [Prog.flow, Flow.sem, Prog.sem, ihp, ihq]

/-- and run as they do -/
theorem flow_program_run (J : Junk W ℝ) (p : Prog) (env : List Var) : (p.flow : Flow τ).runL J env = p.run env := by
  induction p generalizing env with
  | ret outs => rfl
  | op i k ih => simp only [Prog.flow, Flow.runL, Prog.run, ih]
  | ifVV o i j p q ihp ihq => simp only [Prog.flow, Flow.runL, Prog.run, ihp, ihq]
  | ifVD o i d p q ihp ihq => simp only [Prog.flow, Flow.runL, Prog.run, ihp, ihq]

end Props
