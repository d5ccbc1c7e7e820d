import Verif.Proof.AlgoFlow
import Verif.Props.Algo
import Verif.Props.Flow

/-!
# C67, C63: functions whose control flow depends on values, without checks of array shapes
-/

set_option linter.unusedSectionVars false

namespace Props
open Fz Arith Spec

variable {W : Type} [Rep W ℝ] [LawfulRep W ℝ] {a : Algo} {c : Client W}

/-- **C67**, `gradient` without checks of array shapes: after every history of correct calls (C63), whatever is in memory,
a correct call completes.  The value is that of the function; the list are the partial derivatives of the straight-line
program carried out at the point, and those of the function if small changes of the inputs do not change the decisions.
The tape and the values of all variables are as before, and everything said of correct histories holds again. -/
theorem C67_gradient_unchecked (h : OrderlyS c) {is : List Nat} {ys x : List ℝ} (hf : a.ProperL c is ys x) :
    ∃ df s', (∀ J : Junk W ℝ, gradientL J (a.scalarFn (is.map (nth c.env))) x c.st =
        .ok (((a.sem (x ++ ys)).getD 0 0, df), s')) ∧
      IsGradAt (fun z => ((a.path (x ++ ys)).sem (z ++ ys)).getD 0 0) x df ∧
      (a.Steady x ys → IsGradAt (fun z => (a.sem (z ++ ys)).getD 0 0) x df) ∧ s'.tape.head = c.st.tape.head ∧
      (∀ w : List ℝ, vals c.env c.st = .ok (w, c.st) → vals c.env s' = .ok (w, s')) ∧ OrderlyS ⟨s', c.env, c.marks⟩ := by
  obtain ⟨d, g, val, adj, S⟩ := orderlyS_shadow commutes_real h
  obtain ⟨df, s', e, hg, r⟩ := C63_gradient h (algo_proper (τ := Unit) hf)
  simp only [flow_sem] at e hg
  rw [Algo.path_sem] at e
  exact ⟨df, s', fun J => (S.algoGradient hf J).trans (e J), hg, fun hst => algo_grad hst hg, r⟩

/-- **C67**, `jacobian` without checks of array shapes, likewise. -/
theorem C67_jacobian_unchecked (h : OrderlyS c) {is : List Nat} {ys x : List ℝ} (hf : a.ProperL c is ys x) :
    ∃ rows s', (∀ J : Junk W ℝ, jacobianL J (a.vectorFn (is.map (nth c.env))) (a.sem (x ++ ys)).length x c.st =
        .ok ((a.sem (x ++ ys), rows), s')) ∧ rows.length = (a.sem (x ++ ys)).length ∧
      (∀ k (hk : k < rows.length), IsGradAt (fun z => ((a.path (x ++ ys)).sem (z ++ ys)).getD k 0) x rows[k]) ∧
      (a.Steady x ys → ∀ k (hk : k < rows.length), IsGradAt (fun z => (a.sem (z ++ ys)).getD k 0) x rows[k]) ∧
      s'.tape.head = c.st.tape.head ∧
      (∀ w : List ℝ, vals c.env c.st = .ok (w, c.st) → vals c.env s' = .ok (w, s')) ∧ OrderlyS ⟨s', c.env, c.marks⟩ := by
  obtain ⟨d, g, val, adj, S⟩ := orderlyS_shadow commutes_real h
  obtain ⟨rows, s', e, hr, hg, r⟩ := C63_jacobian h (algo_proper (τ := Unit) hf)
  simp only [flow_sem] at e hg hr
  rw [Algo.path_sem] at e hr
  exact ⟨rows, s', fun J => (S.algoJacobian hf J _).trans (e J), hr, hg, fun hst k hk => algo_grad hst (hg k hk), r⟩

/-! `peek` after a history: it looks at a variable of the caller -/

theorem peek_proper {c : Client W} (o : OrderlyS c) (v : (vals c.env : M W (List ℝ)) c.st = .ok ([2, 3, 6], c.st))
    (hh : c.st.tape.head = 21) (hm : c.marks = []) (hn : c.env.length = 3) : peek.ProperL c [0, 1, 2] [2, 3, 6] [7] := by
  have v0 : (vals ([0, 1, 2].map (nth c.env)) : M W (List ℝ)) c.st = .ok ([2, 3, 6], c.st) := by
    obtain ⟨d, g, val, adj, S⟩ := orderlyS_shadow commutes_real o
    have hv := ValL.ofRead S.sound.good.inv (by rw [← S.env]; exact S.sound.good.has) (S.vals (fun _ h => h) v)
    have h1 := (hv.nths (is := [0, 1, 2]) (by simp [hn])).read S.sound.good.inv
    obtain ⟨s2, e2, -⟩ := blind_vals _ _ _ _ _ S.alike h1
    obtain rfl := vals_st e2
    rw [e2]
    simp [num]
  refine ⟨by simp [hm], by simp [hn], v0, ?_, peek_ok, ?_, ?_, fun j => ?_⟩
  · simp [peek_path, Prog.Mild, Instr.Mild]
  · rw [← Algo.path_sem]
    simp [peek_path, Prog.sem]
  · simp [peek_path, hh, Prog.cost, Instr.cost, tapeLimit]
  · have := Nat.one_le_two_pow (n := j)
    simp [peek_path, hh, Prog.cost, Instr.cost]
    omega

/-- `x ↦ (x y, x)` where `y = 2` is a variable of the caller: the derivatives at `x = 7` -/
example : ∃ (c : Client W) (s' s'' : St W), OrderlyS c ∧
    (∀ J : Junk W ℝ, gradientL J (peek.scalarFn ([0, 1, 2].map (nth c.env))) [7] c.st = .ok ((14, [2]), s')) ∧
    ∀ J : Junk W ℝ, jacobianL J (peek.vectorFn ([0, 1, 2].map (nth c.env))) 2 [7] s' =
      .ok (([14, 7], [[2], [1]]), s'') := by
  obtain ⟨c, o, v, hh, hm, hn⟩ := orderlyL_three (W := W)
  have hs : ∀ t : ℝ, peek.sem ([t] ++ [2, 3, 6]) = [t * 2, t] := fun t => by
    rw [← Algo.path_sem]
    simp [peek_path, Prog.sem, Instr.sem, Bin.fn, look]
  have hst : peek.Steady [7] [2, 3, 6] := by
    refine .of_forall fun y => ?_
    have : List.ofFn y = [y 0] := by simp
    rw [this]
    exact peek_path.trans peek_path.symm
  have g0 : IsGradAt (fun z => (peek.sem (z ++ [2, 3, 6])).getD 0 0) [7] [2] := isGradAt_one (by
    simp only [hs, List.getD_cons_zero]
    simpa using (hasDerivAt_id (7 : ℝ)).mul_const 2)
  have g1 : IsGradAt (fun z => (peek.sem (z ++ [2, 3, 6])).getD 1 0) [7] [1] := isGradAt_one (by
    simp only [hs, List.getD_cons_succ, List.getD_cons_zero]
    exact hasDerivAt_id (7 : ℝ))
  obtain ⟨df, s', e, -, hg, hh', hv, o'⟩ := C67_gradient_unchecked o.solves (peek_proper o.solves v hh hm hn)
  obtain ⟨rows, s'', e', hl, -, hr, -⟩ := C67_jacobian_unchecked o' (peek_proper o' (hv _ v) (hh'.trans hh) hm hn)
  refine ⟨c, s', s'', o.solves, fun J => ?_, fun J => ?_⟩
  · rw [e J, (hg hst).unique g0, hs]
    norm_num
  · have h2 := e' J
    rw [hs] at h2 hl
    have hl2 : rows.length = 2 := hl
    obtain ⟨r0, r1, rfl⟩ : ∃ r0 r1, rows = [r0, r1] := by
      match rows, hl2 with
      | [r0, r1], _ => exact ⟨r0, r1, rfl⟩
    have e0 : r0 = [2] := (hr hst 0 (by simp)).unique g0
    have e1 : r1 = [1] := (hr hst 1 (by simp)).unique g1
    subst e0 e1
    norm_num at h2
    exact h2

/-! A function that looks at the variable of the caller before it solves a differential equation: C63. -/

/-- below 4 the equation is solved -/
noncomputable def choosy : Flow (ℝ × List ℝ × List (List ℝ)) :=
  .look 1 fun v => if v < 4 then eulerFlow else .ret [0]

theorem choosy_proper {c : Client W} (o : OrderlyS c) (v : (vals c.env : M W (List ℝ)) c.st = .ok ([2, 3, 6], c.st))
    (hh : c.st.tape.head = 21) (hm : c.marks = []) (hn : c.env.length = 3) : choosy.ProperL c [1] [3] [5] := by
  obtain ⟨h1, h2, h3, h4, h5, h6⟩ := eulerFlow_proper o v hh hm hn
  have h : look ([5] ++ [3] : List ℝ) 1 < 4 := by norm_num [look]
  refine ⟨h1, h2, h3, h4, ⟨by simp, ⟨1 / 2, by norm_num, fun b hb zs _ _ => ?_⟩, ?_⟩, ?_⟩
  · dsimp only
    rw [if_pos h, if_pos]
    have := (abs_lt.mp hb).2
    norm_num [look] at this
    linarith
  · dsimp only
    rw [if_pos h]
    exact h5
  · simp only [choosy, Flow.sem]
    rw [if_pos h]
    exact h6

/-- its derivative -/
example : ∃ (c : Client W) (s' : St W), OrderlyS c ∧ ∀ J : Junk W ℝ,
    ∃ df, gradientL J (choosy.scalarL J ([1].map (nth c.env))) [5] c.st =
      .ok (((choosy.sem ([5] ++ [3])).getD 0 0, df), s') ∧ IsGradAt (fun z => (choosy.sem (z ++ [3])).getD 0 0) [5] df := by
  obtain ⟨c, o, v, hh, hm, hn⟩ := orderlyL_three (W := W)
  obtain ⟨df, s', e, hg, -⟩ := C63_gradient o.solves (choosy_proper o.solves v hh hm hn)
  exact ⟨c, s', o.solves, fun J => ⟨df, e J, hg⟩⟩

end Props
