import Verif.Proof.Plain
import Verif.Proof.GradTop
import Verif.Props.Reproduce

/-!
# C48: the same numbers as with plain reals

Replacing `real64` by variables does not change what a program computes: `Make.plain`, `Code.plain`
(`Spec/Plain.lean`) say what a call, a program gives when it is executed with numbers.  For every interpretation of
`real64`, so rounding, NaN and infinities are covered.
-/

set_option linter.unusedSectionVars false

namespace Props
open Fz Spec

section generic
variable {W R : Type} [Arith R] [Rep W R] [LawfulRep W R]
variable {h : List (Call R)} {c : Client W}

theorem reach_vals (hr : Reach h c) {e : List Var} (he : ∀ v ∈ e, v ∈ c.env) {ys : List R}
    (hy : (vals e : M W (List R)) c.st = .ok (ys, c.st)) :
    ∃ g val adj, Good c g val adj ∧ ValL ys e g val := by
  obtain ⟨g, val, adj, G⟩ := hr.good
  have hh : ∀ v ∈ e, g.Has v := fun v hv => G.has v (he v hv)
  rw [G.inv.varVals hh] at hy
  cases hy
  exact ⟨g, val, adj, G, ValL.of hh⟩

/-- **C48**: every call that creates variables gives them the numbers the same operation gives on reals. -/
theorem C48_call (hc : Commutes R) (hr : Reach h c) {m : Make R} (ha : ∀ i ∈ m.args, i < c.env.length) (hs : m.Sane)
    (hp : m.Plain) {ys : List R} (hy : (vals c.env : M W (List R)) c.st = .ok (ys, c.st)) {vs : List Var} {s' : St W}
    (hrun : m.call c.env c.st = .ok (vs, s')) :
    (vals vs : M W (List R)) s' = .ok (m.plain ys, s') := by
  obtain ⟨g, val, adj, G, hv⟩ := reach_vals hr (fun _ h => h) hy
  obtain ⟨g', val', adj', ev, hq⟩ := make_gives hc G.inv hv m ha hs hp vs s' hrun
  exact hq.read ev.inv

/-- **C48**: a program with branches gives the numbers, and takes the branches, of the same program on reals. -/
theorem C48_program (hc : Commutes R) (hr : Reach h c) {e : List Var} (he : ∀ v ∈ e, v ∈ c.env) {f : Code R}
    (hs : f.Sane) (hp : f.Plain) {ys : List R} (hy : (vals e : M W (List R)) c.st = .ok (ys, c.st)) {vs : List Var}
    {s' : St W} (hrun : (f.run e : M W (List Var)) c.st = .ok (vs, s')) :
    (vals vs : M W (List R)) s' = .ok (f.plain ys, s') := by
  obtain ⟨g, val, adj, G, hv⟩ := reach_vals hr he hy
  obtain ⟨g', val', adj', ev, hq⟩ := code_gives hc f G.inv hv hs hp vs s' hrun
  exact hq.read ev.inv

/-- **C48**: the first entry of the result of `gradient` is the number the function gives on reals. -/
theorem C48_gradient (hc : Commutes R) (hr : Reach h c) {e : List Var} (he : ∀ v ∈ e, v ∈ c.env) {f : Code R}
    (hs : f.Sane) (hp : f.Plain) {ys : List R} (hy : (vals e : M W (List R)) c.st = .ok (ys, c.st)) {x df : List R}
    {y : R} {s' : St W} (hg : gradient (f.scalar e) x c.st = .ok ((y, df), s')) :
    (f.plain (x ++ ys)).head? = some y := by
  obtain ⟨g, val, adj, G, hv⟩ := reach_vals hr he hy
  unfold gradient at hg
  obtain ⟨_, s1, e1, hg⟩ := Fz.bind_inv hg
  have I1 : Inv s1 g val adj := (G.begin (by simp only [Call.step, e1]; rfl)).1.inv
  obtain ⟨xv, s2, e2, hg⟩ := Fz.bind_inv hg
  obtain ⟨g2, val2, adj2, ev2, hx⟩ := gives_newVars I1 x xv s2 e2
  obtain ⟨fv, s3, e3, hg⟩ := Fz.bind_inv hg
  unfold Code.scalar at e3
  obtain ⟨outs, s4, e4, e3⟩ := Fz.bind_inv e3
  obtain ⟨g4, val4, adj4, ev4, ho⟩ := code_gives hc f ev2.inv (List.rel_append hx (ev2.valL I1 hv)) hs hp outs s4 e4
  obtain ⟨z, s5, e5, hg⟩ := Fz.bind_inv hg
  have hz : z = y := by
    obtain ⟨_, s6, -, hg⟩ := Fz.bind_inv hg
    obtain ⟨_, s7, -, hg⟩ := Fz.bind_inv hg
    obtain ⟨_, s8, -, hg⟩ := Fz.bind_inv hg
    cases hg
    rfl
  subst hz
  cases outs with
  | nil => cases e3
  | cons o os =>
    cases e3
    generalize f.plain (x ++ ys) = l at ho
    cases ho with
    | cons a _ =>
      rw [a.read ev4.inv] at e5
      cases e5
      rfl

/-- **C48**: the first column of the result of `jacobian` are the numbers the function gives on reals. -/
theorem C48_jacobian (hc : Commutes R) (hr : Reach h c) {e : List Var} (he : ∀ v ∈ e, v ∈ c.env) {f : Code R}
    (hs : f.Sane) (hp : f.Plain) {ys : List R} (hy : (vals e : M W (List R)) c.st = .ok (ys, c.st)) {n : Nat}
    {x fx : List R} {J : List (List R)} {s' : St W} (hg : jacobian (f.vector e) n x c.st = .ok ((fx, J), s')) :
    fx = f.plain (x ++ ys) := by
  obtain ⟨g, val, adj, G, hv⟩ := reach_vals hr he hy
  unfold jacobian at hg
  obtain ⟨_, s1, e1, hg⟩ := Fz.bind_inv hg
  have I1 : Inv s1 g val adj := (G.begin (by simp only [Call.step, e1]; rfl)).1.inv
  obtain ⟨xv, s2, e2, hg⟩ := Fz.bind_inv hg
  obtain ⟨g2, val2, adj2, ev2, hx⟩ := gives_newVars I1 x xv s2 e2
  obtain ⟨outs, s4, e4, hg⟩ := Fz.bind_inv hg
  obtain ⟨g4, val4, adj4, ev4, ho⟩ := code_gives hc f ev2.inv (List.rel_append hx (ev2.valL I1 hv)) hs hp outs s4 e4
  obtain ⟨o, s5, e5, hg⟩ := Fz.bind_inv hg
  obtain ⟨z, s6, e6, hg⟩ := Fz.bind_inv hg
  have hz : z = fx := by
    obtain ⟨_, s7, -, hg⟩ := Fz.bind_inv hg
    obtain ⟨_, s8, -, hg⟩ := Fz.bind_inv hg
    cases hg
    rfl
  subst hz
  have : o = outs ∧ s5 = s4 := by
    unfold confN at e5
    split at e5
    · cases e5; exact ⟨rfl, rfl⟩
    · cases e5
  obtain ⟨rfl, rfl⟩ := this
  rw [ho.read ev4.inv] at e6
  cases e6
  rfl

end generic

/-! The hypotheses are met. -/

/-- real arithmetic is an instance -/
theorem commutes_real : Commutes ℝ :=
  ⟨fun x y => mul_comm x y, fun x y => by show Real.sqrt (x ^ 2 + y ^ 2) = Real.sqrt (y ^ 2 + x ^ 2); rw [add_comm]⟩

/-- a function with a branch: `sin x * y` if `x < y`, else `x / y` -/
noncomputable def branchCode : Code ℝ :=
  .look 0 fun x => .look 1 fun y =>
    if x < y then .make (.fn .sin 0) (.make (.bin .mul 2 1) (.ret [3])) else .make (.bin .div 0 1) (.ret [2])

example : branchCode.Sane ∧ branchCode.Plain := by
  constructor
  · intro x y
    dsimp only
    split <;> simp [Code.Sane, Make.Sane]
  · intro x y
    dsimp only
    split <;> simp [Code.Plain, Make.Plain]

example (x y : ℝ) : branchCode.plain [x, y] = if x < y then [Real.sin x * y] else [x / y] := by
  unfold branchCode
  simp only [Code.plain]
  show Code.plain (if x < y then _ else _) _ = _
  split
  · rfl
  · rfl

theorem demo_real {W : Type} [Rep W ℝ] [LawfulRep W ℝ] : ∃ c : Client W, Reach demo c ∧
    (vals c.env : M W (List ℝ)) c.st = .ok ([2, 3, 6], c.st) := by
  obtain ⟨c, hr, hv, -⟩ := demo_reach (W := W)
  exact ⟨c, hr, hv⟩

/-- and the calls succeed after the history `demo`, where the function uses a variable of the caller -/
example {W : Type} [Rep W ℝ] [LawfulRep W ℝ] : ∃ (c : Client W) (y : ℝ) (df : List ℝ) (s' : St W), Reach demo c ∧
    (vals c.env : M W (List ℝ)) c.st = .ok ([2, 3, 6], c.st) ∧ (mulCode 0 1 4).Sane ∧ (mulCode 0 1 4).Plain ∧
    gradient ((mulCode 0 1 4).scalar c.env) [5] c.st = .ok ((y, df), s') ∧ y = 5 * 2 := by
  obtain ⟨c, ⟨y, df⟩, -, s1, -, hr, -, hs, e, -⟩ := times_twice (W := W)
  obtain ⟨c', hr', hv⟩ := demo_real (W := W)
  have hcc : c' = c := by
    have h1 := hr.2
    rw [hr'.2] at h1
    exact Except.ok.inj h1
  subst hcc
  have hp : (mulCode 0 1 4).Plain := ⟨trivial, trivial⟩
  refine ⟨c', y, df, s1, hr, hv, hs, hp, e, ?_⟩
  have := C48_gradient commutes_real hr (fun _ h => h) hs hp hv e
  exact (Option.some.inj this).symm

end Props
