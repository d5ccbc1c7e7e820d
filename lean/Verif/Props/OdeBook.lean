import Verif.Proof.PlanRun
import Verif.Props.LenientOde
import Verif.Props.OdeSol

/-!
# C69: solutions of differential equations are the numbers of the book

In any arithmetic, whatever solver, number of output times and right-hand side: the solver is given the derivatives of
the textbook, and the variables that `cvodes_sol` returns carry the numbers the solver computes from them.
-/

set_option linter.unusedSectionVars false

namespace Props
open Fz Spec
variable {W R : Type} [Arith R] [Rep W R] [LawfulRep W R] {c : Client W} {σ : Type}

/-- **C69**: after every history of correct calls, among them calls of `cvodes_sol`, every correct
`cvodes_sol(t0, y0, ts, f, fy)` completes; its result does not depend on what is in memory; the variables it returns
are new and carry the numbers of the book: the solver's questions about the sensitivities are answered with
`(∂F/∂y) s_j`; all other variables stay what they were. -/
theorem C69_initial (hc : Commutes R) (h : OrderlyL R c) {p : Ode R σ} {is es : List Nat} {z ys : List R}
    (hp : p.ProperY c is es z ys) :
    ∃ yt s', (∀ J : Junk W R, p.callY J (is.map (nth c.env)) (es.map (nth c.env)) c.st = .ok (yt, s')) ∧
      Carries s' (is.map (nth c.env)) z.length yt (p.solY ys z) ∧ Keeps R (es.map (nth c.env)) c.st s' ∧
      ∀ vs ∈ yt, ∀ v ∈ vs, v ∉ existing c.st := by
  obtain ⟨d, g, val, adj, S⟩ := orderlyL_shadow hc h
  obtain ⟨yt, s', h1, h2, h3, h4, -⟩ := S.taskY hc hp
  exact ⟨yt, s', h1, h3, h2.keeps, fun vs hvs v hv => h4 v (List.mem_flatten.mpr ⟨vs, hvs, hv⟩)⟩

/-- **C69** with three parameters: the solver's questions are answered with `(∂F/∂y) s_j + ∂F/∂q_j`; the argument `y`
ends as the solution at the last output time. -/
theorem C69_parameters (hc : Commutes R) (h : OrderlyL R c) {p : Ode R σ} {y : List R} {is es : List Nat}
    {q ys : List R} (hp : p.ProperP c y is es q ys) :
    ∃ yt s', (∀ J : Junk W R, p.callP J y (is.map (nth c.env)) (es.map (nth c.env)) c.st =
        .ok ((yt, ((p.solP ys q y).map Prod.fst).getLastD y), s')) ∧
      Carries s' (is.map (nth c.env)) y.length yt (p.solP ys q y) ∧ Keeps R (es.map (nth c.env)) c.st s' ∧
      ∀ vs ∈ yt, ∀ v ∈ vs, v ∉ existing c.st := by
  obtain ⟨d, g, val, adj, S⟩ := orderlyL_shadow hc h
  obtain ⟨yt, s', h1, h2, h3, h4, -⟩ := S.taskP hc hp
  exact ⟨yt, s', h1, h3, h2.keeps, fun vs hvs v hv => h4 v (List.mem_flatten.mpr ⟨vs, hvs, hv⟩)⟩

/-- **C69**: if the library is built with checks of array shapes, and `cvodes_sol` completes, then the variables it
returns carry the same numbers. -/
theorem C69_checked_initial (hc : Commutes R) (h : OrderlyL R c) {p : Ode R σ} {is es : List Nat} {z ys : List R}
    (hp : p.ProperY c is es z ys) {yt : List (List Var)} {s' : St W}
    (hrun : cvodesSolY0 p.sv p.t0 (is.map (nth c.env)) p.ts p.f (Code.odeY p.F (es.map (nth c.env))) c.st = .ok (yt, s')) :
    Carries s' (is.map (nth c.env)) z.length yt (p.solY ys z) := by
  obtain ⟨yt1, s1, h1, h2, -⟩ := C69_initial hc h hp
  have hr : p.callY (fun _ _ _ _ => Arith.zero) (is.map (nth c.env)) (es.map (nth c.env)) c.st = .ok (yt, s') := by
    unfold cvodesSolY0 at hrun
    unfold Ode.callY cvodesSolY0L
    obtain ⟨z1, t1, e1, k1⟩ := Fz.bind_inv hrun
    rw [bind_ok e1]
    obtain ⟨r, t2, e2, k2⟩ := Fz.bind_inv k1
    simp only at k2 ⊢
    rw [bind_ok (refines_solLoop _ _ _ _ _ _ _ _ _ _ _ e2)]
    exact k2
  rw [h1] at hr
  cases hr
  exact h2

/-- **C69** with parameters -/
theorem C69_checked_parameters (hc : Commutes R) (h : OrderlyL R c) {p : Ode R σ} {y : List R} {is es : List Nat}
    {q ys : List R} (hp : p.ProperP c y is es q ys) {yt : List (List Var)} {y1 : List R} {s' : St W}
    (hrun : cvodesSolPar p.sv p.t0 y p.ts (is.map (nth c.env)) p.f (Code.odeP p.F (es.map (nth c.env))) c.st =
      .ok ((yt, y1), s')) :
    Carries s' (is.map (nth c.env)) y.length yt (p.solP ys q y) ∧ y1 = ((p.solP ys q y).map Prod.fst).getLastD y := by
  obtain ⟨yt1, s1, h1, h2, -⟩ := C69_parameters hc h hp
  have hr : p.callP (fun _ _ _ _ => Arith.zero) y (is.map (nth c.env)) (es.map (nth c.env)) c.st = .ok ((yt, y1), s') := by
    unfold cvodesSolPar at hrun
    unfold Ode.callP cvodesSolParL
    obtain ⟨z1, t1, e1, k1⟩ := Fz.bind_inv hrun
    rw [bind_ok e1]
    exact refines_solLoop _ _ _ _ _ _ _ _ _ _ _ k1
  rw [h1] at hr
  cases hr
  exact ⟨h2, rfl⟩

/-- **C69**: after such a history every correct call completes, and a correct call of `gradient` or `jacobian`, which
may use the solutions, returns the numbers of the book. -/
theorem C69_goes_on (hc : Commutes R) (h : OrderlyL R c) :
    (∀ k : Call R, k.ProperL c → ∃ c', ∀ J : Junk W R, k.execL J c = .ok c') ∧
    ∀ (is : List Nat) (ys : List R) (q : Ask R), q.ProperL c is ys →
      ∃ r s', (∀ J : Junk W R, (q.callL J (is.map (nth c.env)) : M W (Answer R)) c.st = .ok (r, s')) ∧ q.book ys = some r := by
  obtain ⟨d, g, val, adj, S⟩ := orderlyL_shadow hc h
  refine ⟨fun k hk => ?_, fun is ys q hq => ?_⟩
  · obtain ⟨c', e, -⟩ := S.exec hk
    exact ⟨c', e⟩
  · obtain ⟨r, s', e, hb, -⟩ := S.ask hc hq
    exact ⟨r, s', e, hb⟩

/-- `y' = a y`, where `a` is a variable of the caller -/
noncomputable def scaling : Code ℝ := .make (.bin .mul 0 2) <| .ret [3]

/-- solved with the Euler method, two output times -/
noncomputable def scalingOde : Ode ℝ (ℝ × List ℝ × List (List ℝ)) :=
  ⟨euler, 0, [1, 2], fun _ y => y.map fun v => 2 * v, fun _ => scaling⟩

/-- `y' = q₁ y` with three parameters -/
noncomputable def scalingQ : Code ℝ := .make (.bin .mul 0 2) <| .ret [5]

noncomputable def scalingP : Ode ℝ (ℝ × List ℝ × List (List ℝ)) :=
  ⟨euler, 0, [1, 2], fun _ y => y.map fun v => 2 * v, fun _ => scalingQ⟩

theorem scaling_rows (y : ℝ) : scaling.rows [2] [y] [] = [[2, 0]] := by
  simp [Code.rows, Code.bookJacobian, scaling, rhsInputs, Code.steps, Code.write, Make.write, Log.next, Log.each, Log.ret,
    Bin.write, Bin.pass, Bin.plain, step, input, opd, rowOf, backFrom, receive, seed, List.range_succ, Arith.mul]

theorem scalingQ_rows (y : ℝ) : scalingQ.rows [] [y] [2, 3, 6] = [[2, 0, y, 0, 0]] := by
  simp [Code.rows, Code.bookJacobian, scalingQ, rhsInputs, Code.steps, Code.write, Make.write, Log.next, Log.each, Log.ret,
    Bin.write, Bin.pass, Bin.plain, step, input, opd, rowOf, backFrom, receive, seed, List.range_succ, Arith.mul]

theorem few (n : Nat) (hn : n ≤ 100) (j : Nat) : n ≠ 12288 * 2 ^ j + 1 := by
  have := Nat.one_le_two_pow (n := j)
  omega

/-- the hypotheses of `C69_initial` are met: `y' = a y` for `a = 2`, `y(0) = 3`, two steps of the Euler method with
solutions 9, 27 and sensitivities 3, 9 -/
example {W : Type} [Rep W ℝ] [LawfulRep W ℝ] : ∃ c : Client W, OrderlyL ℝ c ∧ scalingOde.ProperY c [1] [0] [3] [2] ∧
    scalingOde.solY [2] [3] = [([9], [[3]]), ([27], [[9]])] := by
  obtain ⟨c, o, v, hh, hm, hn⟩ := orderlyL_three (W := W)
  obtain ⟨d, g, val, adj, S⟩ := orderlyL_shadow commutes_real o
  have hv := ValL.ofRead S.sound.good.inv (by rw [← S.env]; exact S.sound.good.has) (S.vals (fun _ h => h) v)
  have rd : ∀ is : List Nat, (∀ i ∈ is, i < 3) →
      (vals (is.map (nth c.env)) : M W (List ℝ)) c.st = .ok (is.map (num [2, 3, 6]), c.st) := by
    intro is hi
    have h1 := (hv.nths (is := is) (by simpa [hn] using hi)).read S.sound.good.inv
    obtain ⟨s2, e2, -⟩ := blind_vals _ _ _ _ _ S.alike h1
    have := vals_st e2
    subst this
    exact e2
  have ok : ∀ hd ≤ 50, ∀ y s : ℝ, scaling.Callable [2] [] 1 1 hd [y] [[s]] := by
    intro hd hh y s
    refine ⟨rfl, rfl, by simp, ⟨⟨trivial, trivial⟩, ⟨trivial, trivial⟩, ⟨trivial, trivial⟩, ?_, by simp [rhsInputs], ?_, ?_, ?_⟩, rfl, trivial⟩
    · simp [scaling, Code.Meets, Make.args, Make.Meets, Make.plain, rhsInputs]
    · simp [scaling, Code.plain]
    · simp [scaling, Code.words, Make.words, tapeLimit, rhsInputs]
      omega
    · simp only [scaling, Code.words, Make.words, rhsInputs]
      exact few _ (by simp; omega)
  refine ⟨c, o, ⟨by simp [hm], by simp [hn], by simp [hn], ?_, ?_, ?_⟩, ?_⟩
  · rw [rd [1] (by simp)]
    simp [num]
  · rw [rd [0] (by simp)]
    simp [num]
  · rw [hh]
    have o1 := ok 21 (by simp)
    have o2 := ok 30 (by simp)
    simp [scalingOde, SucceedsBook, AsksBook, solveBook, euler, Ode.startY, List.range_succ, Code.sensY, scaling_rows, o1, o2,
      tapeLimit]
  · simp [scalingOde, Ode.solY, Ode.startY, solsBook, solveBook, euler, Code.sensY, scaling_rows, fdot, Arith.dotOf, List.range_succ]
    norm_num

/-- the hypotheses of `C69_parameters` are met -/
example {W : Type} [Rep W ℝ] [LawfulRep W ℝ] : ∃ c : Client W, OrderlyL ℝ c ∧
    scalingP.ProperP c [3] [0, 1, 2] [] [2, 3, 6] [] ∧
    scalingP.solP [] [2, 3, 6] [3] = [([9], [[3], [0], [0]]), ([27], [[18], [0], [0]])] := by
  obtain ⟨c, o, v, hh, hm, hn⟩ := orderlyL_three (W := W)
  have ok : ∀ hd ≤ 50, ∀ y s1 s2 s3 : ℝ, scalingQ.Callable [] [2, 3, 6] 1 3 hd [y] [[s1], [s2], [s3]] := by
    intro hd hh y s1 s2 s3
    refine ⟨rfl, rfl, by simp, ⟨⟨trivial, trivial⟩, ⟨trivial, trivial⟩, ⟨trivial, trivial⟩, ?_, by simp [rhsInputs], ?_, ?_, ?_⟩, rfl, trivial⟩
    · simp [scalingQ, Code.Meets, Make.args, Make.Meets, Make.plain, rhsInputs]
    · simp [scalingQ, Code.plain]
    · simp [scalingQ, Code.words, Make.words, tapeLimit, rhsInputs]
      omega
    · simp only [scalingQ, Code.words, Make.words, rhsInputs]
      exact few _ (by simp; omega)
  have hz : c.env = [0, 1, 2].map (nth c.env) := by
    obtain ⟨a, b, e, hl⟩ := List.length_eq_three.mp hn
    rw [hl]
    rfl
  refine ⟨c, o, ⟨by simp [hm], by simp [hn], by simp, rfl, by rw [← hz]; exact v, rfl, ?_⟩, ?_⟩
  · rw [hh]
    have o1 := ok 21 (by simp)
    have o2 := ok 36 (by simp)
    simp [scalingP, SucceedsBook, AsksBook, solveBook, euler, Ode.startP, List.replicate, Code.sensP, scalingQ_rows, o1, o2,
      tapeLimit]
  · simp [scalingP, Ode.solP, Ode.startP, solsBook, solveBook, euler, Code.sensP, scalingQ_rows, fdot, Arith.dotOf, List.replicate]
    norm_num

end Props
