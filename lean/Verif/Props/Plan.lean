import Verif.Props.OdeBook
import Verif.Props.DeepLenient

/-!
# C70: `gradient` and `jacobian` for functions that solve differential equations, in any arithmetic

A user's function may, while it is being differentiated, call `cvodes_sol` any number of times, go on with the solutions,
decide on values, and call `gradient` and `jacobian` itself (`Plan`, `Spec/Plan.lean`).  Without checks of array shapes,
and for every interpretation of `real64` with commutative product, `jacobian` then completes with the numbers of the book,
in which a component of a solution is a step that passes its adjoint times its sensitivities to the initial values or
parameters.  `gradient` does so if the right-hand sides use no variables of the function; otherwise it need not
(`C70_refuted`), since the sweeps for the right-hand sides leave adjoints behind in these variables.
-/

set_option linter.unusedSectionVars false

namespace Fz
variable {W R : Type} [Arith R] [Rep W R]
open Spec

theorem refines_callY {τ : Type} (J : Junk W R) (p : Ode R τ) (z e : List Var) :
    Refines (p.callY J z e) (cvodesSolY0 p.sv p.t0 z p.ts p.f (Code.odeY p.F e)) :=
  .bind .rfl fun _ => .bind (refines_solLoop _ _ _ _ _ _ _ _) fun _ => .rfl

theorem refines_callP {τ : Type} (J : Junk W R) (p : Ode R τ) (y : List R) (q e : List Var) :
    Refines (p.callP J y q e) (cvodesSolPar p.sv p.t0 y p.ts q p.f (Code.odeP p.F e)) :=
  .bind .rfl fun _ => refines_solLoop _ _ _ _ _ _ _ _

theorem refines_plan (J : Junk W R) (f : Plan R) : ∀ env, Refines (f.runL J env : M W (List Var)) (f.run env) := by
  induction f with
  | ret is => intro env; unfold Plan.runL Plan.run; exact .rfl
  | make m k ih =>
    intro env
    unfold Plan.runL Plan.run
    exact refines_ite (.bind .rfl fun _ => ih _)
  | look i k ih =>
    intro env
    unfold Plan.runL Plan.run
    exact refines_ite (.bind .rfl fun _ => ih _ _)
  | init p is es k ih =>
    intro env
    unfold Plan.runL Plan.run
    exact refines_ite (.bind (refines_callY J p _ _) fun _ => ih _)
  | par p y is es k ih =>
    intro env
    unfold Plan.runL Plan.run
    exact refines_ite (.bind (refines_callP J p _ _ _) fun _ => ih _)
  | gradient f x is k ihf ihk =>
    intro env
    unfold Plan.runL Plan.run
    exact refines_ite (.bind (refines_gradientOf J (fun xv => .bind (ihf _) fun _ => .rfl) x) fun _ => ihk _ _ _)
  | jacobian f n x is k ihf ihk =>
    intro env
    unfold Plan.runL Plan.run
    exact refines_ite (.bind (refines_jacobianOf J (fun xv _ => ihf _) n x) fun _ => ihk _ _ _)

end Fz

namespace Props
open Fz Spec

section generic
variable {W R : Type} [Arith R] [Rep W R] [LawfulRep W R] {c : Client W}

/-- **C70**, `jacobian`: after every history of correct calls a correct call completes and returns the numbers of the
book, whatever is in memory; all variables of the caller keep their values, and the tape is as long as before.  The
right-hand sides and inner functions may use variables of the function. -/
theorem C70_jacobian (hc : Commutes R) (h : OrderlyL R c) {f : Plan R} {is : List Nat} {ys x : List R}
    (hf : f.ProperL c is ys x) (hk : f.Careful) (hx : x ++ ys ≠ []) :
    ∃ s', (∀ J : Junk W R, jacobianL J (f.vectorL J (is.map (nth c.env))) (f.bookJacobian ys x).1.length x c.st =
        .ok (f.bookJacobian ys x, s')) ∧ OrderlyL R ⟨s', c.env, c.marks⟩ ∧ s'.tape.head = c.st.tape.head ∧
      (vals c.env : M W (List R)) s' = (vals c.env c.st).map (fun r => (r.1, s')) := by
  obtain ⟨d, g, val, adj, S⟩ := orderlyL_shadow hc h
  obtain ⟨s', e, h1, h2, -⟩ := S.planJacobian hc hf hk hx
  exact ⟨s', e, .jacobian (fun _ _ _ _ => Arith.zero) f is ys x _ h hf hk hx (e _), h1, h2⟩

/-- **C70**, `gradient`: the same, if the right-hand sides use no variables of the function, which makes no inner calls
(`f.Apart`).  Missing: right-hand sides that use them, for which the claim is false, see `C70_refuted`, and inner calls,
for which it is false in general (`C62_refuted`). -/
theorem C70_gradient_partial (hc : Commutes R) (h : OrderlyL R c) {f : Plan R} {is : List Nat} {ys x : List R}
    (hf : f.ProperL c is ys x) (ha : f.Apart) (hk : f.Careful) (hr : f.bookGradient ys x ≠ none) :
    ∃ r s', (∀ J : Junk W R, gradientL J (f.scalarL J (is.map (nth c.env))) x c.st = .ok (r, s')) ∧
      f.bookGradient ys x = some r ∧ OrderlyL R ⟨s', c.env, c.marks⟩ ∧ s'.tape.head = c.st.tape.head ∧
      (vals c.env : M W (List R)) s' = (vals c.env c.st).map (fun r => (r.1, s')) := by
  obtain ⟨d, g, val, adj, S⟩ := orderlyL_shadow hc h
  obtain ⟨r, s', e, hb, h1, h2, -⟩ := S.planGradient hc hf ha hk hr
  exact ⟨r, s', e, hb, .gradient (fun _ _ _ _ => Arith.zero) f is ys x _ h hf ha hk hr (e _), h1, h2⟩

/-- **C70**: where the program with checks of array shapes does not fail, the program without does the same, whatever
is in memory. -/
theorem C70_agree (J : Junk W R) {f : Plan R} {e : List Var} {n : Nat} {x : List R} {s s' : St W} :
    (∀ r, gradient (f.scalar e) x s = .ok (r, s') → gradientL J (f.scalarL J e) x s = .ok (r, s')) ∧
    ∀ r, jacobian (f.vector e) n x s = .ok (r, s') → jacobianL J (f.vectorL J e) n x s = .ok (r, s') :=
  ⟨fun r h => refines_gradientOf J (fun _ => .bind (refines_plan J f _) fun _ => .rfl) x _ _ _ h,
    fun r h => refines_jacobianOf J (fun _ _ => refines_plan J f _) n x _ _ _ h⟩

/-- **C70**, with checks of array shapes: if `jacobian` completes, it returns the numbers of the book. -/
theorem C70_checked_jacobian (hc : Commutes R) (h : OrderlyL R c) {f : Plan R} {is : List Nat} {ys x : List R}
    (hf : f.ProperL c is ys x) (hk : f.Careful) (hx : x ++ ys ≠ []) {r : List R × List (List R)} {s' : St W}
    (e : jacobian (f.vector (is.map (nth c.env))) (f.bookJacobian ys x).1.length x c.st = .ok (r, s')) :
    r = f.bookJacobian ys x := by
  obtain ⟨s1, e1, -⟩ := C70_jacobian hc h hf hk hx
  have e2 := (C70_agree (fun _ _ _ _ => Arith.zero)).2 r e
  rw [e1] at e2
  cases e2
  rfl

/-- **C70**, with checks of array shapes: if `gradient` completes, it returns the numbers of the book.  Missing as in
`C70_gradient_partial`. -/
theorem C70_checked_gradient_partial (hc : Commutes R) (h : OrderlyL R c) {f : Plan R} {is : List Nat} {ys x : List R}
    (hf : f.ProperL c is ys x) (ha : f.Apart) (hk : f.Careful) (hr : f.bookGradient ys x ≠ none) {r : R × List R}
    {s' : St W} (e : gradient (f.scalar (is.map (nth c.env))) x c.st = .ok (r, s')) : f.bookGradient ys x = some r := by
  obtain ⟨r1, s1, e1, hb, -⟩ := C70_gradient_partial hc h hf ha hk hr
  have e2 := (C70_agree (n := 0) (fun _ _ _ _ => Arith.zero)).1 r e
  rw [e1] at e2
  cases e2
  exact hb

/-- **C70**: after such a history every correct call completes, with a result that does not depend on what is in memory;
a correct call of `gradient` or `jacobian` for a function that solves nothing returns the numbers of the book; and a
differential equation is solved with the numbers of the book. -/
theorem C70_goes_on (hc : Commutes R) (h : OrderlyL R c) :
    (∀ k : Call R, k.ProperL c → ∃ c', ∀ J : Junk W R, k.execL J c = .ok c') ∧
    (∀ (is : List Nat) (ys : List R) (q : Ask R), q.ProperL c is ys →
      ∃ r s', (∀ J : Junk W R, (q.callL J (is.map (nth c.env)) : M W (Answer R)) c.st = .ok (r, s')) ∧
        q.book ys = some r) ∧
    (∀ (τ : Type) (p : Ode R τ) (is es : List Nat) (z ys : List R), p.ProperY c is es z ys →
      ∃ yt s', (∀ J : Junk W R, (p.callY J (is.map (nth c.env)) (es.map (nth c.env))) c.st = .ok (yt, s')) ∧
        Carries s' (is.map (nth c.env)) z.length yt (p.solY ys z)) ∧
    ∀ (τ : Type) (p : Ode R τ) (y : List R) (is es : List Nat) (q ys : List R), p.ProperP c y is es q ys →
      ∃ yt y1 s', (∀ J : Junk W R, (p.callP J y (is.map (nth c.env)) (es.map (nth c.env))) c.st = .ok ((yt, y1), s')) ∧
        Carries s' (is.map (nth c.env)) y.length yt (p.solP ys q y) := by
  obtain ⟨d, g, val, adj, S⟩ := orderlyL_shadow hc h
  refine ⟨fun k hk => ?_, fun is ys q hq => ?_, fun τ p is es z ys hp => ?_, fun τ p y is es q ys hp => ?_⟩
  · obtain ⟨c', e, -⟩ := S.exec hk
    exact ⟨c', e⟩
  · obtain ⟨r, s', e, hb, -⟩ := S.ask hc hq
    exact ⟨r, s', e, hb⟩
  · obtain ⟨yt, s', e, -, hb, -⟩ := S.taskY hc hp
    exact ⟨yt, s', e, hb⟩
  · obtain ⟨yt, s', e, -, hb, -⟩ := S.taskP hc hp
    exact ⟨yt, _, s', e, hb⟩

/-- a function that solves nothing and makes no inner calls, as a plan -/
def ofCode : Code R → Plan R
  | .ret is => .ret is
  | .make m k => .make m (ofCode k)
  | .look i k => .look i fun x => ofCode (k x)

/-- **C70**: for a function that solves nothing the book is the book of C49 -/
theorem C70_code (f : Code R) (ys x : List R) :
    (ofCode f).bookGradient ys x = f.bookGradient ys x ∧ (ofCode f).bookJacobian ys x = f.bookJacobian ys x := by
  have h : ∀ (f : Code R) (env : List (Num R)), (ofCode f).write env = f.write env := by
    intro f
    induction f with
    | ret is => intro env; rfl
    | make m k ih =>
      intro env
      simp only [ofCode, Plan.write, Code.write]
      congr 1
      funext vs
      exact ih _
    | look i k ih => intro env; exact ih _ env
  have hf : (ofCode f).write = f.write := funext (h f)
  constructor
  · unfold Plan.bookGradient
    rw [hf]
    rfl
  · unfold Plan.bookJacobian
    rw [hf]
    rfl

end generic

section real
variable {W : Type} [Rep W ℝ] [LawfulRep W ℝ]

/-! The hypotheses are met: `jacobian` for `z y(2)`, where `y' = a y`, `y(0) = z`, at `a = 2`, `z = 3`, solved by the
Euler method, whose right-hand side uses the variable `a` of the function; then `gradient` for `q₁ y(2)`, where
`y' = q₁ y` with three parameters. -/

noncomputable def zTimes : Plan ℝ := .init scalingOde [1] [0] <| .make (.bin .mul 1 3) <| .ret [4]

noncomputable def qTimes : Plan ℝ := .par scalingP [3] [0, 1, 2] [] <| .make (.bin .mul 0 4) <| .ret [5]

theorem scaling_callable {hd : Nat} (hh : hd ≤ 50) (y s : ℝ) : scaling.Callable [2] [] 1 1 hd [y] [[s]] := by
  refine ⟨rfl, rfl, by simp, ⟨⟨trivial, trivial⟩, ⟨trivial, trivial⟩, ⟨trivial, trivial⟩, ?_, by simp [rhsInputs], ?_, ?_, ?_⟩, rfl, trivial⟩
  · simp [scaling, Code.Meets, Make.args, Make.Meets, Make.plain, rhsInputs]
  · simp [scaling, Code.plain]
  · simp [scaling, Code.words, Make.words, tapeLimit, rhsInputs]
    omega
  · simp only [scaling, Code.words, Make.words, rhsInputs]
    exact few _ (by simp; omega)

theorem scalingQ_callable {hd : Nat} (hh : hd ≤ 50) (y s1 s2 s3 : ℝ) :
    scalingQ.Callable [] [2, 3, 6] 1 3 hd [y] [[s1], [s2], [s3]] := by
  refine ⟨rfl, rfl, by simp, ⟨⟨trivial, trivial⟩, ⟨trivial, trivial⟩, ⟨trivial, trivial⟩, ?_, by simp [rhsInputs], ?_, ?_, ?_⟩, rfl, trivial⟩
  · simp [scalingQ, Code.Meets, Make.args, Make.Meets, Make.plain, rhsInputs]
  · simp [scalingQ, Code.plain]
  · simp [scalingQ, Code.words, Make.words, tapeLimit, rhsInputs]
    omega
  · simp only [scalingQ, Code.words, Make.words, rhsInputs]
    exact few _ (by simp; omega)

theorem scaling_comps : scalingOde.compsY [2] [3] = [(9, [3]), (27, [9])] := by
  simp [Ode.compsY, components, scalingOde, Ode.solY, Ode.startY, solsBook, solveBook, euler, Code.sensY, scaling_rows, fdot, Arith.dotOf, List.range_succ]
  norm_num

theorem scalingP_comps : scalingP.compsP [] [2, 3, 6] [3] = [(9, [3, 0, 0]), (27, [18, 0, 0])] := by
  simp [Ode.compsP, components, scalingP, Ode.solP, Ode.startP, solsBook, solveBook, euler, Code.sensP, scalingQ_rows, fdot, Arith.dotOf, List.replicate, List.range_succ]
  norm_num

theorem zTimes_book : zTimes.bookJacobian [] [2, 3] = ([81], [[0, 54]]) := by
  simp [zTimes, Plan.bookJacobian, jacobianOf, stepsOf, Plan.write, solSteps, Make.write,
    Log.next, Log.each, Log.ret, Bin.write, step, input, opd, rowOf, backFrom, receive, seed, List.range_succ, Bin.pass,
    Bin.plain, Arith.mul, Arith.one, Arith.zero, Arith.add, scaling_comps]
  norm_num

theorem qTimes_book : qTimes.bookGradient [] [2, 3, 6] = some (54, [63, 0, 0]) := by
  simp [qTimes, Plan.bookGradient, gradientOf, stepsOf, Plan.write, solSteps, Make.write,
    Log.next, Log.each, Log.ret, Bin.write, step, input, opd, rowOf, backFrom, receive, seed, List.range_succ, Bin.pass,
    Bin.plain, Arith.mul, Arith.one, Arith.zero, Arith.add, scalingP_comps]
  norm_num

theorem zTimes_suits {c : Client W} (hm : c.marks = []) (hh : c.st.tape.head = 1) : zTimes.ProperL c [] [] [2, 3] := by
  refine ⟨by simp, rfl, ⟨⟨trivial, trivial, trivial⟩, trivial⟩, by simp [hm], by simp [hh, tapeLimit], ?_, ?_⟩
  · rw [hm, hh]
    refine ⟨by simp, by simp, by simp, ?_, ?_⟩
    · have o1 := @scaling_callable 13 (by simp)
      have o2 := @scaling_callable 22 (by simp)
      simp [num, scalingOde, SucceedsBook, AsksBook, solveBook, euler, Ode.startY, List.range_succ, Code.sensY, scaling_rows,
        o1, o2, tapeLimit]
    · simp only [num, List.map_cons, List.map_nil, List.cons_append, List.nil_append, List.getD_cons_zero, List.getD_cons_succ,
        scaling_comps]
      simp [Plan.Suits, Make.args, Make.Meets, Make.product, Make.words, Make.plain, scalingOde, tapeLimit]
  · intro j
    refine few_not_full ?_ j
    simp [hh, zTimes, Plan.words, Make.words, scalingOde]

theorem qTimes_suits {c : Client W} (hm : c.marks = []) (hh : c.st.tape.head = 1) : qTimes.ProperL c [] [] [2, 3, 6] := by
  refine ⟨by simp, rfl, ⟨⟨trivial, trivial, trivial⟩, trivial⟩, by simp [hm], by simp [hh, tapeLimit], ?_, ?_⟩
  · rw [hm, hh]
    refine ⟨by simp, by simp, by simp, rfl, ?_, ?_⟩
    · have o1 := @scalingQ_callable 19 (by simp)
      have o2 := @scalingQ_callable 34 (by simp)
      simp [num, scalingP, SucceedsBook, AsksBook, solveBook, euler, Ode.startP, List.replicate, Code.sensP, scalingQ_rows,
        o1, o2, tapeLimit]
    · simp only [num, List.map_cons, List.map_nil, List.cons_append, List.nil_append, List.getD_cons_zero, List.getD_cons_succ,
        scalingP_comps]
      simp [Plan.Suits, Make.args, Make.Meets, Make.product, Make.words, Make.plain, scalingP, tapeLimit]
  · intro j
    refine few_not_full ?_ j
    simp [hh, qTimes, Plan.words, Make.words, scalingP]

example : ∃ (s' s'' : St W), OrderlyL ℝ (⟨s', [], []⟩ : Client W) ∧
    (∀ J : Junk W ℝ, jacobianL J (zTimes.vectorL J []) 1 [2, 3] (St.init : St W) = .ok (([81], [[0, 54]]), s')) ∧
    ∀ J : Junk W ℝ, gradientL J (qTimes.scalarL J []) [2, 3, 6] s' = .ok ((54, [63, 0, 0]), s'') := by
  obtain ⟨s', e, o, hh, -⟩ := C70_jacobian (W := W) (c := Client.init) commutes_real .start
    (zTimes_suits rfl rfl) (by simp [zTimes, Plan.Careful]) (by simp)
  rw [zTimes_book] at e
  obtain ⟨r, s'', e', hb, -⟩ := C70_gradient_partial commutes_real o (qTimes_suits rfl hh)
    (by simp [qTimes, Plan.Apart]) (by simp [qTimes, Plan.Careful]) (by rw [qTimes_book]; simp)
  rw [qTimes_book] at hb
  cases hb
  exact ⟨s', s'', o, e, e'⟩

/-! The claim fails for `gradient` when a right-hand side uses a variable of the function. -/

/-- a solver that asks once for the derivatives of the right-hand side and stays where it is -/
noncomputable def idle : Solver ℝ (List ℝ × List (List ℝ)) :=
  ⟨fun _ y S => (y, S), fun m t => .sens t m.1 m.2 fun _ => .done 0 m.1 m.2 m⟩

/-- `y' = x`, where `x` is a variable of the function, from the initial value `x` -/
noncomputable def captive : Plan ℝ := .init ⟨idle, 0, [1], fun _ y => y, fun _ => .ret [2]⟩ [0] [0] <| .ret [1]

theorem captive_comps : (⟨idle, 0, [1], fun _ y => y, fun _ => .ret [2]⟩ : Ode ℝ _).compsY [3] [3] = [(3, [1])] := by
  simp [Ode.compsY, components, Ode.solY, Ode.startY, solsBook, solveBook, idle, List.range_succ]

theorem captive_books : captive.bookGradient [] [3] = some (3, [1]) ∧ captive.bookJacobian [] [3] = ([3], [[1]]) := by
  constructor <;>
  simp [captive, Plan.bookGradient, Plan.bookJacobian, gradientOf, jacobianOf, stepsOf, Plan.write, solSteps,
    Log.next, Log.each, Log.ret, step, input, opd, rowOf, backFrom, receive, seed, List.range_succ,
    Arith.mul, Arith.one, Arith.zero, Arith.add, captive_comps]

theorem captive_suits {c : Client W} (hm : c.marks = []) (hh : c.st.tape.head = 1) : captive.ProperL c [] [] [3] := by
  refine ⟨by simp, rfl, trivial, by simp [hm], by simp [hh, tapeLimit], ?_, ?_⟩
  · rw [hm, hh]
    refine ⟨by simp, by simp, by simp, ?_, ?_⟩
    · have o1 : ∀ y s : ℝ, (Code.ret [2] : Code ℝ).Callable [3] [] 1 1 7 [y] [[s]] := by
        intro y s
        refine ⟨rfl, rfl, by simp, ⟨trivial, trivial, trivial, ?_, by simp [rhsInputs], ?_, ?_, ?_⟩, trivial⟩
        · simp [Code.Meets, rhsInputs]
        · simp [Code.plain]
        · simp [Code.words, tapeLimit, rhsInputs]
        · simp only [Code.words, rhsInputs]
          exact few _ (by simp)
      simp [num, SucceedsBook, AsksBook, solveBook, idle, Ode.startY, List.range_succ, o1, tapeLimit]
    · simp only [num, List.map_cons, List.map_nil, List.cons_append, List.nil_append, List.getD_cons_zero, captive_comps]
      simp [Plan.Suits]
  · intro j
    refine few_not_full ?_ j
    simp [hh, captive, Plan.words]

/-- the answer to the question of the solver leaves the adjoint 1 in the variable `x` -/
theorem captive_sens {s : St W} (H : Here s xG (fun _ => 3) (fun _ => 0) 7 [(1, 1)] unused) (t : ℝ) :
    ∃ out s', (setSensRhs (newCvsRhsYvar true 1 (fun _ y => y) (Code.odeY (fun _ : ℝ => .ret [2]) [⟨1⟩])) t [3] [[1]]
        (fun _ _ => Arith.zero) : M W (Nat → Nat → ℝ)) s = .ok (out, s') ∧
      Here s' xG (fun _ => 3) (fun _ => 1) 7 [(1, 1)] unused := by
  obtain ⟨e1, H1⟩ := H.begin (by simp [maxNestedStack])
  obtain ⟨s2, e2, H2⟩ := H1.newVar 3 (by simp [cap])
  obtain ⟨s3, e3, H3⟩ := H2.newVar 0 (by simp [cap])
  have H3' : Here s3 ⟨[⟨1, [], [], .dummy, .plain⟩, ⟨7, [], [], .dummy, .plain⟩, ⟨13, [], [], .dummy, .plain⟩], []⟩
      (fun q => if q = 13 then 0 else 3) (fun _ => 0) 19 [(1, 1), (7, 2)] unused := by
    refine H3.congr ?_ ?_ <;> simp [xG, Graph.push, upd, Arith.zero]
  have hl : s3.level = 2 := by simpa using H3'.level
  obtain ⟨-, -, hn⟩ := H3'.inner (l := [(1, 1)]) (hd' := 7) (n := 2)
  have hf : ∀ nd ∈ (⟨[⟨1, [], [], .dummy, .plain⟩, ⟨7, [], [], .dummy, .plain⟩, ⟨13, [], [], .dummy, .plain⟩], []⟩ :
      Graph ℝ).nodes, nd.Fits (fun q => if q = 13 then 0 else 3) := by
    intro nd hn
    simp only [List.mem_cons, List.not_mem_nil, or_false] at hn
    rcases hn with rfl | rfl | rfl <;> intro a <;> exact ⟨[], rfl⟩
  obtain ⟨m4, e4⟩ := gradNested_total H3'.inv (v := ⟨1⟩) (n := 1) (by simp [Graph.Has]) (by omega)
    (by simp [hl, maxNestedStack]) hn (by simp) fun nd hd => hf nd (List.mem_of_mem_drop hd)
  obtain ⟨-, m, em, i4⟩ := gradNested_run H3'.inv (v := ⟨1⟩) (n := 1) (fun nd hd => Or.inr (hf nd hd))
    (by simp [Graph.Has]) (by omega) (by simp [hl, maxNestedStack]) hn (by simp) e4
  obtain ⟨o5, e5⟩ : ∃ o5, (sensDots [⟨2⟩] [[1]] 0 [0] (fun _ _ => Arith.zero) : M W (Nat → Nat → ℝ)) (s3.withMem m4) =
    .ok (o5, s3.withMem m4) := ⟨_, sensDots_puts i4 (by simp [Graph.Has]) 0 [0] _ (by simp)⟩
  have hl4 : (s3.withMem m4).level = 2 := hl
  have hn4 : (s3.withMem m4).nestVari (s3.withMem m4).level = 2 := hn
  have e6 : ∃ m6 a6, (setZeroNestedAdj : M W Unit) (s3.withMem m4) = .ok ((), s3.withMem m6) ∧
      Inv (s3.withMem m6) ⟨[⟨1, [], [], .dummy, .plain⟩, ⟨7, [], [], .dummy, .plain⟩, ⟨13, [], [], .dummy, .plain⟩], []⟩
        (fun q => if q = 13 then 0 else 3) a6 ∧ a6 1 = 1 := by
    unfold setZeroNestedAdj
    rw [bind_ok (get_ok _)]
    have e2 : (rdNest (s3.withMem m4).nestVari (s3.withMem m4).level : M W Nat) (s3.withMem m4) =
        .ok (2, s3.withMem m4) := by
      unfold rdNest
      rw [if_pos ⟨by omega, by simp [hl4, maxNestedStack]⟩, hn4]
      rfl
    have hvh := i4.vhead
    rw [bind_ok e2, hvh]
    obtain ⟨m, a, e3, i, hz, hk⟩ := Inv.zeroAdjLoop_ok 1 2 i4 (by simp)
    refine ⟨m, a, e3, i, ?_⟩
    rw [hk 1 (by simp)]
    simp [sweep, Node.args, Node.cl, Node.contrib, contribPlain, addAll, Graph.pos, upd, Arith.one]
  obtain ⟨m6, a6, e6, i6, h6⟩ := e6
  have H6 := H3'.mem i6
  obtain ⟨s7, e7, -, H7⟩ := H6.done (l := [(1, 1)]) (g0 := xG) (lo := 7) (by simp [maxNestedStack])
    ⟨⟨_, rfl⟩, List.prefix_refl _⟩ xWF (by omega) (by omega) (size_here H6 (by omega) (by omega))
  have hu : (fun k => if h : k - 1 < (⟨[⟨1, [], [], .dummy, .plain⟩, ⟨7, [], [], .dummy, .plain⟩, ⟨13, [], [], .dummy, .plain⟩], []⟩ :
      Graph ℝ).nodes.length then (⟨[⟨1, [], [], .dummy, .plain⟩, ⟨7, [], [], .dummy, .plain⟩, ⟨13, [], [], .dummy, .plain⟩], []⟩ :
      Graph ℝ).nodes[k - 1].chain else unused k) = unused := by
    funext k
    split
    · rename_i h
      have : k - 1 = 0 ∨ k - 1 = 1 ∨ k - 1 = 2 := by simp at h; omega
      rcases this with h | h | h <;> simp [h, unused]
    · rfl
  rw [hu] at H7
  have e8 : (sensRows [⟨2⟩] [] [[1]] 1 0 false 0 [⟨1⟩] (fun _ _ => Arith.zero) : M W (Nat → Nat → ℝ)) s3 =
      .ok (o5, s3.withMem m6) := by
    unfold sensRows
    rw [bind_ok e4, show List.range 1 = [0] from rfl, bind_ok e5, if_neg (by simp), bind_ok (pure_ok _ _), bind_ok e6]
    rfl
  refine ⟨o5, s7, ?_, H7.congr (by simp [xG]) (by simp [xG, h6])⟩
  have er : (do let f ← deref (some (Code.odeY (fun _ : ℝ => (.ret [2] : Code ℝ)) [⟨1⟩]))
                let fvar ← f t [⟨2⟩] [⟨3⟩]
                pure ([], fvar) : M W (List Var × List Var)) s3 = .ok (([], [⟨1⟩]), s3) := rfl
  unfold setSensRhs
  simp only [newCvsRhsYvar, List.length_cons, List.length_nil]
  rw [bind_ok e1, bind_ok (newVars1 e2), bind_ok (show (newVars (List.replicate (0 + 1) (Arith.zero : ℝ)) : M W (List Var)) s2 =
    .ok ([⟨3⟩], s3) from newVars1 e3)]
  refine (bind_ok er).trans ?_
  refine (bind_ok (confN_ok (n := 1) (l := ([⟨1⟩] : List Var)) rfl s3)).trans ?_
  refine (bind_ok e8).trans ?_
  exact (bind_ok e7).trans rfl

/-- the run of the function, with checks of array shapes -/
theorem captive_run : ∃ s1 s2 s4 : St W, (beginNested : M W Unit) St.init = .ok ((), s1) ∧
    (newVars ([3] : List ℝ) : M W (List Var)) s1 = .ok ([⟨1⟩], s2) ∧
    (captive.run [⟨1⟩] : M W (List Var)) s2 = .ok ([⟨2⟩], s4) ∧
    Here s4 ⟨[⟨1, [], [], .dummy, .plain⟩, ⟨7, [1], [1], .eager, .plain⟩], []⟩ (fun _ => 3)
        (fun q => if q = 1 then 1 else 0) 16 [(1, 1)] unused := by
  obtain ⟨s1, s2, e1, e2, H2⟩ := scaled_start (W := W)
  obtain ⟨out, s3, e3, H3⟩ := captive_sens H2 1
  obtain ⟨s4, e4, gr⟩ := H3.inv.varWithPartials_ok 3 (vs := [⟨1⟩]) (by simp [Graph.Has, xG]) [1] (by simp)
    (by rw [H3.head]; simp [cap])
  rw [H3.head] at gr
  rw [H3.inv.vhead] at e4
  have H4 := H3.grown gr rfl
  refine ⟨s1, s2, s4, e1, e2, ?_, ?_⟩
  · have hs : (solLoop idle (newCvsRhsYvar true 1 (fun _ y => y) (Code.odeY (fun _ : ℝ => .ret [2]) [⟨1⟩])) [⟨1⟩] 1 [1]
        ([3], [[1]]) [3] : M W (List (List Var) × List ℝ)) s2 = .ok (([[⟨2⟩]], [3]), s4) := by
      unfold solLoop
      have ha : (answer (newCvsRhsYvar true 1 (fun _ y => y) (Code.odeY (fun _ : ℝ => .ret [2]) [⟨1⟩])) (idle.step ([3], [[1]]) 1) :
          M W (Int × List ℝ × List (List ℝ) × (List ℝ × List (List ℝ)))) s2 = .ok ((0, [3], [[1]], ([3], [[1]])), s3) :=
        (bind_ok e3).trans rfl
      rw [bind_ok ha]
      have hv : (solVars [⟨1⟩] 1 [3] [[1]] (List.range 1) : M W (List Var)) s3 = .ok ([⟨2⟩], s4) := by
        rw [show List.range 1 = [0] from rfl]
        unfold solVars
        rw [bind_ok (show (gather [[1]] 0 (List.range 1) (List.replicate [(⟨1⟩ : Var)].length (Arith.zero : ℝ)) : M W (List ℝ)) s3 = .ok ([1], s3)
          from rfl), bind_ok (show (deref ([3] : List ℝ)[0]? : M W ℝ) s3 = .ok (3, s3) from rfl), bind_ok e4]
        rfl
      exact (bind_ok hv).trans rfl
    unfold captive Plan.run
    rw [if_pos (by simp)]
    have hy : (cvodesSolY0 idle 0 [⟨1⟩] [1] (fun _ y => y) (Code.odeY (fun _ : ℝ => .ret [2]) [⟨1⟩]) :
        M W (List (List Var))) s2 = .ok ([[⟨2⟩]], s4) := by
      unfold cvodesSolY0
      rw [bind_ok (H2.inv.varVals (vs := [⟨1⟩]) (by simp [Graph.Has, xG]))]
      exact (bind_ok hs).trans rfl
    refine (bind_ok hy).trans ?_
    unfold Plan.run
    rw [if_pos (by simp)]
    rfl
  · refine H4.congr ?_ ?_ <;> simp [xG, Graph.push, upd, Arith.zero]

theorem captive_fits {val : Nat → ℝ} : ∀ nd ∈ (⟨[⟨1, [], [], .dummy, .plain⟩, ⟨7, [1], [1], .eager, .plain⟩], []⟩ :
    Graph ℝ).nodes, nd.Fits val := by
  intro nd hn
  simp only [List.mem_cons, List.not_mem_nil, or_false] at hn
  rcases hn with rfl | rfl <;> intro a
  · exact ⟨[], rfl⟩
  · exact ⟨_, rfl⟩

/-- **C70 fails** for `gradient`, with a right-hand side that uses a variable of the function: at `x = 3` the solution
is 3 and its derivative 1, by the book and by `jacobian`; `gradient` answers 2, with and without checks of array
shapes. -/
theorem C70_refuted : OrderlyL ℝ (Client.init : Client W) ∧ captive.ProperL (Client.init : Client W) [] [] [3] ∧
    captive.Careful ∧ captive.bookGradient [] [3] = some (3, [1]) ∧
    (∃ s' : St W, ∀ J : Junk W ℝ, jacobianL J (captive.vectorL J []) 1 [3] St.init = .ok (([3], [[1]]), s')) ∧
    ∃ s' : St W, gradient (captive.scalar []) [3] St.init = .ok ((3, [2]), s') ∧
      ∀ J : Junk W ℝ, gradientL J (captive.scalarL J []) [3] St.init = .ok ((3, [2]), s') := by
  refine ⟨.start, captive_suits rfl rfl, trivial, captive_books.1, ?_, ?_⟩
  · obtain ⟨s', e, -⟩ := C70_jacobian (W := W) (c := Client.init) commutes_real .start (captive_suits rfl rfl)
      (by simp [captive, Plan.Careful]) (by simp)
    rw [captive_books.2] at e
    exact ⟨s', e⟩
  · obtain ⟨s1, s2, s4, e1, e2, e3, H4⟩ := captive_run (W := W)
    obtain ⟨s5, e5, H5⟩ := H4.grad (v := ⟨2⟩) (by simp [Graph.Has]) captive_fits
    obtain ⟨s6, e6, -, H6⟩ := H5.done (l := []) (g0 := Graph.empty) (lo := 1) (by simp [maxNestedStack])
      ⟨List.nil_prefix, List.prefix_refl _⟩ emptyWF (by omega) (by omega) (size_here H5 (by omega) (by omega))
    have key : gradient (captive.scalar []) [3] St.init = .ok ((3, [2]), s6) := by
      have er : (captive.scalar [] [⟨1⟩] : M W Var) s2 = .ok (⟨2⟩, s4) := by
        unfold Plan.scalar
        rw [List.append_nil, bind_ok e3]
        rfl
      unfold gradient
      rw [bind_ok e1, bind_ok e2, bind_ok er, bind_ok (H4.inv.varVal (v := ⟨2⟩) (by simp [Graph.Has])),
        bind_ok e5, bind_ok (H5.inv.varAdjs (vs := [⟨1⟩]) (by simp [Graph.Has])), bind_ok e6]
      simp [pure_ok, Graph.pos, sweep, Node.args, Node.cl, Node.contrib, contribPlain, addAll, Arith.add, Arith.mul, upd,
        Arith.one]
      norm_num
    exact ⟨s6, key, fun J => (C70_agree (n := 0) J).1 _ key⟩

/-- the hypotheses of `C70_checked_jacobian` are met: with checks of array shapes `jacobian` completes for this
function, and returns the numbers of the book -/
example : OrderlyL ℝ (Client.init : Client W) ∧ captive.ProperL (Client.init : Client W) [] [] [3] ∧ captive.Careful ∧
    (captive.bookJacobian [] [3]).1.length = 1 ∧
    ∃ s' : St W, jacobian (captive.vector []) 1 [3] St.init = .ok (([3], [[1]]), s') := by
  refine ⟨.start, captive_suits rfl rfl, trivial, by rw [captive_books.2]; rfl, ?_⟩
  obtain ⟨s1, s2, s3, e1, e2, e3, H3⟩ := captive_run (W := W)
  obtain ⟨l1, l2, l3⟩ := H3.inner (l := [])
  obtain ⟨m, b, ez, iz, hz⟩ := zeroNested_ok H3.inv (by rw [l1]; simp) (by rw [l1]; simp [maxNestedStack]) (n := 0) l3
    (Nat.zero_le _)
  have Hz := (H3.mem iz).congr (val' := fun _ => 3) (adj' := fun _ => 0) (fun _ _ => rfl) fun nd hn => (hz nd hn).symm
  obtain ⟨s4, e4, H4⟩ := Hz.grad (v := ⟨2⟩) (by simp [Graph.Has]) captive_fits
  obtain ⟨s5, e5, -, H5⟩ := H4.done (l := []) (g0 := Graph.empty) (lo := 1) (by simp [maxNestedStack])
    ⟨List.nil_prefix, List.prefix_refl _⟩ emptyWF (by omega) (by omega) (size_here H4 (by omega) (by omega))
  refine ⟨s5, ?_⟩
  have er : (captive.vector [] [⟨1⟩] 1 : M W (List Var)) s2 = .ok ([⟨2⟩], s3) := by
    unfold Plan.vector
    rw [List.append_nil, e3]
  have ej : (jacLoop [⟨1⟩] [⟨2⟩] : M W (List (List ℝ))) s3 = .ok ([[1]], s4) := by
    unfold jacLoop
    rw [bind_ok ez, bind_ok e4, bind_ok (H4.inv.varAdjs (vs := [⟨1⟩]) (by simp [Graph.Has]))]
    simp [jacLoop, pure_ok, Graph.pos, sweep, Node.args, Node.cl, Node.contrib, contribPlain, addAll, Arith.add,
      Arith.mul, upd, Arith.one]
  unfold jacobian
  rw [bind_ok e1, bind_ok e2, bind_ok er, bind_ok (confN_ok (n := 1) (l := ([⟨2⟩] : List Var)) rfl s3),
    bind_ok (H3.inv.varVals (vs := [⟨2⟩]) (by simp [Graph.Has])), bind_ok ej, bind_ok e5]
  simp [pure_ok, Graph.pos]

/-- a solver that asks nothing and stays where it is -/
noncomputable def still : Solver ℝ (List ℝ × List (List ℝ)) := ⟨fun _ y S => (y, S), fun m _ => .done 0 m.1 m.2 m⟩

/-- the solution at one output time from the initial value `x` -/
noncomputable def resting : Plan ℝ := .init ⟨still, 0, [1], fun _ y => y, fun _ => .ret [0]⟩ [0] [] <| .ret [1]

theorem resting_comps : (⟨still, 0, [1], fun _ y => y, fun _ => .ret [0]⟩ : Ode ℝ _).compsY [] [3] = [(3, [1])] := by
  simp [Ode.compsY, components, Ode.solY, Ode.startY, solsBook, solveBook, still, List.range_succ]

theorem resting_suits {c : Client W} (hm : c.marks = []) (hh : c.st.tape.head = 1) : resting.ProperL c [] [] [3] := by
  refine ⟨by simp, rfl, trivial, by simp [hm], by simp [hh, tapeLimit], ?_, ?_⟩
  · rw [hm, hh]
    refine ⟨by simp, by simp, by simp, ?_, ?_⟩
    · simp [num, SucceedsBook, AsksBook, solveBook, still, Ode.startY, List.range_succ, tapeLimit]
    · simp only [num, List.map_cons, List.map_nil, List.cons_append, List.nil_append, List.getD_cons_zero, resting_comps]
      simp [Plan.Suits]
  · intro j
    refine few_not_full ?_ j
    simp [hh, resting, Plan.words]

/-- the hypotheses of `C70_checked_gradient_partial` are met: with checks of array shapes `gradient` completes for this
function, and returns the numbers of the book -/
example : OrderlyL ℝ (Client.init : Client W) ∧ resting.ProperL (Client.init : Client W) [] [] [3] ∧ resting.Apart ∧
    resting.Careful ∧ resting.bookGradient [] [3] = some (3, [1]) ∧
    ∃ s' : St W, gradient (resting.scalar []) [3] St.init = .ok ((3, [1]), s') := by
  refine ⟨.start, resting_suits rfl rfl, ⟨rfl, trivial⟩, trivial, ?_, ?_⟩
  · simp [resting, Plan.bookGradient, gradientOf, stepsOf, Plan.write, solSteps, Log.next, Log.each, Log.ret, step, input,
      opd, rowOf, backFrom, receive, seed, List.range_succ, Arith.mul, Arith.one, Arith.zero, Arith.add, resting_comps]
  · obtain ⟨s1, s2, e1, e2, H2⟩ := scaled_start (W := W)
    obtain ⟨s4, e4, gr⟩ := H2.inv.varWithPartials_ok 3 (vs := [⟨1⟩]) (by simp [Graph.Has, xG]) [1] (by simp)
      (by rw [H2.head]; simp [cap])
    rw [H2.head] at gr
    rw [H2.inv.vhead] at e4
    have H4 : Here s4 ⟨[⟨1, [], [], .dummy, .plain⟩, ⟨7, [1], [1], .eager, .plain⟩], []⟩ (fun _ => 3) (fun _ => 0) 16
        [(1, 1)] unused := by
      refine (H2.grown gr rfl).congr ?_ ?_ <;> simp [xG, Graph.push, upd, Arith.zero]
    have er : (resting.scalar [] [⟨1⟩] : M W Var) s2 = .ok (⟨2⟩, s4) := by
      unfold Plan.scalar resting Plan.run
      rw [List.append_nil, if_pos (by simp)]
      have hs : (solLoop still (newCvsRhsYvar true 1 (fun _ y => y) (Code.odeY (fun _ : ℝ => .ret [0]) [])) [⟨1⟩] 1 [1]
          ([3], [[1]]) [3] : M W (List (List Var) × List ℝ)) s2 = .ok (([[⟨2⟩]], [3]), s4) := by
        unfold solLoop
        have ha : (answer (newCvsRhsYvar true 1 (fun _ y => y) (Code.odeY (fun _ : ℝ => .ret [0]) [])) (still.step ([3], [[1]]) 1) :
            M W (Int × List ℝ × List (List ℝ) × (List ℝ × List (List ℝ)))) s2 = .ok ((0, [3], [[1]], ([3], [[1]])), s2) :=
          rfl
        rw [bind_ok ha]
        have hv : (solVars [⟨1⟩] 1 [3] [[1]] (List.range 1) : M W (List Var)) s2 = .ok ([⟨2⟩], s4) := by
          rw [show List.range 1 = [0] from rfl]
          unfold solVars
          rw [bind_ok (show (gather [[1]] 0 (List.range 1) (List.replicate [(⟨1⟩ : Var)].length (Arith.zero : ℝ)) : M W (List ℝ)) s2 = .ok ([1], s2)
            from rfl), bind_ok (show (deref ([3] : List ℝ)[0]? : M W ℝ) s2 = .ok (3, s2) from rfl), bind_ok e4]
          rfl
        exact (bind_ok hv).trans rfl
      have hy : (cvodesSolY0 still 0 [⟨1⟩] [1] (fun _ y => y) (Code.odeY (fun _ : ℝ => .ret [0]) []) :
          M W (List (List Var))) s2 = .ok ([[⟨2⟩]], s4) := by
        unfold cvodesSolY0
        rw [bind_ok (H2.inv.varVals (vs := [⟨1⟩]) (by simp [Graph.Has, xG]))]
        exact (bind_ok hs).trans rfl
      have hr : (do let yt ← (cvodesSolY0 still 0 [⟨1⟩] [1] (fun _ y => y) (Code.odeY (fun _ : ℝ => .ret [0]) []) :
                      M W (List (List Var)))
                    (.ret [1] : Plan ℝ).run ([(⟨1⟩ : Var)] ++ yt.flatten)) s2 = .ok ([⟨2⟩], s4) := by
        rw [bind_ok hy]
        unfold Plan.run
        rw [if_pos (by simp)]
        rfl
      exact (bind_ok hr).trans rfl
    obtain ⟨s5, e5, H5⟩ := H4.grad (v := ⟨2⟩) (by simp [Graph.Has]) captive_fits
    obtain ⟨s6, e6, -, H6⟩ := H5.done (l := []) (g0 := Graph.empty) (lo := 1) (by simp [maxNestedStack])
      ⟨List.nil_prefix, List.prefix_refl _⟩ emptyWF (by omega) (by omega) (size_here H5 (by omega) (by omega))
    refine ⟨s6, ?_⟩
    unfold gradient
    rw [bind_ok e1, bind_ok e2, bind_ok er, bind_ok (H4.inv.varVal (v := ⟨2⟩) (by simp [Graph.Has])),
      bind_ok e5, bind_ok (H5.inv.varAdjs (vs := [⟨1⟩]) (by simp [Graph.Has])), bind_ok e6]
    simp [pure_ok, Graph.pos, sweep, Node.args, Node.cl, Node.contrib, contribPlain, addAll, Arith.add, Arith.mul, upd,
      Arith.one]

end real

end Props
