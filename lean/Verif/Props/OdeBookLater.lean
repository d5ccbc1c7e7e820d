import Verif.Proof.OdeLive
import Verif.Props.OdeBook
import Verif.Props.Proper
import Verif.Spec.Onward
import Verif.Spec.Plan

/-!
# C69 with checks of array shapes: the call completes anywhere in a program

`C69_checked_initial` and `C69_checked_parameters` suppose that the call completes.  Here that is proved, for one output
time, after every history of correct calls that has closed no nested region (`Orderly false`, Spec/Proper.lean), for
right-hand sides that make no plain variables (`Meets true`).
-/

set_option linter.unusedSectionVars false

namespace Props
open Fz Spec
variable {W R : Type} [Arith R] [Rep W R] [LawfulRep W R] {c : Client W} {σ : Type}

/-- calls other than `end_nested` forget no beginning of a region -/
theorem marks_kept {k : Call R} {c c' : Client W} (e : k.exec c = .ok c') (hk : k.closes = false) (hm : c'.marks = []) :
    c.marks = [] := by
  have keep : ∀ {m : M W Unit}, c.keep m = .ok c' → c.marks = [] := by
    intro m h
    unfold Client.keep at h
    split at h
    · cases h; exact hm
    · cases h
  unfold Call.exec at e
  split at e
  case isFalse => cases e
  cases k with
  | make m =>
    simp only [Call.step] at e
    split at e
    · cases e; exact hm
    · cases e
  | begin =>
    simp only [Call.step] at e
    split at e
    · cases e; simp at hm
    · cases e
  | done => simp [Call.closes] at hk
  | _ => exact keep e

/-- correct calls for the library with checks are correct calls for the one without -/
theorem orderly_lenient {closed : Bool} (h : Orderly (R := R) closed c) : closed = false → c.marks = [] → OrderlyL R c := by
  induction h with
  | start => exact fun _ _ => .start
  | call k _ hk e ih =>
    intro hc hm
    rw [Bool.or_eq_false_iff] at hc
    obtain ⟨rfl, hc⟩ := hc
    have hm' := marks_kept e hc hm
    exact .call (fun _ _ _ _ => Arith.zero) k (ih rfl hm') ⟨hk, fun _ => hm'⟩ (C59_agree _ e)

theorem goes_on {g : Graph R} {val adj : Nat → R} (S : Sound true c g val adj) : GoesOn R c := by
  have key : ∀ d, Onward R c d → ∃ (g : Graph R) (val adj : Nat → R), Sound true d g val adj := by
    intro d h
    induction h with
    | here => exact ⟨g, val, adj, S⟩
    | call k _ hk e ih =>
      obtain ⟨g1, val1, adj1, S1⟩ := ih
      obtain ⟨d', e', g2, val2, adj2, S2⟩ := S1.exec hk
      rw [e'] at e
      cases e
      exact ⟨g2, val2, adj2, S2⟩
  intro d h k hk
  obtain ⟨g1, val1, adj1, S1⟩ := key d h
  obtain ⟨d', e, -⟩ := S1.exec hk
  exact ⟨d', e⟩

/-- from one call of the solver to one output time -/
theorem one_time (hc : Commutes R) {ode : CvsRhs W R} {ops : List Var} (hns : ode.ns = ops.length) {n : Nat} {sv : Solver R σ}
    {t : R} {mem : σ} {y0 : List R} {res : Int × List R × List (List R) × σ} {sa s1 : St W} {r : List (List Var) × List R}
    {g : Graph R} {val adj : Nat → R} (ea : answer ode (sv.step mem t) c.st = .ok (res, sa))
    (S : Sound true ⟨sa, c.env, c.marks⟩ g val adj) (ho : ∀ v ∈ ops, v ∈ c.env)
    (hroom : sa.tape.head + n * (6 + 3 * ops.length) ≤ tapeLimit) {J : Junk W R}
    (e : solLoopL J sv ode ops n [t] mem y0 c.st = .ok (r, s1)) :
    solLoop sv ode ops n [t] mem y0 c.st = .ok (r, s1) ∧
    ∃ (g' : Graph R) (val' adj' : Nat → R), Sound true ⟨s1, c.env ++ r.1.flatten, c.marks⟩ g' val' adj' ∧
      s1.tape.head = sa.tape.head + n * (6 + 3 * ops.length) ∧
      ∀ (us : List R) (ws : List Var), ValL us ws g val →
        ValL (us ++ (List.range n).map fun i => res.2.1.getD i Arith.zero) (ws ++ r.1.flatten) g' val' := by
  unfold solLoopL at e
  unfold solLoop
  rw [bind_ok (refines_answer J _ _ _ _ _ ea)] at e
  rw [bind_ok ea]
  obtain ⟨ierr, y, yS, mem'⟩ := res
  refine ⟨e, ?_⟩
  simp only at e
  by_cases h : ierr = 0
  · rw [if_neg (by simpa using h)] at e
    obtain ⟨vs, s2, e3, k3⟩ := Fz.bind_inv e
    obtain ⟨rr, s3, e4, k4⟩ := Fz.bind_inv k3
    cases e4
    cases k4
    obtain ⟨g', val', adj', S', hh, hv⟩ := solVars_sound hc hns (List.range n) (c := ⟨sa, c.env, c.marks⟩) S ho
      (by simpa using hroom) e3
    simp only [List.flatten_cons, List.flatten_nil, List.append_nil]
    rw [List.length_range] at hh
    exact ⟨g', val', adj', S', hh, hv⟩
  · rw [if_pos h] at e
    cases e

/-- a solution from initial values, where nothing but the array checks could go wrong -/
theorem solve_initial (hc : Commutes R) {g : Graph R} {val adj : Nat → R} (S : Sound false c g val adj) (hl : c.marks.length < 10)
    {p : Ode R σ} {t : R} (hts : p.ts = [t]) {ops e : List Var} {z ys : List R} (ho : ∀ v ∈ ops, v ∈ c.env)
    (hz : ValL z ops g val) (hy : ValL ys e g val)
    (hs : SucceedsBook p.sv p.f (fun t => (p.F t).sensY ys) (fun hd t => (p.F t).Callable ys [] z.length z.length hd)
      z.length z.length p.ts (p.startY z) c.st.tape.head)
    (hm : AsksBook p.f (fun t => (p.F t).sensY ys) (fun t y _ => (p.F t).Meets true (rhsInputs y [] ++ ys))
      (p.sv.step (p.startY z) t)) {J : Junk W R} {yt : List (List Var)} {s' : St W}
    (hr : p.callY J ops e c.st = .ok (yt, s')) :
    cvodesSolY0 p.sv p.t0 ops p.ts p.f (Code.odeY p.F e) c.st = .ok (yt, s') ∧
    ∃ (g' : Graph R) (val' adj' : Nat → R), Sound true ⟨s', c.env ++ yt.flatten, c.marks⟩ g' val' adj' ∧
      s'.tape.head = c.st.tape.head + p.ts.length * (ops.length * (6 + 3 * ops.length)) ∧
      ∀ (us : List R) (ws : List Var), ValL us ws g val →
        ValL (us ++ (p.compsY ys z).map Prod.fst) (ws ++ yt.flatten) g' val' := by
  have hzl : z.length = ops.length := hz.length_eq
  rw [hts] at hs
  unfold SucceedsBook at hs
  obtain ⟨sa, ea, hha, g', val', adj', Sa, hva⟩ := answer_live (e := e) (ys := ys) (q := []) (F := p.F) (n := z.length) (m := 0) (par := false)
    (ode := newCvsRhsYvar true z.length p.f (Code.odeY p.F e))
    (sens := fun t => (p.F t).sensY ys) hc (by simp)
    (by rintro t y S out hn; rw [← hn]; exact sensAll_y p.F _ p.f t y S out)
    (by
      intro t y S hl
      unfold Code.sensY
      apply List.ext_getElem
      · simpa using hl
      · intro j h1 h2
        have : j < S.length := by simpa using h1
        simp [entryOf, List.getD_eq_getElem?_getD, this])
    (p.sv.step (p.startY z) t) S.good S.fits (by rw [S.good.lvl]; exact hl) hy
    (fun k hk _ => S.clean rfl k hk) hs.1 hm
  unfold Ode.callY cvodesSolY0L at hr
  unfold cvodesSolY0
  rw [bind_ok (hz.read S.good.inv), hts, ← hzl, sensInitB_y] at hr ⊢
  obtain ⟨r, s1, e1, k1⟩ := Fz.bind_inv hr
  obtain ⟨e2, g2, val2, adj2, S2, hh2, hv2⟩ := one_time hc hzl ea Sa ho (by rw [hha, ← hzl]; exact hs.2.2.2.2.2.1) e1
  cases k1
  unfold Ode.startY at e2
  refine ⟨by rw [bind_ok e2]; rfl, g2, val2, adj2, S2, by rw [hh2, hha, ← hzl]; simp, fun us ws h => ?_⟩
  have := hv2 us ws (hva us ws h)
  have hx : (p.compsY ys z).map Prod.fst = (List.range z.length).map fun i =>
      (solveBook p.f (fun t => (p.F t).sensY ys) (p.sv.step (p.startY z) t)).2.1.getD i Arith.zero := by
    simp [Ode.compsY, components, Ode.solY, hts, solsBook, Function.comp_def]
  rw [hx]
  exact this

/-- a solution with parameters, likewise -/
theorem solve_parameters (hc : Commutes R) {g : Graph R} {val adj : Nat → R} (S : Sound false c g val adj)
    (hl : c.marks.length < 10) {p : Ode R σ} {t : R} (hts : p.ts = [t]) {y : List R} {ops e : List Var} {q ys : List R}
    (ho : ∀ v ∈ ops, v ∈ c.env) (h3 : ops.length = 3) (hq : ValL q ops g val) (hy : ValL ys e g val)
    (hs : SucceedsBook p.sv p.f (fun t => (p.F t).sensP ys q) (fun hd t => (p.F t).Callable ys q y.length 3 hd)
      y.length 3 p.ts (p.startP y) c.st.tape.head)
    (hm : AsksBook p.f (fun t => (p.F t).sensP ys q) (fun t y _ => (p.F t).Meets true (rhsInputs y q ++ ys))
      (p.sv.step (p.startP y) t)) {J : Junk W R} {r : List (List Var) × List R} {s' : St W}
    (hr : p.callP J y ops e c.st = .ok (r, s')) :
    cvodesSolPar p.sv p.t0 y p.ts ops p.f (Code.odeP p.F e) c.st = .ok (r, s') ∧
    ∃ (g' : Graph R) (val' adj' : Nat → R), Sound true ⟨s', c.env ++ r.1.flatten, c.marks⟩ g' val' adj' ∧
      s'.tape.head = c.st.tape.head + p.ts.length * (y.length * (6 + 3 * 3)) ∧
      ∀ (us : List R) (ws : List Var), ValL us ws g val →
        ValL (us ++ (p.compsP ys q y).map Prod.fst) (ws ++ r.1.flatten) g' val' := by
  have hql : q.length = 3 := hq.length_eq.trans h3
  rw [hts] at hs
  unfold SucceedsBook at hs
  obtain ⟨sa, ea, hha, g', val', adj', Sa, hva⟩ := answer_live (e := e) (ys := ys) (q := q) (F := p.F) (n := y.length) (m := 3) (par := true)
    (ode := newCvsRhsPvar false 3 q p.f (Code.odeP p.F e))
    (sens := fun t => (p.F t).sensP ys q) hc (fun _ => ⟨rfl, by omega⟩)
    (by rintro t y S out -; exact sensAll_p p.F _ p.f t y q hql S out)
    (by
      intro t y S hl
      unfold Code.sensP
      apply List.ext_getElem
      · simpa using hl
      · intro j h1 h2
        have : j < S.length := by simpa using h1
        simp [entryOf, List.getD_eq_getElem?_getD, this])
    (p.sv.step (p.startP y) t) S.good S.fits (by rw [S.good.lvl]; exact hl) hy
    (fun k hk _ => S.clean rfl k hk) hs.1 hm
  unfold Ode.callP cvodesSolParL at hr
  unfold cvodesSolPar
  rw [bind_ok (hq.read S.good.inv), h3, hts, sensInitB_p] at hr ⊢
  obtain ⟨e2, g2, val2, adj2, S2, hh2, hv2⟩ := one_time hc h3.symm ea Sa ho (by rw [hha, h3]; exact hs.2.2.2.2.2.1) hr
  refine ⟨e2, g2, val2, adj2, S2, by rw [hh2, hha, h3]; simp, fun us ws h => ?_⟩
  have := hv2 us ws (hva us ws h)
  have hx : (p.compsP ys q y).map Prod.fst = (List.range y.length).map fun i =>
      (solveBook p.f (fun t => (p.F t).sensP ys q) (p.sv.step (p.startP y) t)).2.1.getD i Arith.zero := by
    simp [Ode.compsP, components, Ode.solP, hts, solsBook, Function.comp_def]
  rw [hx]
  exact this

/-- **C69**, initial values, library with checks of array shapes, one output time: after every history of correct calls
that has closed no nested region, outside nested regions, a correct `cvodes_sol` completes, if the right-hand side makes
no plain variables where the solver asks for it; its variables are new and carry the numbers of the book, all other
variables stay what they were, and the program may go on with correct calls, sweeps among them, that make no plain
variables. -/
theorem C69_later_initial (hc : Commutes R) (h : Orderly (R := R) false c) (h0 : c.marks = []) {p : Ode R σ} {t : R}
    (hts : p.ts = [t]) {is es : List Nat} {z ys : List R} (hp : p.ProperY c is es z ys)
    (hm : AsksBook p.f (fun t => (p.F t).sensY ys) (fun t y _ => (p.F t).Meets true (rhsInputs y [] ++ ys))
      (p.sv.step (p.startY z) t)) :
    ∃ yt s', cvodesSolY0 p.sv p.t0 (is.map (nth c.env)) p.ts p.f (Code.odeY p.F (es.map (nth c.env))) c.st = .ok (yt, s') ∧
      Carries s' (is.map (nth c.env)) z.length yt (p.solY ys z) ∧ Keeps R (es.map (nth c.env)) c.st s' ∧
      (∀ vs ∈ yt, ∀ v ∈ vs, v ∉ existing c.st) ∧ GoesOn R ⟨s', c.env ++ yt.flatten, c.marks⟩ := by
  obtain ⟨yt, s', h1, h2, h3, h4⟩ := C69_initial hc (orderly_lenient h rfl h0) hp
  refine ⟨yt, s', ?_⟩
  suffices hx : _ ∧ GoesOn R _ from ⟨hx.1, h2, h3, h4, hx.2⟩
  obtain ⟨g, val, adj, S⟩ := orderly_sound h
  obtain ⟨hl, hi, he, hz, hy, hs⟩ := hp
  have hz := ValL.ofRead S.good.inv (fun v hv => S.good.has v (mem_named hi v hv)) hz
  have hy := ValL.ofRead S.good.inv (fun v hv => S.good.has v (mem_named he v hv)) hy
  obtain ⟨e, g', val', adj', S', -⟩ := solve_initial hc S hl hts (mem_named hi) hz hy hs hm (h1 fun _ _ _ _ => Arith.zero)
  exact ⟨e, goes_on S'⟩

/-- **C69**, three parameters, likewise; the argument `y` ends as the solution -/
theorem C69_later_parameters (hc : Commutes R) (h : Orderly (R := R) false c) (h0 : c.marks = []) {p : Ode R σ} {t : R}
    (hts : p.ts = [t]) {y : List R} {is es : List Nat} {q ys : List R} (hp : p.ProperP c y is es q ys)
    (hm : AsksBook p.f (fun t => (p.F t).sensP ys q) (fun t y _ => (p.F t).Meets true (rhsInputs y q ++ ys))
      (p.sv.step (p.startP y) t)) :
    ∃ yt s', cvodesSolPar p.sv p.t0 y p.ts (is.map (nth c.env)) p.f (Code.odeP p.F (es.map (nth c.env))) c.st =
        .ok ((yt, ((p.solP ys q y).map Prod.fst).getLastD y), s') ∧
      Carries s' (is.map (nth c.env)) y.length yt (p.solP ys q y) ∧ Keeps R (es.map (nth c.env)) c.st s' ∧
      (∀ vs ∈ yt, ∀ v ∈ vs, v ∉ existing c.st) ∧ GoesOn R ⟨s', c.env ++ yt.flatten, c.marks⟩ := by
  obtain ⟨yt, s', h1, h2, h3, h4⟩ := C69_parameters hc (orderly_lenient h rfl h0) hp
  refine ⟨yt, s', ?_⟩
  suffices hx : _ ∧ GoesOn R _ from ⟨hx.1, h2, h3, h4, hx.2⟩
  obtain ⟨g, val, adj, S⟩ := orderly_sound h
  obtain ⟨hl, hi, he, hi3, hq, hy, hs⟩ := hp
  have hq := ValL.ofRead S.good.inv (fun v hv => S.good.has v (mem_named hi v hv)) hq
  have hy := ValL.ofRead S.good.inv (fun v hv => S.good.has v (mem_named he v hv)) hy
  obtain ⟨e, g', val', adj', S', -⟩ := solve_parameters hc S hl hts (mem_named hi) (by simpa using hi3) hq hy hs hm
    (h1 fun _ _ _ _ => Arith.zero)
  exact ⟨e, goes_on S'⟩

/-- one step of the midpoint method, which asks for the sensitivities twice -/
noncomputable def midpoint : Solver ℝ (ℝ × List ℝ × List (List ℝ)) where
  init t y S := (t, y, S)
  step m t := .rhs m.1 m.2.1 fun f => .sens m.1 m.2.1 m.2.2 fun o =>
    let h := (t - m.1) / 2
    let y1 := List.zipWith (fun a b => a + h * b) m.2.1 f
    let S1 := List.zipWith (List.zipWith fun a b => a + h * b) m.2.2 o
    .rhs (m.1 + h) y1 fun f => .sens (m.1 + h) y1 S1 fun o =>
      let y := List.zipWith (fun a b => a + (t - m.1) * b) m.2.1 f
      let S := List.zipWith (List.zipWith fun a b => a + (t - m.1) * b) m.2.2 o
      .done 0 y S (t, y, S)

/-- `y' = a y`, where `a` is a variable of the caller, solved with one such step -/
noncomputable def midpointOde : Ode ℝ (ℝ × List ℝ × List (List ℝ)) :=
  ⟨midpoint, 0, [1], fun _ y => y.map fun v => 2 * v, fun _ => scaling⟩

/-- the hypotheses of `C69_later_initial` are met: `y' = a y` for variables `a = 2`, `y(0) = 3` of the program, one step of
the midpoint method with solution 15 and sensitivity 5 -/
theorem midpoint_case {W : Type} [Rep W ℝ] [LawfulRep W ℝ] : ∃ c : Client W, Orderly (R := ℝ) false c ∧ c.marks = [] ∧
    c.env.length = 3 ∧ midpointOde.ProperY c [1] [0] [3] [2] ∧
    AsksBook midpointOde.f (fun t => (midpointOde.F t).sensY [2])
      (fun t y _ => (midpointOde.F t).Meets true (rhsInputs y [] ++ [2])) (midpointOde.sv.step (midpointOde.startY [3]) 1) ∧
    midpointOde.solY [2] [3] = [([15], [[5]])] := by
  obtain ⟨c, o, v, hh, hm⟩ := orderly_three (W := W)
  obtain ⟨g, val, adj, S⟩ := orderly_sound o
  have hv := ValL.ofRead S.good.inv S.good.has v
  have hn : c.env.length = 3 := hv.length_eq.symm
  have rd : ∀ is : List Nat, (∀ i ∈ is, i < 3) →
      (vals (is.map (nth c.env)) : M W (List ℝ)) c.st = .ok (is.map (num [2, 3, 6]), c.st) := by
    intro is hi
    exact (hv.nths (is := is) (by simpa [hn] using hi)).read S.good.inv
  have ok : ∀ y s : ℝ, scaling.Callable [2] [] 1 1 21 [y] [[s]] := by
    intro y s
    refine ⟨rfl, rfl, by simp, ⟨⟨trivial, trivial⟩, ⟨trivial, trivial⟩, ⟨trivial, trivial⟩, ?_, by simp [rhsInputs], ?_, ?_, ?_⟩, rfl, trivial⟩
    · simp [scaling, Code.Meets, Make.args, Make.Meets, Make.plain, rhsInputs]
    · simp [scaling, Code.plain]
    · simp [scaling, Code.words, Make.words, tapeLimit, rhsInputs]
    · simp only [scaling, Code.words, Make.words, rhsInputs]
      exact few _ (by simp)
  refine ⟨c, o, hm, hn, ⟨by simp [hm], by simp [hn], by simp [hn], ?_, ?_, ?_⟩, ?_, ?_⟩
  · rw [rd [1] (by simp)]
    simp [num]
  · rw [rd [0] (by simp)]
    simp [num]
  · rw [hh]
    simp [midpointOde, SucceedsBook, AsksBook, solveBook, midpoint, Ode.startY, List.range_succ, Code.sensY, scaling_rows, ok,
      tapeLimit]
  · simp [midpointOde, AsksBook, midpoint, Ode.startY, List.range_succ, scaling, Code.Meets, Make.args, Make.Meets, Make.plain,
      rhsInputs]
  · simp [midpointOde, Ode.solY, Ode.startY, solsBook, solveBook, midpoint, Code.sensY, scaling_rows, fdot, Arith.dotOf, List.range_succ]
    norm_num

/-- so that call completes, and the solution (variable 3 of the program) may then be differentiated -/
example {W : Type} [Rep W ℝ] [LawfulRep W ℝ] : ∃ (c : Client W) (yt : List (List Var)) (s' : St W) (d : Client W),
    cvodesSolY0 midpoint 0 ([1].map (nth c.env)) [1] midpointOde.f (Code.odeY midpointOde.F ([0].map (nth c.env))) c.st =
      .ok (yt, s') ∧ (Call.grad 3 : Call ℝ).exec ⟨s', c.env ++ yt.flatten, c.marks⟩ = .ok d := by
  obtain ⟨c, o, hm, hn, hp, ha, hs⟩ := midpoint_case (W := W)
  obtain ⟨yt, s', e, hC, -, -, go⟩ := C69_later_initial commutes_real o hm rfl hp ha
  rw [hs] at hC
  obtain ⟨hl, hC⟩ := hC
  obtain ⟨vs, rfl⟩ := List.length_eq_one_iff.mp hl
  have h1 : vs.length = 1 := (hC 0 (by simp) (by simp)).1
  obtain ⟨d, hd⟩ := go _ .here (.grad 3) ⟨by simp [Call.args, hn, h1], trivial⟩
  exact ⟨c, _, s', d, e, hd⟩

/-- the hypotheses of `C69_later_parameters` are met -/
example {W : Type} [Rep W ℝ] [LawfulRep W ℝ] : ∃ c : Client W, Orderly (R := ℝ) false c ∧ c.marks = [] ∧
    ({ scalingP with ts := [1] } : Ode ℝ _).ProperP c [3] [0, 1, 2] [] [2, 3, 6] [] ∧
    AsksBook scalingP.f (fun t => (scalingP.F t).sensP [] [2, 3, 6])
      (fun t y _ => (scalingP.F t).Meets true (rhsInputs y [2, 3, 6] ++ [])) (scalingP.sv.step (scalingP.startP [3]) 1) ∧
    ({ scalingP with ts := [1] } : Ode ℝ _).solP [] [2, 3, 6] [3] = [([9], [[3], [0], [0]])] := by
  obtain ⟨c, o, v, hh, hm⟩ := orderly_three (W := W)
  obtain ⟨g, val, adj, S⟩ := orderly_sound o
  have hn : c.env.length = 3 := (ValL.ofRead S.good.inv S.good.has v).length_eq.symm
  have ok : ∀ y s1 s2 s3 : ℝ, scalingQ.Callable [] [2, 3, 6] 1 3 21 [y] [[s1], [s2], [s3]] := by
    intro y s1 s2 s3
    refine ⟨rfl, rfl, by simp, ⟨⟨trivial, trivial⟩, ⟨trivial, trivial⟩, ⟨trivial, trivial⟩, ?_, by simp [rhsInputs], ?_, ?_, ?_⟩, rfl, trivial⟩
    · simp [scalingQ, Code.Meets, Make.args, Make.Meets, Make.plain, rhsInputs]
    · simp [scalingQ, Code.plain]
    · simp [scalingQ, Code.words, Make.words, tapeLimit, rhsInputs]
    · simp only [scalingQ, Code.words, Make.words, rhsInputs]
      exact few _ (by simp)
  have hz : c.env = [0, 1, 2].map (nth c.env) := by
    obtain ⟨a, b, e, hl⟩ := List.length_eq_three.mp hn
    rw [hl]
    rfl
  refine ⟨c, o, hm, ⟨by simp [hm], by simp [hn], by simp, rfl, by rw [← hz]; exact v, rfl, ?_⟩, ?_, ?_⟩
  · rw [hh]
    simp [scalingP, SucceedsBook, AsksBook, solveBook, euler, Ode.startP, List.replicate, Code.sensP, scalingQ_rows, ok,
      tapeLimit]
  · simp [scalingP, AsksBook, euler, Ode.startP, List.replicate, scalingQ, Code.Meets, Make.args, Make.Meets, Make.plain,
      rhsInputs]
  · simp [scalingP, Ode.solP, Ode.startP, solsBook, solveBook, euler, Code.sensP, scalingQ_rows, fdot, Arith.dotOf, List.replicate]
    norm_num

end Props
