import Verif.Proof.Deep
import Verif.Proof.Ground
import Verif.Props.Textbook
import Verif.Proof.OdeTotal

/-!
# C62: `gradient` and `jacobian` inside the function that is being differentiated

`Deep` (`Spec/Deep.lean`) are functions that, while they run, call `gradient` and `jacobian` for functions of the same
kind, to any depth.  By the book (`Deep.bookGradient`, `Deep.bookJacobian`) the answers are constants of the outer
computation and computing them leaves no trace in it.
-/

set_option linter.unusedSectionVars false

namespace Props
open Fz Spec

section generic
variable {W R : Type} [Arith R] [Rep W R] [LawfulRep W R]
variable {h : List (Call R)} {c : Client W}

/-- **C62**, outer `jacobian`, every interpretation of `real64` with commutative product: the result is that of the
book to the last bit; the inner functions may use variables of the outer one.  Functions handed to an inner `gradient`
make no inner calls themselves (`f.Careful False`); those handed to an inner `jacobian` may. -/
theorem C62_jacobian (hc : Commutes R) (hr : Reach h c) {e : List Var} (he : ∀ v ∈ e, v ∈ c.env) {f : Deep R}
    (ht : f.Tidy) (hk : f.Careful False) {ys : List R} (hy : (vals e : M W (List R)) c.st = .ok (ys, c.st)) {n : Nat}
    {x fx : List R} {J : List (List R)} {s' : St W} (hg : jacobian (f.vector e) n x c.st = .ok ((fx, J), s')) :
    f.bookJacobian ys x = (fx, J) := by
  obtain ⟨g, val, adj, G, hv⟩ := reach_vals hr he hy
  exact (deep_jacobian (deep_records hc False.elim f ht hk) hc G he hv hg).1

/-- **C62**, outer `gradient`, every interpretation of `real64` with commutative product, for functions without inner
calls: this is C49.  Missing: inner calls, see `C62_gradient_partial`. -/
theorem C62_gradient_plain_partial (hc : Commutes R) (hr : Reach h c) {e : List Var} (he : ∀ v ∈ e, v ∈ c.env)
    {f : Deep R} (ht : f.Tidy) (ha : f.Apart False) (hk : f.Careful False) {ys : List R}
    (hy : (vals e : M W (List R)) c.st = .ok (ys, c.st)) {x df : List R} {y : R} {s' : St W}
    (hg : gradient (f.scalar e) x c.st = .ok ((y, df), s')) : f.bookGradient ys x = some (y, df) := by
  obtain ⟨g, val, adj, G, hv⟩ := reach_vals hr he hy
  exact (deep_gradient (deep_records hc False.elim f ht hk) ha hc G he hv hg).1

end generic

section real
variable {W : Type} [Rep W ℝ] [LawfulRep W ℝ] {h : List (Call ℝ)} {c : Client W}

/-- **C62**, outer `jacobian`, real arithmetic: inner calls at any depth.  The functions handed to an inner `gradient`
may use variables of the functions around them, but what they hand on themselves may not use theirs
(`f.Careful True`). -/
theorem C62_jacobian_real (hr : Reach h c) {e : List Var} (he : ∀ v ∈ e, v ∈ c.env) {f : Deep ℝ}
    (ht : f.Tidy) (hk : f.Careful True) {ys : List ℝ} (hy : (vals e : M W (List ℝ)) c.st = .ok (ys, c.st)) {n : Nat}
    {x fx : List ℝ} {J : List (List ℝ)} {s' : St W} (hg : jacobian (f.vector e) n x c.st = .ok ((fx, J), s')) :
    f.bookJacobian ys x = (fx, J) := by
  obtain ⟨g, val, adj, G, hv⟩ := reach_vals hr he hy
  exact (deep_jacobian (deep_records commutes_real (fun _ => quiet_real) f ht hk) commutes_real G he hv hg).1

/-- **C62**, outer `gradient`, real arithmetic: inner calls at any depth, if the inner functions use no variables of
the outer one (`f.Apart True`).  Missing: inner functions that use them, for which the claim is false, see
`C62_refuted`. -/
theorem C62_gradient_partial (hr : Reach h c) {e : List Var} (he : ∀ v ∈ e, v ∈ c.env) {f : Deep ℝ}
    (ht : f.Tidy) (ha : f.Apart True) (hk : f.Careful True) {ys : List ℝ}
    (hy : (vals e : M W (List ℝ)) c.st = .ok (ys, c.st)) {x df : List ℝ} {y : ℝ} {s' : St W}
    (hg : gradient (f.scalar e) x c.st = .ok ((y, df), s')) : f.bookGradient ys x = some (y, df) := by
  obtain ⟨g, val, adj, G, hv⟩ := reach_vals hr he hy
  exact (deep_gradient (deep_records commutes_real (fun _ => quiet_real) f ht hk) ha commutes_real G he hv hg).1

end real

/-- for functions without inner calls the book is that of C49 -/
theorem C62_code_write {R : Type} [Arith R] (f : Code R) : ∀ env, f.deep.write env = f.write env := by
  induction f with
  | ret is => intro env; rfl
  | make m k ih =>
    intro env
    simp only [Code.deep, Deep.write, Code.write, ih]
  | look i k ih =>
    intro env
    simp only [Code.deep, Deep.write, Code.write, ih]

theorem C62_code {R : Type} [Arith R] (f : Code R) (ys x : List R) :
    f.deep.bookGradient ys x = f.bookGradient ys x ∧ f.deep.bookJacobian ys x = f.bookJacobian ys x := by
  have : stepsOf f.deep.write ys x = f.steps ys x [] := by
    unfold stepsOf Code.steps
    simp only [C62_code_write]
  constructor
  · unfold Deep.bookGradient gradientOf Code.bookGradient
    rw [this]
    rfl
  · unfold Deep.bookJacobian jacobianOf Code.bookJacobian
    rw [this]

/-! ## concrete functions

`x ↦ x * c` with `c` the derivative, at `z = 1`, of an inner function of `z`. -/

/-- the outer function: `(i, j)` are the factors of the inner product, `is` the outer variables it uses -/
noncomputable def scaled (i j : Nat) (is : List Nat) : Deep ℝ :=
  .gradient (.make (.bin .mul i j) (.ret [is.length + 1])) [1] is fun _ df =>
    .make (.newVals df) (.make (.bin .mul 0 1) (.ret [2]))

/-- the inner function is `z * x`, with the variable `x` of the outer function: `x * 3` at `x = 3` -/
noncomputable def leaky : Deep ℝ := scaled 0 1 [0]

/-- the inner function is `z * z`: `x * 2` -/
noncomputable def tight : Deep ℝ := scaled 0 0 []

theorem leaky_book : leaky.bookGradient [] [3] = some (9, [3]) ∧ leaky.bookJacobian [] [3] = ([9], [[3]]) := by
  constructor <;>
  simp [leaky, scaled, Deep.bookGradient, Deep.bookJacobian, gradientOf, jacobianOf, stepsOf, Deep.write, Make.write,
    Log.next, Log.each, Log.ret, Bin.write, step, input, opd, rowOf, backFrom, receive, seed, List.range_succ, Bin.pass,
    Bin.plain, Arith.mul, Arith.one, Arith.zero, Arith.add] <;> norm_num

theorem tight_book : tight.bookGradient [] [3] = some (6, [2]) := by
  simp [tight, scaled, Deep.bookGradient, gradientOf, stepsOf, Deep.write, Make.write,
    Log.next, Log.each, Log.ret, Bin.write, step, input, opd, rowOf, backFrom, receive, seed, List.range_succ, Bin.pass,
    Bin.plain, Arith.mul, Arith.one, Arith.zero, Arith.add]
  norm_num

section witness
variable {W : Type} [Rep W ℝ] [LawfulRep W ℝ]

theorem size_here {s : St W} {g : Graph ℝ} {val adj : Nat → ℝ} {hd : Nat} {l : List (Nat × Nat)} {fr : Nat → Chain}
    (h : Here s g val adj hd l fr) (h1 : 1 < hd) (h2 : hd ≤ 12288) : hd ≤ s.tape.size := by
  have := h.inv.ok.head_le
  rw [h.head] at this
  rcases h.inv.ok.form with e | ⟨k, e⟩
  · omega
  · rw [e, show initTapeSize = 12288 from rfl]
    have : 1 ≤ 2 ^ k := Nat.one_le_two_pow
    omega

/-- the records of the inner function `z * ·` -/
noncomputable def zG (p : Nat) : Graph ℝ :=
  ⟨[⟨1, [], [], .dummy, .plain⟩, ⟨7, [], [], .dummy, .plain⟩, ⟨13, [7, p], [], .mulVV, .plain⟩], []⟩

/-- the input of the outer function -/
noncomputable def xG : Graph ℝ := ⟨[⟨1, [], [], .dummy, .plain⟩], []⟩

theorem xWF : xG.WF 7 := by
  constructor <;> simp [xG, Node.len, Node.args, KindOK]

theorem newVars1 {s s' : St W} {v : Var} {x : ℝ} (e : (newVar x : M W Var) s = .ok (v, s')) :
    (newVars [x] : M W (List Var)) s = .ok ([v], s') := by
  unfold newVars
  rw [List.mapM_cons, bind_ok e]
  rfl

/-- the outer function runs; its input is left with the adjoint `a` by the inner call -/
theorem scaled_run {i j : Nat} {is : List Nat} {d a : ℝ} {p : Nat} {w : Var}
    (hw : (i, j, is, w, p, d, a) = (0, 1, [0], ⟨1⟩, 1, 3, 1) ∨ (i, j, is, w, p, d, a) = (0, 0, [], ⟨2⟩, 7, 2, 0)) {s : St W}
    (H : Here s xG (fun _ => 3) (fun _ => 0) 7 [(1, 1)] unused) :
    ∃ s' fr, ((scaled i j is).run [⟨1⟩] : M W (List Var)) s = .ok ([⟨3⟩], s') ∧
      Here s' ⟨[⟨1, [], [], .dummy, .plain⟩, ⟨7, [], [], .dummy, .plain⟩, ⟨13, [1, 7], [], .mulVV, .plain⟩], []⟩
        (fun q => if q = 1 then 3 else if q = 7 then d else 3 * d) (fun q => if q = 1 then a else 0) 21 [(1, 1)] fr := by
  obtain ⟨e1, H1⟩ := H.begin (by simp [maxNestedStack])
  obtain ⟨s2, e2, H2⟩ := H1.newVar 1 (by simp [cap])
  have H2' : Here s2 ⟨[⟨1, [], [], .dummy, .plain⟩, ⟨7, [], [], .dummy, .plain⟩], []⟩
      (fun q => if q = 1 then 3 else 1) (fun _ => 0) 13 [(1, 1), (7, 2)] unused := by
    refine H2.congr ?_ ?_ <;> simp [xG, Graph.push, upd, Arith.zero]
  have hwp : (⟨[⟨1, [], [], .dummy, .plain⟩, ⟨7, [], [], .dummy, .plain⟩], []⟩ : Graph ℝ).Has w := by
    rcases hw with hw | hw <;> (simp only [Prod.mk.injEq] at hw; obtain ⟨-, -, -, rfl, -⟩ := hw; simp [Graph.Has])
  obtain ⟨s3, e3, H3⟩ := H2'.binary (v := ⟨2⟩) (w := w) (by simp [Graph.Has]) hwp Arith.mul .mulVV (by simp [cap])
  have H3' : Here s3 (zG p) (fun q => if q = 1 then 3 else if q = 7 then 1 else if p = 1 then 3 else 1) (fun _ => 0) 21
      [(1, 1), (7, 2)] unused := by
    rcases hw with hw | hw <;> (simp only [Prod.mk.injEq] at hw; obtain ⟨-, -, -, rfl, rfl, -⟩ := hw) <;>
    refine H3.congr ?_ ?_ <;> simp [Graph.push, Graph.pos, upd, Arith.zero, Arith.mul]
  obtain ⟨s4, e4, H4⟩ := H3'.grad (v := ⟨3⟩) (by simp [Graph.Has, zG]) (by
    intro nd hn
    simp only [zG, List.mem_cons, List.not_mem_nil, or_false] at hn
    rcases hn with rfl | rfl | rfl <;> intro a
    · exact ⟨[], rfl⟩
    · exact ⟨[], rfl⟩
    · exact ⟨_, rfl⟩)
  have H4' : Here s4 (zG p) (fun q => if q = 1 then 3 else if q = 7 then 1 else if p = 1 then 3 else 1)
      (fun q => if q = 1 then a else if q = 7 then d else 1) 21 [(1, 1), (7, 2)] unused := by
    rcases hw with hw | hw <;> (simp only [Prod.mk.injEq] at hw; obtain ⟨-, -, -, rfl, rfl, rfl, rfl⟩ := hw) <;>
    refine H4.congr (fun _ _ => rfl) ?_ <;>
    simp [zG, sweep, Node.args, Node.cl, Node.contrib, contribPlain, cBin, addAll, Arith.add, Arith.mul, upd, Arith.one,
      Graph.pos] <;> norm_num
  obtain ⟨s5, e5, -, H5⟩ := H4'.done (l := [(1, 1)]) (g0 := xG) (lo := 7) (by simp [maxNestedStack])
    ⟨⟨_, rfl⟩, List.prefix_refl _⟩ xWF (by omega) (by omega) (size_here H4' (by omega) (by omega))
  obtain ⟨s6, e6, H6⟩ := H5.newVar d (by simp [cap])
  have H6' : ∃ fr, Here s6 ⟨[⟨1, [], [], .dummy, .plain⟩, ⟨7, [], [], .dummy, .plain⟩], []⟩
      (fun q => if q = 1 then 3 else d) (fun q => if q = 1 then a else 0) 13 [(1, 1)] fr := by
    refine ⟨_, H6.congr ?_ ?_⟩ <;> simp [xG, zG, Graph.push, upd, Arith.zero]
  obtain ⟨fr, H6'⟩ := H6'
  obtain ⟨s7, e7, H7⟩ := H6'.binary (v := ⟨1⟩) (w := ⟨2⟩) (by simp [Graph.Has]) (by simp [Graph.Has]) Arith.mul .mulVV
    (by simp [cap])
  refine ⟨s7, fr, ?_, H7.congr ?_ ?_⟩
  · have hg : (Fz.gradient (fun xv => do
        let outs ← (Deep.run (.make (.bin .mul i j) (.ret [is.length + 1])) (xv ++ is.map (nth [⟨1⟩])) : M W (List Var))
        firstOf outs) [1] : M W (ℝ × List ℝ)) s = .ok ((if p = 1 then 3 else 1, [d]), s5) := by
      unfold Fz.gradient
      rw [bind_ok e1, bind_ok (newVars1 e2)]
      have er : (do let outs ← (Deep.run (.make (.bin .mul i j) (.ret [is.length + 1])) ([⟨2⟩] ++ is.map (nth [⟨1⟩])) : M W (List Var))
                    firstOf outs : M W Var) s2 = .ok (⟨3⟩, s3) := by
        have e3' : (Make.call (R := ℝ) (.bin .mul i j) ([⟨2⟩] ++ is.map (nth [⟨1⟩])) : M W (List Var)) s2 = .ok ([⟨3⟩], s3) := by
          rcases hw with hw | hw <;> (simp only [Prod.mk.injEq] at hw; obtain ⟨rfl, rfl, rfl, rfl, -⟩ := hw) <;>
          exact bind_ok (f := fun v => pure [v]) e3
        unfold Deep.run
        rw [if_pos (by rcases hw with hw | hw <;> (simp only [Prod.mk.injEq] at hw; obtain ⟨rfl, rfl, rfl, -⟩ := hw) <;>
          simp [Make.args])]
        rw [bind_assoc, bind_ok e3']
        unfold Deep.run
        rw [if_pos (by simp)]
        rcases hw with hw | hw <;> (simp only [Prod.mk.injEq] at hw; obtain ⟨rfl, rfl, rfl, -⟩ := hw) <;> rfl
      rw [show ([⟨xG.nodes.length + 1⟩] : List Var) = [⟨2⟩] from rfl, bind_ok er,
        bind_ok (H3'.inv.varVal (v := ⟨3⟩) (by simp [Graph.Has, zG])), bind_ok e4,
        bind_ok (H4'.inv.varAdjs (vs := [⟨2⟩]) (by simp [Graph.Has, zG])), bind_ok e5]
      simp [zG, Graph.pos, pure_ok]
    unfold scaled Deep.run
    rw [if_pos (by rcases hw with hw | hw <;> (simp only [Prod.mk.injEq] at hw; obtain ⟨-, -, rfl, -⟩ := hw) <;> simp),
      bind_ok hg]
    unfold Deep.run
    rw [if_pos (by simp [Make.args]), bind_ok (show (Make.call (R := ℝ) (.newVals [d]) [⟨1⟩] : M W (List Var)) s5 =
      .ok ([⟨2⟩], s6) from newVars1 e6)]
    unfold Deep.run
    rw [if_pos (by simp [Make.args])]
    refine (bind_ok (show (Make.call (R := ℝ) (.bin .mul 0 1) ([⟨1⟩] ++ [⟨2⟩]) : M W (List Var)) s6 =
      .ok ([⟨3⟩], s7) from bind_ok (f := fun v => pure [v]) e7)).trans ?_
    unfold Deep.run
    rw [if_pos (by simp)]
    rfl
  · simp [Graph.push, Graph.pos, upd, Arith.mul]
  · simp [Graph.push, upd, Arith.zero]

/-- the beginning of both calls -/
theorem scaled_start : ∃ s1 s2 : St W, (beginNested : M W Unit) St.init = .ok ((), s1) ∧
    (newVars ([3] : List ℝ) : M W (List Var)) s1 = .ok ([⟨1⟩], s2) ∧
    Here s2 xG (fun _ => 3) (fun _ => 0) 7 [(1, 1)] unused := by
  obtain ⟨e1, H1⟩ := (Here.init (W := W) (fun _ => (0 : ℝ)) fun _ => 0).begin (by simp [maxNestedStack])
  obtain ⟨s2, e2, H2⟩ := H1.newVar 3 (by simp [cap])
  refine ⟨_, s2, e1, newVars1 e2, H2.congr ?_ ?_⟩ <;> simp [Graph.push, Graph.empty, upd, Arith.zero]

theorem mulFits {g : Graph ℝ} {val : Nat → ℝ}
    (hg : g = ⟨[⟨1, [], [], .dummy, .plain⟩, ⟨7, [], [], .dummy, .plain⟩, ⟨13, [1, 7], [], .mulVV, .plain⟩], []⟩) :
    ∀ nd ∈ g.nodes, nd.Fits val := by
  subst hg
  intro nd hn
  simp only [List.mem_cons, List.not_mem_nil, or_false] at hn
  rcases hn with rfl | rfl | rfl <;> intro a
  · exact ⟨[], rfl⟩
  · exact ⟨[], rfl⟩
  · exact ⟨_, rfl⟩

theorem emptyWF : (Graph.empty : Graph ℝ).WF 1 := by
  constructor <;> simp [Graph.empty]

/-- what `gradient` answers for the outer function: the right derivative `d`, plus what the inner call left behind -/
theorem scaled_gradient {i j : Nat} {is : List Nat} {d a : ℝ} {p : Nat} {w : Var}
    (hw : (i, j, is, w, p, d, a) = (0, 1, [0], ⟨1⟩, 1, 3, 1) ∨ (i, j, is, w, p, d, a) = (0, 0, [], ⟨2⟩, 7, 2, 0)) :
    ∃ s', gradient ((scaled i j is).scalar []) [3] (St.init : St W) = .ok ((3 * d, [a + d]), s') := by
  obtain ⟨s1, s2, e1, e2, H2⟩ := scaled_start (W := W)
  obtain ⟨s3, fr, e3, H3⟩ := scaled_run hw H2
  obtain ⟨s4, e4, H4⟩ := H3.grad (v := ⟨3⟩) (by simp [Graph.Has]) (mulFits rfl)
  obtain ⟨s5, e5, -, H5⟩ := H4.done (l := []) (g0 := Graph.empty) (lo := 1) (by simp [maxNestedStack])
    ⟨List.nil_prefix, List.prefix_refl _⟩ emptyWF (by omega) (by omega) (size_here H4 (by omega) (by omega))
  refine ⟨s5, ?_⟩
  have er : ((scaled i j is).scalar [] [⟨1⟩] : M W Var) s2 = .ok (⟨3⟩, s3) := by
    unfold Deep.scalar
    rw [List.append_nil, bind_ok e3]
    rfl
  unfold gradient
  rw [bind_ok e1, bind_ok e2, bind_ok er, bind_ok (H3.inv.varVal (v := ⟨3⟩) (by simp [Graph.Has])), bind_ok e4,
    bind_ok (H4.inv.varAdjs (vs := [⟨1⟩]) (by simp [Graph.Has])), bind_ok e5]
  simp [pure_ok, Graph.pos, sweep, Node.args, Node.cl, Node.contrib, contribPlain, cBin, addAll, Arith.add, Arith.mul, upd,
    Arith.one]

theorem scaled_jacobian {i j : Nat} {is : List Nat} {d a : ℝ} {p : Nat} {w : Var}
    (hw : (i, j, is, w, p, d, a) = (0, 1, [0], ⟨1⟩, 1, 3, 1) ∨ (i, j, is, w, p, d, a) = (0, 0, [], ⟨2⟩, 7, 2, 0)) :
    ∃ s', jacobian ((scaled i j is).vector []) 1 [3] (St.init : St W) = .ok (([3 * d], [[d]]), s') := by
  obtain ⟨s1, s2, e1, e2, H2⟩ := scaled_start (W := W)
  obtain ⟨s3, fr, e3, H3⟩ := scaled_run hw H2
  obtain ⟨l1, l2, l3⟩ := H3.inner (l := [])
  obtain ⟨m, b, ez, iz, hz⟩ := zeroNested_ok H3.inv (by rw [l1]; simp) (by rw [l1]; simp [maxNestedStack]) (n := 0) l3
    (Nat.zero_le _)
  have Hz := (H3.mem iz).congr (val' := fun q => if q = 1 then 3 else if q = 7 then d else 3 * d) (adj' := fun _ => 0) (fun _ _ => rfl) fun nd hn => (hz nd hn).symm
  obtain ⟨s4, e4, H4⟩ := Hz.grad (v := ⟨3⟩) (by simp [Graph.Has]) (mulFits rfl)
  obtain ⟨s5, e5, -, H5⟩ := H4.done (l := []) (g0 := Graph.empty) (lo := 1) (by simp [maxNestedStack])
    ⟨List.nil_prefix, List.prefix_refl _⟩ emptyWF (by omega) (by omega) (size_here H4 (by omega) (by omega))
  refine ⟨s5, ?_⟩
  have er : ((scaled i j is).vector [] [⟨1⟩] 1 : M W (List Var)) s2 = .ok ([⟨3⟩], s3) := by
    unfold Deep.vector
    rw [List.append_nil]
    exact e3
  have ej : (jacLoop [⟨1⟩] [⟨3⟩] : M W (List (List ℝ))) s3 = .ok ([[d]], s4) := by
    unfold jacLoop
    rw [bind_ok ez, bind_ok e4, bind_ok (H4.inv.varAdjs (vs := [⟨1⟩]) (by simp [Graph.Has]))]
    simp [jacLoop, pure_ok, Graph.pos, sweep, Node.args, Node.cl, Node.contrib, contribPlain, cBin, addAll, Arith.add,
      Arith.mul, upd, Arith.one]
  unfold jacobian
  rw [bind_ok e1, bind_ok e2, bind_ok er, bind_ok (confN_ok (n := 1) (l := ([⟨3⟩] : List Var)) rfl s3),
    bind_ok (H3.inv.varVals (vs := [⟨3⟩]) (by simp [Graph.Has])), bind_ok ej, bind_ok e5]
  simp [pure_ok, Graph.pos]

/-- **C62 fails** for an outer `gradient`: `f(x) = x * c`, with `c` the derivative of `z ↦ z * x` at `z = 1`, computed by
an inner call of `gradient`.  At `x = 3` the answer is the derivative 4; by the book it is 3, and `jacobian` answers 3. -/
theorem C62_refuted : ∃ (c : Client W) (s' s'' : St W), Reach ([] : List (Call ℝ)) c ∧ leaky.Tidy ∧ leaky.Careful True ∧
    gradient (leaky.scalar []) [3] c.st = .ok ((9, [4]), s') ∧ leaky.bookGradient [] [3] = some (9, [3]) ∧
    jacobian (leaky.vector []) 1 [3] c.st = .ok (([9], [[3]]), s'') := by
  obtain ⟨s', e⟩ := scaled_gradient (W := W) (Or.inl rfl)
  obtain ⟨s'', e'⟩ := scaled_jacobian (W := W) (Or.inl rfl)
  refine ⟨Client.init, s', s'', ⟨by simp, rfl⟩, ?_, ?_, ?_, leaky_book.1, ?_⟩
  · exact ⟨⟨⟨trivial, trivial, trivial⟩, trivial⟩, fun _ _ => ⟨⟨trivial, trivial, trivial⟩, ⟨trivial, trivial, trivial⟩, trivial⟩⟩
  · exact ⟨trivial, trivial, fun _ _ => trivial⟩
  · refine e.trans ?_
    norm_num
  · refine e'.trans ?_
    norm_num

/-- the hypotheses of `C62_jacobian` and `C62_jacobian_real` are met, with an inner function that uses a variable of the
outer one -/
example : ∃ (c : Client W) (s' : St W), Reach ([] : List (Call ℝ)) c ∧ leaky.Tidy ∧ leaky.Careful False ∧
    (vals [] : M W (List ℝ)) c.st = .ok ([], c.st) ∧ jacobian (leaky.vector []) 1 [3] c.st = .ok (([9], [[3]]), s') := by
  obtain ⟨c, -, s', hr, ht, -, -, -, e⟩ := C62_refuted (W := W)
  exact ⟨c, s', hr, ht, ⟨trivial, trivial, fun _ _ => trivial⟩, rfl, e⟩

/-- the hypotheses of `C62_gradient_partial` are met, with an inner call -/
example : ∃ (c : Client W) (s' : St W), Reach ([] : List (Call ℝ)) c ∧ tight.Tidy ∧ tight.Apart True ∧
    tight.Careful True ∧ (vals [] : M W (List ℝ)) c.st = .ok ([], c.st) ∧
    gradient (tight.scalar []) [3] c.st = .ok ((6, [2]), s') ∧ tight.bookGradient [] [3] = some (6, [2]) := by
  obtain ⟨s', e⟩ := scaled_gradient (W := W) (Or.inr rfl)
  refine ⟨Client.init, s', ⟨by simp, rfl⟩, ?_, ⟨trivial, rfl, fun _ _ => trivial⟩, ⟨trivial, trivial, fun _ _ => trivial⟩,
    rfl, e.trans ?_, tight_book⟩
  · exact ⟨⟨⟨trivial, trivial, trivial⟩, trivial⟩, fun _ _ => ⟨⟨trivial, trivial, trivial⟩, ⟨trivial, trivial, trivial⟩, trivial⟩⟩
  · norm_num

end witness

end Props
