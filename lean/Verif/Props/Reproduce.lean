import Verif.Proof.Replay
import Verif.Proof.Demo
import Verif.Proof.OdeRun
import Verif.Props.Nesting

/-!
# C41: derivatives do not depend on what the program did before
# C42: after `gradient` and `jacobian` the program goes on as after any region

The user's function is any `Code` (`Spec/Code.lean`), in any arithmetic `R`.
-/

set_option linter.unusedSectionVars false

namespace Props
open Fz Spec

section generic
variable {W1 W2 W R : Type} [Arith R] [Rep W1 R] [LawfulRep W1 R] [Rep W2 R] [LawfulRep W2 R] [Rep W R] [LawfulRep W R]

/-! ## C41 -/

theorem begun {c : Client W} {g : Graph R} {val adj : Nat → R} (G : Good c g val adj) {s1 : St W}
    (e : (beginNested : M W Unit) c.st = .ok ((), s1)) :
    ∃ c1 : Client W, c1.st = s1 ∧ Good c1 g val adj ∧ TopAt s1 g.nodes.length := by
  have hk : (Call.begin : Call R).step c = .ok ⟨s1, c.env, c.env.length :: c.marks⟩ := by
    simp only [Call.step, e]
  obtain ⟨G1, hl, -, -, hst⟩ := G.begin hk
  refine ⟨_, rfl, G1, ?_⟩
  simp only at hst
  subst hst
  refine ⟨Nat.succ_pos _, hl, ?_⟩
  simp [G.inv.vhead]

theorem same_vals {c c1 : Client W} {g : Graph R} {val adj : Nat → R} (G : Good c g val adj) (G1 : Good c1 g val adj)
    {e : List Var} (m : ∀ v ∈ e, g.Has v) {ys : List R} (r : vals e c.st = .ok (ys, c.st)) :
    vals e c1.st = .ok (ys, c1.st) := by
  rw [G.inv.varVals m] at r
  rw [G1.inv.varVals m]
  injection r with r
  injection r with r
  rw [r]

variable {h1 h2 h : List (Call R)} {c1 : Client W1} {c2 : Client W2} {c : Client W} {e1 e2 : List Var} {ys : List R}

/-- **C41**: the value and the partial derivatives `gradient` returns are determined by the function, the point and the
values of the outer variables the function uses.  They do not depend on what the program has done before: the length
of the tape, the adjoints that are left over, the open regions, or the way `real64` is stored. -/
theorem C41_gradient (r1 : Reach h1 c1) (r2 : Reach h2 c2) (m1 : ∀ v ∈ e1, v ∈ existing c1.st)
    (m2 : ∀ v ∈ e2, v ∈ existing c2.st) (q1 : vals e1 c1.st = .ok (ys, c1.st)) (q2 : vals e2 c2.st = .ok (ys, c2.st))
    {f : Code R} (hf : f.Sane) (x : List R) {z1 z2 : R × List R} {s1 : St W1} {s2 : St W2}
    (g1 : gradient (f.scalar e1) x c1.st = .ok (z1, s1)) (g2 : gradient (f.scalar e2) x c2.st = .ok (z2, s2)) :
    z1 = z2 := by
  obtain ⟨G1, v1, a1, G1⟩ := r1.good
  obtain ⟨G2, v2, a2, G2⟩ := r2.good
  replace m1 : ∀ v ∈ e1, _ := fun v hv => (mem_existing G1.inv).mp (m1 v hv)
  replace m2 : ∀ v ∈ e2, _ := fun v hv => (mem_existing G2.inv).mp (m2 v hv)
  obtain ⟨t1, u1, b1, d1⟩ := gradient_body g1
  obtain ⟨t2, u2, b2, d2⟩ := gradient_body g2
  obtain ⟨k1, rfl, K1, T1⟩ := begun G1 b1
  obtain ⟨k2, rfl, K2, T2⟩ := begun G2 b2
  obtain ⟨B, a, b, hn, -, p1, p2, t, he⟩ := twin_start K1 K2 m1 m2 (same_vals G1 K1 m1 q1) (same_vals G2 K2 m2 q2) True
    (fun _ => T1) (fun _ => T2)
  rw [← p1] at d1
  rw [← p2] at d2
  obtain ⟨_, _, _, _, _, _, _, hz⟩ := tt_gradBody t f hf he x _ _ _ _ d1 d2
  exact hz

/-- **C41** for `jacobian`. -/
theorem C41_jacobian (r1 : Reach h1 c1) (r2 : Reach h2 c2) (m1 : ∀ v ∈ e1, v ∈ existing c1.st)
    (m2 : ∀ v ∈ e2, v ∈ existing c2.st) (q1 : vals e1 c1.st = .ok (ys, c1.st)) (q2 : vals e2 c2.st = .ok (ys, c2.st))
    {f : Code R} (hf : f.Sane) (n : Nat) (x : List R) {z1 z2 : List R × List (List R)} {s1 : St W1} {s2 : St W2}
    (g1 : jacobian (f.vector e1) n x c1.st = .ok (z1, s1)) (g2 : jacobian (f.vector e2) n x c2.st = .ok (z2, s2)) :
    z1 = z2 := by
  obtain ⟨G1, v1, a1, G1⟩ := r1.good
  obtain ⟨G2, v2, a2, G2⟩ := r2.good
  replace m1 : ∀ v ∈ e1, _ := fun v hv => (mem_existing G1.inv).mp (m1 v hv)
  replace m2 : ∀ v ∈ e2, _ := fun v hv => (mem_existing G2.inv).mp (m2 v hv)
  obtain ⟨t1, u1, b1, d1⟩ := jacobian_body g1
  obtain ⟨t2, u2, b2, d2⟩ := jacobian_body g2
  obtain ⟨k1, rfl, K1, T1⟩ := begun G1 b1
  obtain ⟨k2, rfl, K2, T2⟩ := begun G2 b2
  obtain ⟨B, a, b, hn, -, p1, p2, t, he⟩ := twin_start K1 K2 m1 m2 (same_vals G1 K1 m1 q1) (same_vals G2 K2 m2 q2) True
    (fun _ => T1) (fun _ => T2)
  rw [← p1] at d1
  rw [← p2] at d2
  obtain ⟨_, _, _, _, _, _, _, hz⟩ := tt_jacBody t (by rw [hn]; trivial) f hf he n x _ _ _ _ d1 d2
  exact hz

/-- **C41**: the first sweep from a fresh computation, without a region, gives the same numbers after any history. -/
theorem C41_derive (r1 : Reach h1 c1) (r2 : Reach h2 c2) (m1 : ∀ v ∈ e1, v ∈ existing c1.st)
    (m2 : ∀ v ∈ e2, v ∈ existing c2.st) (q1 : vals e1 c1.st = .ok (ys, c1.st)) (q2 : vals e2 c2.st = .ok (ys, c2.st))
    {f : Code R} (hf : f.Sane) (x : List R) {z1 z2 : R × List R} {s1 : St W1} {s2 : St W2}
    (g1 : f.derive e1 x c1.st = .ok (z1, s1)) (g2 : f.derive e2 x c2.st = .ok (z2, s2)) : z1 = z2 := by
  obtain ⟨G1, v1, a1, G1⟩ := r1.good
  obtain ⟨G2, v2, a2, G2⟩ := r2.good
  replace m1 : ∀ v ∈ e1, _ := fun v hv => (mem_existing G1.inv).mp (m1 v hv)
  replace m2 : ∀ v ∈ e2, _ := fun v hv => (mem_existing G2.inv).mp (m2 v hv)
  obtain ⟨B, a, b, hn, -, p1, p2, t, he⟩ := twin_start G1 G2 m1 m2 q1 q2 False False.elim False.elim
  rw [← p1] at g1
  rw [← p2] at g2
  obtain ⟨_, _, _, _, _, _, _, hz⟩ := tt_gradBody t f hf he x _ _ _ _ g1 g2
  exact hz

/-- **C41**: `gradient` returns what one gets without a region, by hand. -/
theorem C41_region (r1 : Reach h1 c1) (r2 : Reach h2 c2) (m1 : ∀ v ∈ e1, v ∈ existing c1.st)
    (m2 : ∀ v ∈ e2, v ∈ existing c2.st) (q1 : vals e1 c1.st = .ok (ys, c1.st)) (q2 : vals e2 c2.st = .ok (ys, c2.st))
    {f : Code R} (hf : f.Sane) (x : List R) {z1 z2 : R × List R} {s1 : St W1} {s2 : St W2}
    (g1 : gradient (f.scalar e1) x c1.st = .ok (z1, s1)) (g2 : f.derive e2 x c2.st = .ok (z2, s2)) : z1 = z2 := by
  obtain ⟨G1, v1, a1, G1⟩ := r1.good
  obtain ⟨G2, v2, a2, G2⟩ := r2.good
  replace m1 : ∀ v ∈ e1, _ := fun v hv => (mem_existing G1.inv).mp (m1 v hv)
  replace m2 : ∀ v ∈ e2, _ := fun v hv => (mem_existing G2.inv).mp (m2 v hv)
  obtain ⟨t1, u1, b1, d1⟩ := gradient_body g1
  obtain ⟨k1, rfl, K1, T1⟩ := begun G1 b1
  obtain ⟨B, a, b, hn, -, p1, p2, t, he⟩ := twin_start K1 G2 m1 m2 (same_vals G1 K1 m1 q1) q2 False False.elim False.elim
  rw [← p1] at d1
  rw [← p2] at g2
  obtain ⟨_, _, _, _, _, _, _, hz⟩ := tt_gradBody t f hf he x _ _ _ _ d1 g2
  exact hz

/-! ## C42 -/

/-- the client's variables a list names -/
theorem names_of {env e : List Var} (he : ∀ v ∈ e, v ∈ env) :
    ∃ is : List Nat, (∀ i ∈ is, i < env.length) ∧ e = is.map (nth env) := by
  induction e with
  | nil => exact ⟨[], by simp, rfl⟩
  | cons v e ih =>
    obtain ⟨is, h1, h2⟩ := ih fun w hw => he w (by simp [hw])
    obtain ⟨i, hi, e1⟩ := List.getElem_of_mem (he v (by simp))
    refine ⟨i :: is, ?_, ?_⟩
    · intro j hj
      rcases List.mem_cons.mp hj with rfl | hj
      · exact hi
      · exact h1 j hj
    · rw [List.map_cons, ← h2]
      simp [nth, List.getD_eq_getElem?_getD, List.getElem?_eq_getElem hi, e1]

/-- **C42**: a program that has called `gradient` is where a program can be that has only made calls of the history
language.  So every theorem about histories holds after calls of `gradient` as well. -/
theorem C42_gradient_reach (hr : Reach h c) {e : List Var} (he : ∀ v ∈ e, v ∈ c.env) {f : Code R} (hf : f.Sane)
    {x : List R} {z : R × List R} {s' : St W} (hg : gradient (f.scalar e) x c.st = .ok (z, s')) :
    ∃ l : List (Call R), Reach (h ++ (.begin :: l ++ [.done])) ⟨s', c.env, c.marks⟩ ∧ Balanced l ∧
      ∀ k ∈ l, k.Sane ∧ k.assigns = false := by
  obtain ⟨is, hi, rfl⟩ := names_of he
  obtain ⟨l, hl, hrun⟩ := gradient_replay hi hf hg
  refine ⟨l, Fz.Reach.append hr ?_ hrun, inside_inner hl 0, fun k hk => ⟨(hl k hk).sane, (hl k hk).noAssign⟩⟩
  intro k hk
  simp only [List.mem_append, List.mem_cons, List.mem_singleton, List.not_mem_nil, or_false] at hk
  rcases hk with (rfl | hk) | rfl
  · trivial
  · exact (hl k hk).sane
  · trivial

/-- **C42** for `jacobian`. -/
theorem C42_jacobian_reach (hr : Reach h c) {e : List Var} (he : ∀ v ∈ e, v ∈ c.env) {f : Code R} (hf : f.Sane)
    {n : Nat} {x : List R} {z : List R × List (List R)} {s' : St W}
    (hg : jacobian (f.vector e) n x c.st = .ok (z, s')) :
    ∃ l : List (Call R), Reach (h ++ (.begin :: l ++ [.done])) ⟨s', c.env, c.marks⟩ ∧ Balanced l ∧
      ∀ k ∈ l, k.Sane ∧ k.assigns = false := by
  obtain ⟨is, hi, rfl⟩ := names_of he
  obtain ⟨l, hl, hrun⟩ := jacobian_replay hi hf hg
  refine ⟨l, Fz.Reach.append hr ?_ hrun, inside_inner hl 0, fun k hk => ⟨(hl k hk).sane, (hl k hk).noAssign⟩⟩
  intro k hk
  simp only [List.mem_append, List.mem_cons, List.mem_singleton, List.not_mem_nil, or_false] at hk
  rcases hk with (rfl | hk) | rfl
  · trivial
  · exact (hl k hk).sane
  · trivial

/-- what a region without assignment leaves -/
theorem region_keeps {s' : St W} {l : List (Call R)} (hr : Reach h c)
    (hr' : Reach (h ++ (.begin :: l ++ [.done])) ⟨s', c.env, c.marks⟩) (hb : Balanced l)
    (hl : ∀ k ∈ l, k.Sane ∧ k.assigns = false) :
    existing s' = existing c.st ∧ s'.tape.head = c.st.tape.head ∧ s'.level = c.st.level ∧
    ∀ v ∈ existing c.st, ∃ w w' : View R, seen c.st v = .ok w ∧ seen s' v = .ok w' ∧ w'.val = w.val ∧
      w'.ops = w.ops ∧ w'.data = w.data := by
  have hx : run (Call.begin :: l ++ [Call.done]) c = .ok ⟨s', c.env, c.marks⟩ := by
    have := hr'.2
    rw [run_append, hr.2] at this
    exact this
  obtain ⟨k1, k2, -, k3, -, -, k4⟩ := C11_restores hr (fun k hk => (hl k hk).1) hb hx
  refine ⟨k2, k1, k3, fun v hv => ?_⟩
  obtain ⟨w, w', a1, a2, a3, a4⟩ := k4 v hv
  obtain ⟨u, u', b1, b2, b3⟩ := C11_values hr (fun k hk => (hl k hk).1) hb hx (fun k hk => (hl k hk).2) hv
  rw [a1] at b1
  rw [a2] at b2
  cases b1
  cases b2
  exact ⟨w, w', a1, a2, b3, a3, a4⟩

/-- **C09** (all but the adjoints) in any arithmetic and for any function, whatever variables of the caller it uses:
after `gradient` the same variables exist, with their values, operands and data, and the tape and the nesting level are
as before.  Missing from the property: the adjoints, see `C09_refuted`. -/
theorem C09_gradient_any_partial (hr : Reach h c) {e : List Var} (he : ∀ v ∈ e, v ∈ c.env) {f : Code R} (hf : f.Sane)
    {x : List R} {z : R × List R} {s' : St W} (hg : gradient (f.scalar e) x c.st = .ok (z, s')) :
    existing s' = existing c.st ∧ s'.tape.head = c.st.tape.head ∧ s'.level = c.st.level ∧
    ∀ v ∈ existing c.st, ∃ w w' : View R, seen c.st v = .ok w ∧ seen s' v = .ok w' ∧ w'.val = w.val ∧
      w'.ops = w.ops ∧ w'.data = w.data := by
  obtain ⟨l, hr', hb, hl⟩ := C42_gradient_reach hr he hf hg
  exact region_keeps hr hr' hb hl

/-- **C09** (all but the adjoints) for `jacobian`. -/
theorem C09_jacobian_any_partial (hr : Reach h c) {e : List Var} (he : ∀ v ∈ e, v ∈ c.env) {f : Code R} (hf : f.Sane)
    {n : Nat} {x : List R} {z : List R × List (List R)} {s' : St W}
    (hg : jacobian (f.vector e) n x c.st = .ok (z, s')) :
    existing s' = existing c.st ∧ s'.tape.head = c.st.tape.head ∧ s'.level = c.st.level ∧
    ∀ v ∈ existing c.st, ∃ w w' : View R, seen c.st v = .ok w ∧ seen s' v = .ok w' ∧ w'.val = w.val ∧
      w'.ops = w.ops ∧ w'.data = w.data := by
  obtain ⟨l, hr', hb, hl⟩ := C42_jacobian_reach hr he hf hg
  exact region_keeps hr hr' hb hl

theorem again_vals {s' : St W} {l : List (Call R)} (hr : Reach h c)
    (hr' : Reach (h ++ (.begin :: l ++ [.done])) ⟨s', c.env, c.marks⟩) (hb : Balanced l)
    (hl : ∀ k ∈ l, k.Sane ∧ k.assigns = false) {e : List Var} (he : ∀ v ∈ e, v ∈ c.env) :
    ∃ ys : List R, (∀ v ∈ e, v ∈ existing c.st) ∧ (∀ v ∈ e, v ∈ existing s') ∧ vals e c.st = .ok (ys, c.st) ∧
      vals e s' = .ok (ys, s') := by
  obtain ⟨k1, -, -, k4⟩ := region_keeps hr hr' hb hl
  obtain ⟨g, val, adj, G⟩ := hr.good
  obtain ⟨g', val', adj', G'⟩ := hr'.good
  have m : ∀ v ∈ e, v ∈ existing c.st := fun v hv => (mem_existing G.inv).mpr (G.has v (he v hv))
  have m' : ∀ v ∈ e, v ∈ existing s' := fun v hv => by rw [k1]; exact m v hv
  have q1 := G.inv.varVals fun v hv => G.has v (he v hv)
  have q2 := G'.inv.varVals fun v hv => G'.has v (he v hv)
  have hq : e.map (fun v => val (g.pos v)) = e.map fun v => val' (g'.pos v) := by
    refine List.map_congr_left fun v hv => ?_
    obtain ⟨w, w', a1, a2, a3, -⟩ := k4 v (m v hv)
    obtain ⟨nd, n1, n2⟩ := (G.has v (he v hv)).at
    obtain ⟨nd', n1', n2'⟩ := (G'.has v (he v hv)).at
    rw [G.inv.seen n1] at a1
    rw [G'.inv.seen n1'] at a2
    cases a1
    cases a2
    simpa [Node.view, n2, n2'] using a3.symm
  rw [← hq] at q2
  exact ⟨_, m, m', q1, q2⟩

/-- **C41**: the same call of `gradient` again gives the same result. -/
theorem C41_again (hr : Reach h c) {e : List Var} (he : ∀ v ∈ e, v ∈ c.env) {f : Code R} (hf : f.Sane) {x : List R}
    {z z' : R × List R} {s' s'' : St W} (hg : gradient (f.scalar e) x c.st = .ok (z, s'))
    (hg' : gradient (f.scalar e) x s' = .ok (z', s'')) : z = z' := by
  obtain ⟨l, hr', hb, hl⟩ := C42_gradient_reach hr he hf hg
  obtain ⟨ys, m, m', q1, q2⟩ := again_vals hr hr' hb hl he
  exact C41_gradient hr hr' m m' q1 q2 hf x hg hg'

/-- **C41**: the same call of `jacobian` again gives the same result. -/
theorem C41_jacobian_again (hr : Reach h c) {e : List Var} (he : ∀ v ∈ e, v ∈ c.env) {f : Code R} (hf : f.Sane)
    {n : Nat} {x : List R} {z z' : List R × List (List R)} {s' s'' : St W}
    (hg : jacobian (f.vector e) n x c.st = .ok (z, s')) (hg' : jacobian (f.vector e) n x s' = .ok (z', s'')) :
    z = z' := by
  obtain ⟨l, hr', hb, hl⟩ := C42_jacobian_reach hr he hf hg
  obtain ⟨ys, m, m', q1, q2⟩ := again_vals hr hr' hb hl he
  exact C41_jacobian hr hr' m m' q1 q2 hf n x hg hg'

theorem gradient_congr {f g : List Var → M W Var} {x : List R} (hfg : ∀ xv, xv.length = x.length → f xv = g xv) :
    gradient f x = gradient g x := by
  funext s
  unfold gradient
  cases e1 : (beginNested : M W Unit) s with
  | error _ => rw [bind_err e1, bind_err e1]
  | ok q =>
    obtain ⟨_, s1⟩ := q
    rw [bind_ok e1, bind_ok e1]
    cases e2 : (newVars x : M W (List Var)) s1 with
    | error _ => rw [bind_err e2, bind_err e2]
    | ok q =>
      obtain ⟨xv, s2⟩ := q
      rw [bind_ok e2, bind_ok e2, hfg xv (newVars_len x e2)]

theorem jacobian_congr {f g : List Var → Nat → M W (List Var)} {n : Nat} {x : List R}
    (hfg : ∀ xv, xv.length = x.length → f xv n = g xv n) : jacobian f n x = jacobian g n x := by
  funext s
  unfold jacobian
  cases e1 : (beginNested : M W Unit) s with
  | error _ => rw [bind_err e1, bind_err e1]
  | ok q =>
    obtain ⟨_, s1⟩ := q
    rw [bind_ok e1, bind_ok e1]
    cases e2 : (newVars x : M W (List Var)) s1 with
    | error _ => rw [bind_err e2, bind_err e2]
    | ok q =>
      obtain ⟨xv, s2⟩ := q
      rw [bind_ok e2, bind_ok e2, hfg xv (newVars_len x e2)]

end generic

/-! The hypotheses are met: after the history `demo` (three variables, with values 2, 3, 6 and adjoints) and at the start
of the program, by the function `z ↦ z * z`; and twice in succession after `demo`, by `z ↦ z * x` where `x` is a variable
of the caller. -/

/-- product of two variables, out of `n` -/
def mulCode (i j n : Nat) : Code ℝ := .make (.bin .mul i j) (.ret [n])
/-- the same as a program of `Spec/Prog.lean` -/
def mulProg (i j n : Nat) : Prog := .op (.bin .mul i j) (.ret [n])

section examples
variable {W : Type} [Rep W ℝ] [LawfulRep W ℝ]

theorem mulCode_run {i j n : Nat} (hi : i < n) (hj : j < n) {l : List Var} (hl : l.length = n) (s : St W) :
    (mulCode i j n).run l s = (mulProg i j n).run l s ∧ ∀ {o s'}, (mulProg i j n).run l s = .ok (o, s') → ∃ w : Var, o = [w] := by
  have e0 : (mulCode i j n).run l s = ((do
      let vs ← (Make.bin .mul i j : Make ℝ).call l
      (Code.ret [n] : Code ℝ).run (l ++ vs)) : M W (List Var)) s := by
    unfold mulCode Code.run
    rw [if_pos (by simp [Make.args, hl, hi, hj])]
    rfl
  have e00 : (mulProg i j n).run l s = ((do
      let vs ← (Instr.bin .mul i j).run l
      (Prog.ret [n]).run (l ++ vs)) : M W (List Var)) s := rfl
  have e2 : ∀ w : Var, ((Code.ret [n] : Code ℝ).run (l ++ [w]) : M W (List Var)) = pure [nth (l ++ [w]) n] := by
    intro w
    unfold Code.run
    rw [if_pos (by simp [hl])]
    rfl
  rw [e0, e00]
  cases e1 : (mulVV (nth l i) (nth l j) : M W Var) s with
  | error x =>
    have a1 : ((Make.bin .mul i j : Make ℝ).call l : M W _) s = .error x := bind_err e1
    have a2 : ((Instr.bin .mul i j).run l : M W _) s = .error x := bind_err e1
    rw [bind_err a1, bind_err a2]
    exact ⟨rfl, fun h => by cases h⟩
  | ok q =>
    obtain ⟨w, s1⟩ := q
    have a1 : ((Make.bin .mul i j : Make ℝ).call l : M W _) s = .ok ([w], s1) := by
      show (mulVV (nth l i) (nth l j) >>= fun v => pure [v] : M W _) s = _
      rw [bind_ok e1]; rfl
    have a2 : ((Instr.bin .mul i j).run l : M W _) s = .ok ([w], s1) := by
      show (mulVV (nth l i) (nth l j) >>= fun v => pure [v] : M W _) s = _
      rw [bind_ok e1]; rfl
    rw [bind_ok a1, bind_ok a2, e2 w]
    exact ⟨rfl, fun h => by cases h; exact ⟨_, rfl⟩⟩

theorem mulCode_gradient {i j n : Nat} (hi : i < n) (hj : j < n) {env : List Var} {x : List ℝ}
    (hl : x.length + env.length = n) :
    gradient ((mulCode i j n).scalar env : _ → M W Var) x = gradient ((mulProg i j n).scalarFn env) x := by
  apply gradient_congr
  intro xv hx
  funext s
  have hl' : (xv ++ env).length = n := by rw [List.length_append, hx, hl]
  obtain ⟨e1, e2⟩ := mulCode_run hi hj hl' s
  unfold Code.scalar Prog.scalarFn
  cases e3 : ((mulProg i j n).run (xv ++ env) : M W _) s with
  | error _ => rw [bind_err e3, bind_err (e1.trans e3)]
  | ok q =>
    obtain ⟨o, s'⟩ := q
    obtain ⟨w, rfl⟩ := e2 e3
    rw [bind_ok e3, bind_ok (e1.trans e3)]
    rfl

/-- for `C41_gradient` -/
example : ∃ (c : Client W) (z1 z2 : ℝ × List ℝ) (s1 s2 : St W), Reach demo c ∧ (mulCode 0 0 1).Sane ∧
    gradient ((mulCode 0 0 1).scalar []) [5] c.st = .ok (z1, s1) ∧
    gradient ((mulCode 0 0 1).scalar []) [5] (Client.init : Client W).st = .ok (z2, s2) := by
  obtain ⟨c, hr, hv, ha, hh, hl, he, g, val, adj, hf, hhas⟩ := demo_reach (W := W)
  have hok : (mulProg 0 0 1).Ok ([5] ++ []) := by
    simp [mulProg, Prog.Ok, Instr.Ok, Instr.sem, Bin.domVV]
  have hcost : (mulProg 0 0 1).cost ([5] ++ []) = 8 := by
    simp [mulProg, Prog.cost, Instr.cost]
  have hk : (mulProg 0 0 1).sem ([5] ++ []) ≠ [] := by
    simp [mulProg, Prog.sem, Instr.sem]
  have hc := mulCode_gradient (W := W) (i := 0) (j := 0) (n := 1) (env := []) (x := [5]) (by simp) (by simp) rfl
  obtain ⟨y, df, s', e, -⟩ := gradient_total (p := mulProg 0 0 1) (x := [5]) (ys := []) (env := [])
    (hf.weak (Or.inr trivial) fun _ => trivial) (by rw [hl]; simp [maxNestedStack]) (by simp) rfl hok
    (by unfold Room; rw [hh, hcost]; simp [tapeLimit]) hk ⟨by rw [hh]; omega, fun j => by
      rw [hh, hcost]
      have := Nat.one_le_two_pow (n := j)
      simp only [List.length_cons, List.length_nil]
      omega⟩
  obtain ⟨y2, df2, s2, e2, -⟩ := gradient_total (W := W) (p := mulProg 0 0 1) (x := [5]) (ys := []) (env := [])
    (fine_init _ _ (fun _ => 0) (fun _ => 0)) (by simp [St.init, maxNestedStack]) (by simp) rfl hok
    (by unfold Room; rw [hcost]; simp [tapeLimit, St.init, Tape.init]) hk ⟨by rw [hcost]; simp [St.init, Tape.init], fun j => by
      rw [hcost]
      have := Nat.one_le_two_pow (n := j)
      simp only [List.length_cons, List.length_nil, St.init, Tape.init]
      omega⟩
  exact ⟨c, _, _, _, _, hr, ⟨trivial, trivial⟩, by rw [hc]; exact e, by rw [hc]; exact e2⟩

/-- for `C41_again` and `C42_gradient_reach`: the function uses the variables of the caller -/
theorem times_twice : ∃ (c : Client W) (z1 z2 : ℝ × List ℝ) (s1 s2 : St W), Reach demo c ∧ c.env ≠ [] ∧ (mulCode 0 1 4).Sane ∧
    gradient ((mulCode 0 1 4).scalar c.env) [5] c.st = .ok (z1, s1) ∧
    gradient ((mulCode 0 1 4).scalar c.env) [5] s1 = .ok (z2, s2) := by
  obtain ⟨c, hr, hv, ha, hh, hl, ⟨v3, he⟩, g, val, adj, hf, hhas⟩ := demo_reach (W := W)
  have hok : (mulProg 0 1 4).Ok ([5] ++ [2, 3, 6]) := by
    simp [mulProg, Prog.Ok, Instr.Ok, Instr.sem, Bin.domVV]
  have hcost : (mulProg 0 1 4).cost ([5] ++ [2, 3, 6]) = 8 := by
    simp [mulProg, Prog.cost, Instr.cost]
  have hk : (mulProg 0 1 4).sem ([5] ++ [2, 3, 6]) ≠ [] := by
    simp [mulProg, Prog.sem, Instr.sem]
  have hy : [2, 3, 6] = c.env.map fun v => val (g.pos v) := by
    have := hf.inv.varVals hhas
    rw [hv] at this
    injection this with this
    injection this
  have hc := mulCode_gradient (W := W) (i := 0) (j := 1) (n := 4) (env := c.env) (x := [5]) (by simp) (by simp)
    (by rw [he]; rfl)
  obtain ⟨y, df, s', e, k1, k2, k3, val', a, hf', hq⟩ := gradient_total (p := mulProg 0 1 4) (x := [5]) (ys := [2, 3, 6])
    (hf.weak (Or.inr trivial) fun _ => trivial) (by rw [hl]; simp [maxNestedStack]) hhas hy hok
    (by unfold Room; rw [hh, hcost]; simp [tapeLimit]) hk ⟨by rw [hh]; omega, fun j => by
      rw [hh, hcost]
      have := Nat.one_le_two_pow (n := j)
      simp only [List.length_cons, List.length_nil]
      omega⟩
  obtain ⟨y2, df2, s2, e2, -⟩ := gradient_total (p := mulProg 0 1 4) (x := [5]) (ys := [2, 3, 6])
    (hf'.weak (Or.inl (by simp)) fun h => by simp [mulProg, Prog.hasConst] at h) (by rw [k1, hl]; simp [maxNestedStack]) hhas (by
      rw [hy]
      exact List.map_congr_left fun v hv => (hq _ (hf.inv.has_lt (hhas v hv))).symm) hok
    (by unfold Room; rw [k2, hh, hcost]; simp [tapeLimit]) hk ⟨by rw [k2, hh]; omega, fun j => by
      rw [k2, hh, hcost]
      have := Nat.one_le_two_pow (n := j)
      simp only [List.length_cons, List.length_nil]
      omega⟩
  exact ⟨c, _, _, _, _, hr, by rw [he]; simp, ⟨trivial, trivial⟩, by rw [hc]; exact e, by rw [hc]; exact e2⟩

/-- for `C41_derive` and `C41_region`: the second client is in a region, with the variables of the first -/
example : ∃ (c c2 : Client W) (z1 z2 : ℝ × List ℝ) (s1 s2 : St W), Reach demo c ∧ Reach (demo ++ [.begin]) c2 ∧
    c2.env = c.env ∧ c.env ≠ [] ∧ (mulCode 0 1 4).Sane ∧
    gradient ((mulCode 0 1 4).scalar c.env) [5] c.st = .ok (z1, s1) ∧
    (mulCode 0 1 4).derive c.env [5] c2.st = .ok (z2, s2) := by
  obtain ⟨c, z1, z2, s1, s2, hr, hne, hs, e, -⟩ := times_twice (W := W)
  obtain ⟨t1, t2, e1, e2⟩ := gradient_body e
  exact ⟨c, ⟨t1, c.env, c.env.length :: c.marks⟩, _, _, _, _, hr, Reach.snoc hr trivial (exec_begin e1), rfl, hne, hs, e, e2⟩

theorem mulCode_jacobian {i j n : Nat} (hi : i < n) (hj : j < n) {env : List Var} {x : List ℝ}
    (hl : x.length + env.length = n) :
    jacobian ((mulCode i j n).vector env : _ → _ → M W (List Var)) 1 x = jacobian ((mulProg i j n).vectorFn env) 1 x := by
  apply jacobian_congr
  intro xv hx
  funext s
  exact (mulCode_run hi hj (by rw [List.length_append, hx, hl]) s).1

/-- for the theorems about `jacobian` -/
example : ∃ (c : Client W) (z1 z2 : List ℝ × List (List ℝ)) (s1 s2 : St W), Reach demo c ∧ c.env ≠ [] ∧
    (mulCode 0 1 4).Sane ∧
    jacobian ((mulCode 0 1 4).vector c.env) 1 [5] c.st = .ok (z1, s1) ∧
    jacobian ((mulCode 0 1 4).vector c.env) 1 [5] s1 = .ok (z2, s2) := by
  obtain ⟨c, hr, hv, ha, hh, hl, ⟨v3, he⟩, g, val, adj, hf, hhas⟩ := demo_reach (W := W)
  have hok : (mulProg 0 1 4).Ok ([5] ++ [2, 3, 6]) := by
    simp [mulProg, Prog.Ok, Instr.Ok, Instr.sem, Bin.domVV]
  have hcost : (mulProg 0 1 4).cost ([5] ++ [2, 3, 6]) = 8 := by
    simp [mulProg, Prog.cost, Instr.cost]
  have hk : ((mulProg 0 1 4).sem ([5] ++ [2, 3, 6])).length = 1 := by
    simp [mulProg, Prog.sem, Instr.sem]
  have hy : [2, 3, 6] = c.env.map fun v => val (g.pos v) := by
    have := hf.inv.varVals hhas
    rw [hv] at this
    injection this with this
    injection this
  have hc := mulCode_jacobian (W := W) (i := 0) (j := 1) (n := 4) (env := c.env) (x := [5]) (by simp) (by simp)
    (by rw [he]; rfl)
  obtain ⟨y, df, s', e, k1, k2, k3, val', a, hf', hq⟩ := jacobian_total (p := mulProg 0 1 4) (x := [5]) (ys := [2, 3, 6])
    (hf.weak (Or.inr trivial) fun _ => trivial) (by rw [hl]; simp [maxNestedStack]) hhas hy hok
    (by unfold Room; rw [hh, hcost]; simp [tapeLimit]) ⟨by rw [hh]; omega, fun j => by
      rw [hh, hcost]
      have := Nat.one_le_two_pow (n := j)
      simp only [List.length_cons, List.length_nil]
      omega⟩
  obtain ⟨y2, df2, s2, e2, -⟩ := jacobian_total (p := mulProg 0 1 4) (x := [5]) (ys := [2, 3, 6])
    (hf'.weak (Or.inl (by simp)) fun h => by simp [mulProg, Prog.hasConst] at h) (by rw [k1, hl]; simp [maxNestedStack]) hhas (by
      rw [hy]
      exact List.map_congr_left fun v hv => (hq _ (hf.inv.has_lt (hhas v hv))).symm) hok
    (by unfold Room; rw [k2, hh, hcost]; simp [tapeLimit]) ⟨by rw [k2, hh]; omega, fun j => by
      rw [k2, hh, hcost]
      have := Nat.one_le_two_pow (n := j)
      simp only [List.length_cons, List.length_nil]
      omega⟩
  rw [hk] at e e2
  exact ⟨c, _, _, _, _, hr, by rw [he]; simp, ⟨trivial, trivial⟩, by rw [hc]; exact e, by rw [hc]; exact e2⟩

end examples

end Props
