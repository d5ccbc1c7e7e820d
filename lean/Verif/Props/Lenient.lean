import Verif.Proof.PlanRun
import Verif.Props.Proper

/-!
# C59: chain procedures left behind, without checks of array shapes

Variables that take the place of variables of a closed region keep their chain procedures (C33).  With a compiler that
checks array shapes the next sweep stops.  Without such checks it does no harm: the procedure computes something from
whatever lies in memory, but a record without operands has no place to put it.  `Model/Lenient.lean` is the library
built that way; the contents of the memory are arbitrary.  The chain procedures of matrix products are excepted: they
compute addresses.  So matrix products have to stay out of nested regions.
-/

set_option linter.unusedSectionVars false

namespace Fz
variable {W R : Type} [Arith R] [Rep W R]
open Arith Spec

theorem refines_chainLoop (J : Junk W R) (lo : Nat) : ∀ n, Refines (chainLoopL J lo n) (chainLoop lo n)
  | 0 => .rfl
  | n + 1 => .bind .rfl fun v => .bind (refines_runChain J v) fun _ => refines_chainLoop J lo n

theorem refines_grad (J : Junk W R) (v : Var) : Refines (v.gradL J) v.grad :=
  .bind .rfl fun _ => .bind .rfl fun _ => .bind .rfl fun _ => refines_chainLoop _ _ _

theorem refines_gradNested (J : Junk W R) (v : Var) : Refines (v.gradNestedL J) v.gradNested :=
  .bind .rfl fun _ => .bind .rfl fun _ => .bind .rfl fun _ => .bind .rfl fun _ => refines_chainLoop _ _ _

theorem refines_gradient (J : Junk W R) (f : List Var → M W Var) (x : List R) :
    Refines (gradientL J f x) (gradient f x) :=
  .bind .rfl fun _ => .bind .rfl fun _ => .bind .rfl fun _ => .bind .rfl fun _ => .bind (refines_grad _ _) fun _ => .rfl

theorem refines_jacLoop (J : Junk W R) (xv : List Var) : ∀ l, Refines (jacLoopL J xv l) (jacLoop xv l)
  | [] => .rfl
  | _ :: l => .bind .rfl fun _ => .bind (refines_grad _ _) fun _ => .bind .rfl fun _ =>
      .bind (refines_jacLoop J xv l) fun _ => .rfl

theorem refines_jacobian (J : Junk W R) (f : List Var → Nat → M W (List Var)) (n : Nat) (x : List R) :
    Refines (jacobianL J f n x) (jacobian f n x) :=
  .bind .rfl fun _ => .bind .rfl fun _ => .bind .rfl fun _ => .bind .rfl fun _ => .bind .rfl fun _ =>
    .bind (refines_jacLoop _ _ _) fun _ => .rfl

theorem refines_ask (J : Junk W R) (e : List Var) : ∀ q : Ask R, Refines (q.callL J e : M W (Answer R)) (q.call e)
  | .gradient _ _ => .bind (refines_gradient _ _ _) fun _ => .rfl
  | .jacobian _ _ _ => .bind (refines_jacobian _ _ _ _) fun _ => .rfl

end Fz

namespace Props
open Fz Spec
variable {W R : Type} [Arith R] [Rep W R]

/-- **C59**: where the program with checks does not fail, the program without does the same, whatever is in memory.
So all other properties carry over. -/
theorem C59_agree (J : Junk W R) {c c' : Client W} {k : Call R} (e : k.exec c = .ok c') : k.execL J c = .ok c' := by
  unfold Call.exec at e
  unfold Call.execL
  split at e
  · rename_i ha
    rw [if_pos ha]
    have side : ∀ {m' m : M W Unit}, Refines m' m → c.keep m = .ok c' → c.keep m' = .ok c' := by
      intro m' m hr e
      unfold Client.keep at e ⊢
      cases hm : m c.st with
      | error x => rw [hm] at e; cases e
      | ok p =>
        rw [hm] at e
        rw [hr _ _ _ hm]
        exact e
    cases k with
    | grad i => exact side (refines_grad J _) e
    | gradNested i => exact side (refines_gradNested J _) e
    | _ => exact e
  · cases e

/-- **C59**: the same for `gradient` and `jacobian`. -/
theorem C59_agree_ask (J : Junk W R) {e : List Var} {s s' : St W} {q : Ask R} {r : Answer R}
    (h : (q.call e : M W (Answer R)) s = .ok (r, s')) : (q.callL J e : M W (Answer R)) s = .ok (r, s') :=
  refines_ask J e q _ _ _ h

variable [LawfulRep W R] {c : Client W}

/-- **C59**: after every history of correct calls, in which plain variables may have been created after closed regions,
every correct call completes, with a result that does not depend on what is in memory. -/
theorem C59_call (hc : Commutes R) (h : OrderlyL R c) {k : Call R} (hk : k.ProperL c) :
    ∃ c', ∀ J : Junk W R, k.execL J c = .ok c' := by
  obtain ⟨d, g, val, adj, S⟩ := orderlyL_shadow hc h
  obtain ⟨c', e, -⟩ := S.exec hk
  exact ⟨c', e⟩

/-- **C59**: a correct creating call adds the variables with the numbers of plain reals. -/
theorem C59_make (hc : Commutes R) (h : OrderlyL R c) {m : Make R} (hk : (Call.make m).ProperL c) (hp : m.Plain)
    {ys : List R} (hy : (vals c.env : M W (List R)) c.st = .ok (ys, c.st)) :
    ∃ c', (∀ J : Junk W R, (Call.make m).execL J c = .ok c') ∧ OrderlyL R c' ∧
      (vals c'.env : M W (List R)) c'.st = .ok (ys ++ m.plain ys, c'.st) ∧
      c'.st.tape.head = c.st.tape.head + m.words ys ∧ c'.marks = c.marks := by
  obtain ⟨d, g, val, adj, S⟩ := orderlyL_shadow hc h
  obtain ⟨r, s', t', g', val', adj', e, e', ev, hr, hh, S'⟩ := S.make hk
  have hx : ∀ J : Junk W R, (Call.make m).execL J c = .ok ⟨s', c.env ++ r, c.marks⟩ := by
    intro J
    unfold Call.execL
    rw [if_pos hk.1.1]
    simp only [Call.step, e]
  have hyd : (vals d.env : M W (List R)) d.st = .ok (ys, d.st) := by rw [S.env]; exact S.vals (fun _ h => h) hy
  have hv := ValL.ofRead S.sound.good.inv S.sound.good.has hyd
  have hkd := S.proper hk.1
  obtain ⟨g2, val2, adj2, ev2, hv2⟩ := make_gives hc S.sound.good.inv hv m hkd.1 hkd.2.1 hp r t' e'
  have hl : ValL (ys ++ m.plain ys) (d.env ++ r) g2 val2 := List.rel_append (ev2.valL S.sound.good.inv hv) hv2
  obtain ⟨s2, e2, -⟩ := blind_vals _ _ _ _ _ S'.alike (hl.read ev2.inv)
  refine ⟨_, hx, .call (fun _ _ _ _ => Arith.zero) _ h hk (hx _), ?_, ?_, rfl⟩
  · have := vals_st e2
    subst this
    rw [S.env] at e2
    exact e2
  · have h1 : s'.tape = t'.tape := S'.alike.tape
    show s'.tape.head = _
    rw [h1, hh ys hyd, S.alike.tape]

/-- **C59**: then a correct call of `gradient` or `jacobian` completes and returns the numbers of the book, whatever is
in memory. -/
theorem C59_ask (hc : Commutes R) (h : OrderlyL R c) {is : List Nat} {ys : List R} {q : Ask R} (hq : q.ProperL c is ys) :
    ∃ r s', (∀ J : Junk W R, (q.callL J (is.map (nth c.env)) : M W (Answer R)) c.st = .ok (r, s')) ∧ q.book ys = some r := by
  obtain ⟨d, g, val, adj, S⟩ := orderlyL_shadow hc h
  obtain ⟨r, s', e, hb, -⟩ := S.ask hc hq
  exact ⟨r, s', e, hb⟩

/-- **C59**: then any number of correct calls of `gradient` and `jacobian` in a row, each with its own function and its
own number of inputs, complete and return the numbers of the book, whatever is in memory. -/
theorem C59_asks (hc : Commutes R) {is : List Nat} {ys : List R} : ∀ {l : List (Ask R)} {c : Client W}, OrderlyL R c →
    (∀ q ∈ l, q.ProperL c is ys) →
    ∃ rs s', (∀ J : Junk W R, (l.mapM fun q => (q.callL J (is.map (nth c.env)) : M W (Answer R))) c.st = .ok (rs, s')) ∧
      rs.map some = l.map fun q => q.book ys := by
  intro l
  induction l with
  | nil => intro c _ _; exact ⟨[], c.st, fun _ => rfl, rfl⟩
  | cons q l ih =>
    intro c h hq
    obtain ⟨d, g, val, adj, S⟩ := orderlyL_shadow hc h
    have hq0 := hq q (by simp)
    obtain ⟨r, s1, e1, hb, hh, hv, -⟩ := S.ask hc hq0
    obtain ⟨rs, s2, e2, hr⟩ := ih (c := ⟨s1, c.env, c.marks⟩) (.ask (fun _ _ _ _ => Arith.zero) q is ys r h hq0 (e1 _))
      (fun p hp => by
        obtain ⟨h1, h2, h3, h4, h5⟩ := hq p (by simp [hp])
        exact ⟨h1, h2, hv, by rw [hh.head]; exact h4, h5⟩)
    refine ⟨r :: rs, s2, fun J => ?_, by simp [hb, hr]⟩
    rw [List.mapM_cons, bind_ok (e1 J)]
    have := e2 J
    simp only at this
    rw [bind_ok this]
    rfl

/-! The hypotheses are met: two variables and their product, then three calls with more and more inputs, which
take the place of the products of the calls before. -/

theorem orderlyL_three {W : Type} [Rep W ℝ] [LawfulRep W ℝ] : ∃ c : Client W, OrderlyL ℝ c ∧
    (vals c.env : M W (List ℝ)) c.st = .ok ([2, 3, 6], c.st) ∧ c.st.tape.head = 21 ∧ c.marks = [] ∧ c.env.length = 3 := by
  have e0 : (vals (Client.init : Client W).env : M W (List ℝ)) (Client.init : Client W).st = .ok ([], Client.init.st) := rfl
  obtain ⟨c1, -, o1, v1, h1, m1⟩ := C59_make (m := .new 2) commutes_real (OrderlyL.start (W := W))
    ⟨⟨by simp [Call.args, Make.args], trivial, trivial, [], e0, rfl, by
      simp [Client.init, St.init, Tape.init, Make.words, tapeLimit]⟩, by simp [Call.product, Make.product]⟩ trivial e0
  have l1 : c1.st.tape.head = 7 := h1
  obtain ⟨c2, -, o2, v2, h2, m2⟩ := C59_make (m := .new 3) commutes_real o1
    ⟨⟨by simp [Call.args, Make.args], trivial, trivial, _, v1, rfl, by simp [l1, Make.words, tapeLimit]⟩,
      by simp [Call.product, Make.product]⟩ trivial v1
  have l2 : c2.st.tape.head = 13 := by rw [h2, l1]; rfl
  have n2 : c2.env.length = 2 := by
    obtain ⟨d, g, val, adj, S⟩ := orderlyL_shadow commutes_real o2
    have := S.vals (fun _ h => h) v2
    simpa [Make.plain] using (ValL.ofRead S.sound.good.inv (by rw [← S.env]; exact S.sound.good.has) this).length_eq.symm
  obtain ⟨c3, -, o3, v3, h3, m3⟩ := C59_make (m := .bin .mul 0 1) commutes_real o2
    ⟨⟨by simp [Call.args, Make.args, n2], trivial, trivial, _, v2, trivial, by simp [l2, Make.words, tapeLimit]⟩,
      by simp [Call.product, Make.product]⟩ trivial v2
  have v3' : (vals c3.env : M W (List ℝ)) c3.st = .ok ([2, 3, 6], c3.st) := by
    rw [v3]
    norm_num [Make.plain, Bin.plain, num, Arith.mul]
  refine ⟨c3, o3, v3', by rw [h3, l2]; rfl, by rw [m3, m2, m1]; rfl, ?_⟩
  obtain ⟨d, g, val, adj, S⟩ := orderlyL_shadow commutes_real o3
  have := S.vals (fun _ h => h) v3'
  simpa using (ValL.ofRead S.sound.good.inv (by rw [← S.env]; exact S.sound.good.has) this).length_eq.symm

example {W : Type} [Rep W ℝ] [LawfulRep W ℝ] : ∃ (c : Client W) (rs : List (Answer ℝ)) (s' : St W), OrderlyL ℝ c ∧
    (∀ J : Junk W ℝ, ([Ask.gradient (mulCode 0 0 2) [5], .gradient (mulCode 0 2 4) [1, 2, 3], .gradient (mulCode 0 1 5) [4, 5, 6, 7]].mapM
      fun q => (q.callL J ([0].map (nth c.env)) : M W (Answer ℝ))) c.st = .ok (rs, s')) ∧ rs.length = 3 := by
  obtain ⟨c, o, v, hh, hm, hn⟩ := orderlyL_three (W := W)
  have v0 : (vals ([0].map (nth c.env)) : M W (List ℝ)) c.st = .ok ([2], c.st) := by
    obtain ⟨d, g, val, adj, S⟩ := orderlyL_shadow commutes_real o
    have hv := ValL.ofRead S.sound.good.inv (by rw [← S.env]; exact S.sound.good.has) (S.vals (fun _ h => h) v)
    have h1 := (hv.nths (is := [0]) (by simp [hn])).read S.sound.good.inv
    obtain ⟨s2, e2, -⟩ := blind_vals _ _ _ _ _ S.alike h1
    have := vals_st e2
    subst this
    rw [e2]
    simp [num]
  have full : ∀ n ≤ 100, ∀ j, n ≠ 12288 * 2 ^ j + 1 := fun n hn j => by
    have := Nat.one_le_two_pow (n := j)
    omega
  have suit : ∀ (a b : Nat) (x : List ℝ), a < x.length + 1 → b < x.length + 1 → x.length ≤ 4 →
      (Ask.gradient (mulCode a b (x.length + 1)) x).ProperL c [0] [2] := by
    intro a b x ha hb hx
    refine ⟨by simp [hm], by simp [hn], v0, ?_, rfl, trivial⟩
    rw [hh]
    refine ⟨⟨trivial, trivial⟩, ⟨trivial, trivial⟩, ⟨trivial, trivial⟩, ?_, ?_, ?_, ?_⟩
    · simp [mulCode, Code.Meets, Make.args, Make.Meets, Make.plain]
      omega
    · simp [mulCode, Code.plain]
    · simp [mulCode, Code.words, Make.words, tapeLimit]
      omega
    · simp only [mulCode, Code.words, Make.words]
      exact full _ (by omega)
  obtain ⟨rs, s', e, hr⟩ := C59_asks commutes_real o (is := [0]) (ys := [2])
    (l := [.gradient (mulCode 0 0 2) [5], .gradient (mulCode 0 2 4) [1, 2, 3], .gradient (mulCode 0 1 5) [4, 5, 6, 7]]) (by
      intro q hq
      simp only [List.mem_cons, List.not_mem_nil, or_false] at hq
      rcases hq with rfl | rfl | rfl
      · exact suit 0 0 [5] (by simp) (by simp) (by simp)
      · exact suit 0 2 [1, 2, 3] (by simp) (by simp) (by simp)
      · exact suit 0 1 [4, 5, 6, 7] (by simp) (by simp) (by simp))
  refine ⟨c, rs, s', o, e, ?_⟩
  simpa using congrArg List.length hr

end Props
