import Verif.Proof.Replay
import Verif.Spec.Solution

/-!
# The sensitivity right-hand side is a region; two evaluations of it agree
-/

set_option linter.unusedSectionVars false

namespace Fz
open Arith Spec

variable {W R : Type} [Arith R] [Rep W R] [LawfulRep W R]

/-- calls the right-hand side of the sensitivity equations consists of, but for the region itself -/
def IsNested (k : Call R) : Prop := IsMake k ∨ (∃ i, k = .gradNested i) ∨ k = .zeroNested

theorem inside_nested {l : List (Call R)} (h : ∀ k ∈ l, IsNested k) (d : Nat) : inside d l = some d := by
  induction l with
  | nil => rfl
  | cons k l ih =>
    have hl := ih fun x hx => h x (by simp [hx])
    rcases h k (by simp) with ⟨m, rfl, -⟩ | ⟨i, rfl⟩ | rfl
    · exact hl
    · exact hl
    · exact hl

theorem IsNested.sane {k : Call R} (h : IsNested k) : k.Sane := by
  rcases h with ⟨m, rfl, hs⟩ | ⟨i, rfl⟩ | rfl
  · exact hs
  · trivial
  · trivial

theorem IsNested.noAssign {k : Call R} (h : IsNested k) : k.assigns = false := by
  rcases h with ⟨m, rfl, hs⟩ | ⟨i, rfl⟩ | rfl <;> rfl

theorem IsNested.local {k : Call R} (h : IsNested k) : k.global = false := by
  rcases h with ⟨m, rfl, hs⟩ | ⟨i, rfl⟩ | rfl <;> rfl

/-- the part of `set_sens_rhs` between `begin_nested` and `end_nested`, for a right-hand side given as a `Code` -/
def sensBody (f : Code R) (e : List Var) (y q : List R) (yS : List (List R)) (ns m : Nat) (par : Bool)
    (out : Nat → Nat → R) : M W (Nat → Nat → R) := do
  let yv ← newVars y
  let fv ← newVars (List.replicate y.length zero)
  let pv ← newVars q
  let fv ← f.run (yv ++ fv ++ pv ++ e)
  let fv ← confN y.length fv
  sensRows yv pv yS ns m par 0 fv out

theorem newVars_nil : (newVars [] : M W (List Var)) = pure [] := rfl

theorem setSens_body_y {F : R → Code R} {e : List Var} {f : R → List R → List R} {n : Nat} {t : R} {y : List R}
    {S : List (List R)} {out out' : Nat → Nat → R} {s s' : St W}
    (h : setSensRhs (newCvsRhsYvar true n f (Code.odeY F e)) t y S out s = .ok (out', s')) :
    ∃ s1 s2, (beginNested : M W Unit) s = .ok ((), s1) ∧ sensBody (F t) e y [] S n 0 false out s1 = .ok (out', s2) ∧
      (endNested : M W Unit) s2 = .ok ((), s') := by
  unfold setSensRhs newCvsRhsYvar at h
  simp only [Bool.true_and] at h
  obtain ⟨_, s1, e1, h⟩ := bind_inv h
  obtain ⟨yv, s2, e2, h⟩ := bind_inv h
  obtain ⟨fv, s3, e3, h⟩ := bind_inv h
  obtain ⟨⟨pv, fw⟩, s4, e4, h⟩ := bind_inv h
  obtain ⟨fx, s5, e5, h⟩ := bind_inv h
  obtain ⟨o, s6, e6, h⟩ := bind_inv h
  obtain ⟨_, s7, e7, h⟩ := bind_inv h
  cases h
  by_cases hn : n = y.length
  · subst hn
    simp only [beq_self_eq_true, Bool.not_true, Bool.false_eq_true, if_false, deref, pure_bind] at e4 e6
    obtain ⟨fw', s8, e8, e9⟩ := bind_inv e4
    cases e9
    refine ⟨s1, s6, e1, ?_, e7⟩
    unfold sensBody
    rw [bind_ok e2, bind_ok e3, newVars_nil, pure_bind, List.append_nil]
    unfold Code.odeY at e8
    rw [bind_ok e8, bind_ok e5]
    rw [Nat.sub_self] at e6
    exact e6
  · have : (n == y.length) = false := by simpa using hn
    simp only [this, Bool.not_false, if_true, deref] at e4
    cases e4

theorem setSens_body_p {F : R → Code R} {e : List Var} {f : R → List R → List R} {n : Nat} {q : List R} {t : R}
    {y : List R} {S : List (List R)} {out out' : Nat → Nat → R} {s s' : St W}
    (h : setSensRhs (newCvsRhsPvar false n q f (Code.odeP F e)) t y S out s = .ok (out', s')) :
    ∃ s1 s2, (beginNested : M W Unit) s = .ok ((), s1) ∧ sensBody (F t) e y q S n n true out s1 = .ok (out', s2) ∧
      (endNested : M W Unit) s2 = .ok ((), s') := by
  unfold setSensRhs newCvsRhsPvar at h
  simp only [Bool.false_and, Bool.not_false, if_true, Bool.false_eq_true, if_false, deref, pure_bind] at h
  obtain ⟨_, s1, e1, h⟩ := bind_inv h
  obtain ⟨yv, s2, e2, h⟩ := bind_inv h
  obtain ⟨fv, s3, e3, h⟩ := bind_inv h
  obtain ⟨⟨pv, fw⟩, s4, e4, h⟩ := bind_inv h
  obtain ⟨fx, s5, e5, h⟩ := bind_inv h
  obtain ⟨o, s6, e6, h⟩ := bind_inv h
  obtain ⟨_, s7, e7, h⟩ := bind_inv h
  cases h
  obtain ⟨pw, s8, e8, k8⟩ := bind_inv e4
  obtain ⟨pw', s9, e9, k9⟩ := bind_inv k8
  obtain ⟨-, rfl, rfl⟩ := confN_inv e9
  obtain ⟨fw', s10, e10, k10⟩ := bind_inv k9
  cases k10
  refine ⟨s1, s6, e1, ?_, e7⟩
  unfold sensBody
  rw [bind_ok e2, bind_ok e3, bind_ok e8]
  unfold Code.odeP at e10
  rw [bind_ok e10, bind_ok e5]
  exact e6

/-! ## A region of calls -/

theorem exec_gradNested {c : Client W} {i : Nat} (hi : i < c.env.length) {s' : St W}
    (e : ((nth c.env i).gradNested : M W Unit) c.st = .ok ((), s')) :
    (Call.gradNested i : Call R).exec c = .ok ⟨s', c.env, c.marks⟩ := by
  unfold Call.exec
  rw [if_pos (by simpa [Call.args] using hi)]
  simp only [Call.step, Client.keep, e]

theorem sensDots_st {yv : List Var} {S : List (List R)} {i : Nat} : ∀ {js : List Nat} {out out' : Nat → Nat → R}
    {s s' : St W}, sensDots yv S i js out s = .ok (out', s') → s' = s := by
  intro js
  induction js with
  | nil => intro out out' s s' e; cases e; rfl
  | cons j js ih =>
    intro out out' s s' e
    unfold sensDots at e
    obtain ⟨v, s1, e1, k1⟩ := bind_inv e
    obtain ⟨a, s2, e2, k2⟩ := bind_inv k1
    obtain ⟨w, s3, e3, k3⟩ := bind_inv k2
    rw [ih k3, (confN_inv e3).2.2, adjs_st e2, (deref_inv e1).2]

theorem sensPars_st {pv : List Var} {off i : Nat} : ∀ {js : List Nat} {out out' : Nat → Nat → R}
    {s s' : St W}, sensPars pv off i js out s = .ok (out', s') → s' = s := by
  intro js
  induction js with
  | nil => intro out out' s s' e; cases e; rfl
  | cons j js ih =>
    intro out out' s s' e
    unfold sensPars at e
    obtain ⟨v, s1, e1, k1⟩ := bind_inv e
    obtain ⟨a, s2, e2, k2⟩ := bind_inv k1
    rw [ih k2, Var.adj_st e2, (deref_inv e1).2]

theorem sensRows_replay {yv pv : List Var} {S : List (List R)} {ns m : Nat} {par : Bool} : ∀ {js : List Nat}
    {i : Nat} {c : Client W} {out out' : Nat → Nat → R} {s' : St W}, (∀ j ∈ js, j < c.env.length) →
    sensRows yv pv S ns m par i (js.map (nth c.env)) out c.st = .ok (out', s') →
    ∃ l : List (Call R), (∀ k ∈ l, IsNested k) ∧ Spec.run l c = .ok ⟨s', c.env, c.marks⟩ := by
  intro js
  induction js with
  | nil =>
    intro i c out out' s' _ e
    cases e
    exact ⟨[], by simp, rfl⟩
  | cons j js ih =>
    intro i c out out' s' hj e
    simp only [List.map_cons] at e
    unfold sensRows at e
    obtain ⟨_, s1, e1, k1⟩ := bind_inv e
    obtain ⟨o1, s2, e2, k2⟩ := bind_inv k1
    obtain ⟨o2, s3, e3, k3⟩ := bind_inv k2
    obtain ⟨_, s4, e4, k4⟩ := bind_inv k3
    have q2 := sensDots_st e2
    subst q2
    have q3 : s3 = s2 := by
      split at e3
      · exact sensPars_st e3
      · cases e3; rfl
    subst q3
    obtain ⟨l, h1, h2⟩ := ih (c := ⟨s4, c.env, c.marks⟩) (fun j hj' => hj j (by simp [hj'])) k4
    refine ⟨.gradNested j :: .zeroNested :: l, ?_, ?_⟩
    · intro k hk
      rcases List.mem_cons.mp hk with rfl | hk
      · exact Or.inr (Or.inl ⟨j, rfl⟩)
      · rcases List.mem_cons.mp hk with rfl | hk
        · exact Or.inr (Or.inr rfl)
        · exact h1 k hk
    · rw [run_cons, exec_gradNested (hj j (by simp)) e1]
      show Spec.run (_ :: l) _ = _
      rw [run_cons, exec_zero (c := ⟨s3, c.env, c.marks⟩) e4]
      exact h2

theorem body_replay {c : Client W} {is : List Nat} (hi : ∀ i ∈ is, i < c.env.length) {f : Code R} (hf : f.Sane)
    {y q : List R} {S : List (List R)} {ns m : Nat} {par : Bool} {out out' : Nat → Nat → R} {s1 s2 s' : St W}
    (e1 : (beginNested : M W Unit) c.st = .ok ((), s1))
    (e : sensBody f (is.map (nth c.env)) y q S ns m par out s1 = .ok (out', s2))
    (e2 : (endNested : M W Unit) s2 = .ok ((), s')) :
    ∃ l : List (Call R), (∀ k ∈ l, IsNested k) ∧
      Spec.run (Call.begin :: l ++ [Call.done]) c = .ok ⟨s', c.env, c.marks⟩ := by
  unfold sensBody at e
  obtain ⟨yv, s3, e3, k3⟩ := bind_inv e
  obtain ⟨fv, s4, e4, k4⟩ := bind_inv k3
  obtain ⟨pv, s5, e5, k5⟩ := bind_inv k4
  obtain ⟨ov, s6, e6, k6⟩ := bind_inv k5
  obtain ⟨ov', s7, e7, k7⟩ := bind_inv k6
  obtain ⟨-, rfl, rfl⟩ := confN_inv e7
  have e8 : yv ++ fv ++ pv ++ is.map (nth c.env) =
      ((List.range (yv ++ fv ++ pv).length).map (c.env.length + ·) ++ is).map (nth (c.env ++ (yv ++ fv ++ pv))) := by
    rw [List.map_append, names_append, map_nth_append hi]
  rw [e8] at e6
  obtain ⟨l, new, h1, h2, js, h3, h4⟩ := code_replay f
    (c := ⟨s5, c.env ++ (yv ++ fv ++ pv), c.env.length :: c.marks⟩) hf (by
    intro i hm
    simp only [List.length_append]
    rcases List.mem_append.mp hm with hm | hm
    · obtain ⟨j, hj, rfl⟩ := List.mem_map.mp hm
      have := List.mem_range.mp hj
      simp only [List.length_append] at this
      omega
    · have := hi i hm; omega) e6
  subst h4
  obtain ⟨l', h5, h6⟩ := sensRows_replay
    (c := ⟨_, c.env ++ (yv ++ fv ++ pv) ++ new, c.env.length :: c.marks⟩) h3 k7
  refine ⟨.make (.newVals y) :: .make (.newVals (List.replicate y.length zero)) :: .make (.newVals q) :: (l ++ l'),
    ?_, ?_⟩
  · intro k hk
    simp only [List.mem_cons, List.mem_append] at hk
    rcases hk with rfl | rfl | rfl | hk | hk
    · exact Or.inl ⟨_, rfl, trivial⟩
    · exact Or.inl ⟨_, rfl, trivial⟩
    · exact Or.inl ⟨_, rfl, trivial⟩
    · exact Or.inl (h1 k hk)
    · exact h5 k hk
  · simp only [List.cons_append]
    rw [run_cons, exec_begin e1]
    show Spec.run _ _ = _
    rw [run_cons, exec_new (c := ⟨s1, c.env, c.env.length :: c.marks⟩) e3]
    show Spec.run _ _ = _
    rw [run_cons, exec_new (c := ⟨s3, c.env ++ yv, c.env.length :: c.marks⟩) e4]
    show Spec.run _ _ = _
    rw [run_cons, exec_new (c := ⟨s4, c.env ++ yv ++ fv, c.env.length :: c.marks⟩) e5]
    show Spec.run _ _ = _
    rw [List.append_assoc l, run_append]
    simp only [← List.append_assoc] at h2 h6 ⊢
    rw [h2]
    show Spec.run _ _ = _
    rw [run_append, h6]
    show Spec.run _ _ = _
    rw [run_cons, exec_done (env := c.env) (new := yv ++ fv ++ pv ++ new) (by simp [List.append_assoc]) rfl e2]
    rfl

/-- the sensitivity right-hand side, if it completes, is a region of calls -/
def Replays (e : List Var) (ode : CvsRhs W R) : Prop :=
  ∀ {c : Client W} {is : List Nat} {t : R} {y : List R} {S : List (List R)} {out out' : Nat → Nat → R} {s' : St W},
    (∀ i ∈ is, i < c.env.length) → e = is.map (nth c.env) → setSensRhs ode t y S out c.st = .ok (out', s') →
    ∃ l : List (Call R), (∀ k ∈ l, IsNested k) ∧
      Spec.run (Call.begin :: l ++ [Call.done]) c = .ok ⟨s', c.env, c.marks⟩

theorem replays_y {F : R → Code R} (hF : ∀ t, (F t).Sane) (e : List Var) (f : R → List R → List R) (n : Nat) :
    Replays e (newCvsRhsYvar true n f (Code.odeY F e) : CvsRhs W R) := by
  intro c is t y S out out' s' hi he h
  obtain ⟨s1, s2, e1, e2, e3⟩ := setSens_body_y h
  subst he
  exact body_replay hi (hF t) e1 e2 e3

theorem replays_p {F : R → Code R} (hF : ∀ t, (F t).Sane) (e : List Var) (f : R → List R → List R) (n : Nat)
    (q : List R) : Replays e (newCvsRhsPvar false n q f (Code.odeP F e) : CvsRhs W R) := by
  intro c is t y S out out' s' hi he h
  obtain ⟨s1, s2, e1, e2, e3⟩ := setSens_body_p h
  subst he
  exact body_replay hi (hF t) e1 e2 e3

/-! ## Two evaluations -/

section twin
variable {W1 W2 : Type} [Rep W1 R] [LawfulRep W1 R] [Rep W2 R] [LawfulRep W2 R]
variable {B : Base} {a a' : Side W1 R} {b b' : Side W2 R}

theorem tt_gradNested (t : Twin B a b) (hn : B.nested) {v w : Var} (h : VarRel B a b v w) :
    TT B a b (v.gradNested : M W1 Unit) (w.gradNested : M W2 Unit) (fun _ _ _ _ => True) := by
  intro r1 t1 r2 t2 e1 e2
  obtain ⟨n, hn1, hn2⟩ := t.len
  obtain ⟨x1, x2, x3⟩ := t.nest1 hn
  obtain ⟨y1, y2, y3⟩ := t.nest2 hn
  obtain ⟨-, m1, rfl, i1⟩ := gradNested_run t.inv1 (fun nd hn => Or.inl (t.cok1 nd hn)) h.has1 x1 x2 x3 (by omega) e1
  obtain ⟨-, m2, rfl, i2⟩ := gradNested_run t.inv2 (fun nd hn => Or.inl (t.cok2 nd hn)) h.has2 y1 y2 y3 (by omega) e2
  have hE : ∀ p q, B.E p q → p < B.h1 ∧ q < B.h2 := fun p q he => ⟨(t.outer p q he).1, (t.outer p q he).2.1⟩
  refine ⟨⟨_, a.g, a.val, _⟩, ⟨_, b.g, b.val, _⟩, rfl, rfl, Since.refl a, Since.refl b,
    ⟨i1, i2, t.cok1, t.cok2, t.off, t.len, t.old1, t.old2, t.new, t.vals, ?_, t.outer, t.nest1, t.nest2⟩, trivial⟩
  exact sweep_agree hE (fun p q hp => t.pr_val hp) t.newNodes (Agree.upd hE t.adjs h.pr fun _ => rfl)

theorem tt_sensDots (t : Twin B a b) {vs ws : List Var} (hv : VLI B vs ws a b) (S : List (List R)) (i : Nat) :
    ∀ (js : List Nat) (out : Nat → Nat → R),
    TT B a b (sensDots vs S i js out : M W1 _) (sensDots ws S i js out : M W2 _) SameRes := by
  intro js
  induction js with
  | nil => intro out; exact TT.pure t rfl
  | cons j js ih =>
    intro out
    unfold sensDots
    cases S[j]? with
    | none => exact TT.fail _
    | some v =>
      simp only [deref, pure_bind]
      refine TT.adjsOf t hv fun x => ?_
      unfold confN
      split
      · simp only [pure_bind]
        exact ih _
      · exact TT.fail _

theorem tt_sensPars (t : Twin B a b) {vs ws : List Var} (hv : VLI B vs ws a b) (off i : Nat) :
    ∀ (js : List Nat) (out : Nat → Nat → R),
    TT B a b (sensPars vs off i js out : M W1 _) (sensPars ws off i js out : M W2 _) SameRes := by
  intro js
  induction js with
  | nil => intro out; exact TT.pure t rfl
  | cons j js ih =>
    intro out
    unfold sensPars
    cases h1 : vs[j]? with
    | none => exact TT.fail _
    | some v =>
      cases h2 : ws[j]? with
      | none =>
        intro r1 t1 r2 t2 e1 e2
        cases e2
      | some w =>
        simp only [deref, pure_bind]
        obtain ⟨k1, k2⟩ := List.getElem?_eq_some_iff.mp h1
        obtain ⟨k3, k4⟩ := List.getElem?_eq_some_iff.mp h2
        have hr : VRI B v w a b := by
          have := List.Forall₂.get hv k1 k3
          simpa [k2, k4] using this
        obtain ⟨d, d1, d2⟩ := hr.2
        have hadj : a.adj (a.g.pos v) = b.adj (b.g.pos w) := by rw [d1, d2, t.adjs d]
        have q2 := t.inv2.varAdj hr.1.has2
        rw [← hadj] at q2
        exact TT.read (t.inv1.varAdj hr.1.has1) q2 (ih _)

theorem tt_sensRows {vs ws ps qs : List Var} (hn : B.nested) (S : List (List R)) (ns m : Nat) (par : Bool)
    {fv fw : List Var} : ∀ {i : Nat} {out : Nat → Nat → R} {a : Side W1 R} {b : Side W2 R},
    Twin B a b → VLI B vs ws a b → VLI B ps qs a b → VarsRel B a b fv fw →
    TT B a b (sensRows vs ps S ns m par i fv out : M W1 _) (sensRows ws qs S ns m par i fw out : M W2 _) SameRes := by
  induction fv generalizing fw with
  | nil =>
    intro i out a b t _ _ h
    cases h
    exact TT.pure t rfl
  | cons v fv ih =>
    intro i out a b t hv hp h
    cases h with
    | cons h hs =>
      unfold sensRows
      refine TT.bind (tt_gradNested t hn h) fun _ _ a1 b1 l1 m1 t1 _ => ?_
      refine TT.bind (tt_sensDots t1 (hv.later l1 m1) S i _ _) fun o o' a2 b2 l2 m2 t2 ho => ?_
      cases ho
      have : TT B a2 b2 (if par then sensPars ps (ns - m) i (List.range m) o else pure o : M W1 _)
          (if par then sensPars qs (ns - m) i (List.range m) o else pure o : M W2 _) SameRes := by
        cases par
        · exact TT.pure t2 rfl
        · exact tt_sensPars t2 ((hp.later l1 m1).later l2 m2) _ _ _ _
      refine TT.bind this fun o o' a3 b3 l3 m3 t3 ho => ?_
      cases ho
      refine TT.bind (tt_zero t3 hn) fun _ _ a4 b4 l4 m4 t4 _ => ?_
      exact ih t4 ((((hv.later l1 m1).later l2 m2).later l3 m3).later l4 m4)
        ((((hp.later l1 m1).later l2 m2).later l3 m3).later l4 m4)
        ((((VarsRel.later hs l1 m1).later l2 m2).later l3 m3).later l4 m4)

theorem tt_sensBody (t : Twin B a b) (hn : B.nested) (f : Code R) (hf : f.Sane) {e1 e2 : List Var}
    (he : VarsRel B a b e1 e2) (y q : List R) (S : List (List R)) (ns m : Nat) (par : Bool) (out : Nat → Nat → R) :
    TT B a b (sensBody f e1 y q S ns m par out : M W1 _) (sensBody f e2 y q S ns m par out : M W2 _) SameRes := by
  unfold sensBody
  refine TT.bind (tt_newVarsI y t) fun vs ws a1 b1 l1 m1 t1 hv => ?_
  refine TT.bind (tt_newVarsI _ t1) fun us us' a2 b2 l2 m2 t2 hu => ?_
  refine TT.bind (tt_newVarsI q t2) fun ps qs a3 b3 l3 m3 t3 hp => ?_
  have hv3 := (hv.later l2 m2).later l3 m3
  have hin : VarsRel B a3 b3 (vs ++ us ++ ps ++ e1) (ws ++ us' ++ qs ++ e2) :=
    VarsRel.append t3 (VarsRel.append t3 (VarsRel.append t3 hv3.vl (hu.later l3 m3).vl) hp.vl)
      (((he.later l1 m1).later l2 m2).later l3 m3)
  refine TT.bind (tt_code f hf t3 hin) fun o o' a4 b4 l4 m4 t4 ho => ?_
  refine TT.bind (tt_confN t4 _ ho) fun o o' a5 b5 l5 m5 t5 ho => ?_
  exact tt_sensRows hn S ns m par t5 ((hv3.later l4 m4).later l5 m5) ((hp.later l4 m4).later l5 m5) ho

end twin

end Fz
