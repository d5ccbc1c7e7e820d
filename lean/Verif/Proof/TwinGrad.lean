import Verif.Proof.TwinMat
import Verif.Proof.Region
import Verif.Proof.Ode

/-!
# Sweeps keep the two runs together; `gradient` and `jacobian`
-/

set_option linter.unusedSectionVars false

namespace Fz
open Arith Spec

variable {W1 W2 R : Type} [Arith R] [Rep W1 R] [LawfulRep W1 R] [Rep W2 R] [LawfulRep W2 R]
variable {B : Base} {a a' : Side W1 R} {b b' : Side W2 R}
variable {α β γ δ : Type}

/-- adjoints agree at what was created since the start -/
def Base.Agree (B : Base) (f f' : Nat → R) : Prop := ∀ d, f (B.h1 + d) = f' (B.h2 + d)

theorem Agree.upd {f f' : Nat → R} (hE : ∀ p q, B.E p q → p < B.h1 ∧ q < B.h2) (h : B.Agree f f') {p q : Nat}
    (hp : B.PR p q) {x y : R} (hxy : (∃ d, p = B.h1 + d ∧ q = B.h2 + d) → x = y) :
    B.Agree (Fz.upd f p x) (Fz.upd f' q y) := by
  intro k
  rcases hp with ⟨d, rfl, rfl⟩ | he
  · by_cases hk : k = d
    · subst hk; simp [hxy ⟨_, rfl, rfl⟩]
    · rw [upd_ne _ _ (by omega), upd_ne _ _ (by omega), h]
  · obtain ⟨h1, h2⟩ := hE _ _ he
    rw [upd_ne _ _ (by omega), upd_ne _ _ (by omega), h]

theorem addAll_agree (hE : ∀ p q, B.E p q → p < B.h1 ∧ q < B.h2) {ps qs : List Nat}
    (hp : List.Forall₂ B.PR ps qs) : ∀ {f f' : Nat → R} (ds : List R), B.Agree f f' →
    B.Agree (addAll f ps ds) (addAll f' qs ds) := by
  induction hp with
  | nil => intro f f' ds h; cases ds <;> exact h
  | @cons p q ps qs hp _ ih =>
    intro f f' ds h
    cases ds with
    | nil => exact h
    | cons d ds =>
      rw [addAll, addAll]
      refine ih ds (Agree.upd hE h hp ?_)
      rintro ⟨k, rfl, rfl⟩
      rw [h k]

theorem map_agree {val val' : Nat → R} (hv : ∀ p q, B.PR p q → val p = val' q) {ps qs : List Nat}
    (hp : List.Forall₂ B.PR ps qs) : ps.map val = qs.map val' := by
  induction hp with
  | nil => rfl
  | cons h _ ih => simp only [List.map_cons, ih, hv _ _ h]

/-- what a record passes on to what was created since the start is the same on both sides -/
theorem step_agree (hE : ∀ p q, B.E p q → p < B.h1 ∧ q < B.h2) {val val' : Nat → R}
    (hv : ∀ p q, B.PR p q → val p = val' q) {x y : Node R} (hr : NodeRel B x y) {f f' : Nat → R} (h : B.Agree f f') :
    B.Agree (addAll f x.args (x.cl val f)) (addAll f' y.args (y.cl val' f')) := by
  have hpos : B.PR x.pos y.pos := Or.inl hr.pos
  have hadj : f x.pos = f' y.pos := by
    obtain ⟨d, h1, h2⟩ := hr.pos
    rw [h1, h2, h d]
  have hval := hv _ _ hpos
  have hk := hr.kind
  obtain ⟨p, ops, dops, ch, kd⟩ := x
  obtain ⟨p', ops', dops', ch', kd'⟩ := y
  have hd := hr.dops
  have hl := hr.len
  simp only at hd hl hadj hval hk
  subst hd
  cases kd <;> cases kd' <;> simp only at hk
  · obtain ⟨h1, h2⟩ := hk
    rcases h2 with h2 | h2
    · subst h2
      have : ops' = [] := by simpa using hl.symm
      subst this
      simpa [Node.args, addAll_nil'] using h
    · subst h2
      have e : (⟨p, ops, dops, ch, .plain⟩ : Node R).cl val f = (⟨p', ops', dops, ch, .plain⟩ : Node R).cl val' f' := by
        simp only [Node.cl, Node.contrib, hadj, hval, map_agree hv h1]
      rw [e]
      exact addAll_agree hE h1 _ h
  · obtain ⟨h1, h2, rfl⟩ := hk
    rename_i r c r' c'
    have hrc : List.Forall₂ B.PR (r ++ c) (r' ++ c') := List.rel_append h1 h2
    have e : (⟨p, ops, dops, ch, .mmVV r c⟩ : Node R).cl val f = (⟨p', ops', dops, ch, .mmVV r' c'⟩ : Node R).cl val' f' := by
      simp only [Node.cl, Node.contrib, hadj, map_agree hv hrc, h1.length_eq, h2.length_eq]
    rw [e]
    exact addAll_agree hE hrc _ h
  · obtain ⟨h1, rfl, rfl⟩ := hk
    rename_i r d r'
    have e : (⟨p, ops, dops, ch, .mmVD r d⟩ : Node R).cl val f = (⟨p', ops', dops, ch, .mmVD r' d⟩ : Node R).cl val' f' := by
      simp only [Node.cl, Node.contrib, hadj, h1.length_eq]
    rw [e]
    exact addAll_agree hE h1 _ h
  · obtain ⟨h1, rfl, rfl⟩ := hk
    rename_i d c c'
    have e : (⟨p, ops, dops, ch, .mmDV d c⟩ : Node R).cl val f = (⟨p', ops', dops, ch, .mmDV d c'⟩ : Node R).cl val' f' := by
      simp only [Node.cl, Node.contrib, hadj, h1.length_eq]
    rw [e]
    exact addAll_agree hE h1 _ h

theorem sweep_agree (hE : ∀ p q, B.E p q → p < B.h1 ∧ q < B.h2) {val val' : Nat → R}
    (hv : ∀ p q, B.PR p q → val p = val' q) {l l' : List (Node R)} (hr : List.Forall₂ (NodeRel B) l l')
    {f f' : Nat → R} (h : B.Agree f f') : B.Agree (sweep val l f) (sweep val' l' f') := by
  induction hr with
  | nil => exact h
  | cons hx _ ih => exact step_agree hE hv hx ih

theorem forall₂_of_get {P : α → β → Prop} : ∀ {l : List α} {l' : List β}, l.length = l'.length →
    (∀ (k : Nat) x y, l[k]? = some x → l'[k]? = some y → P x y) → List.Forall₂ P l l'
  | [], [], _, _ => .nil
  | _ :: _, [], h, _ => by simp at h
  | [], _ :: _, h, _ => by simp at h
  | x :: l, y :: l', h, hp => .cons (hp 0 x y rfl rfl)
      (forall₂_of_get (by simpa using h) fun k x y hx hy => hp (k + 1) x y (by simpa using hx) (by simpa using hy))

theorem Twin.newNodes (t : Twin B a b) :
    List.Forall₂ (NodeRel B) (a.g.nodes.drop B.n1) (b.g.nodes.drop B.n2) := by
  obtain ⟨n, h1, h2⟩ := t.len
  refine forall₂_of_get (by simp [h1, h2]) fun k x y hx hy => ?_
  rw [List.getElem?_drop] at hx hy
  exact t.new k x y hx hy

theorem old_off {g : Graph R} {hd n h : Nat} (wf : g.WF hd)
    (old : ∀ (k : Nat) (nd : Node R), k < n → g.nodes[k]? = some nd → nd.pos < h) (val f : Nat → R) (d : Nat) :
    sweep val (g.nodes.take n) f (h + d) = f (h + d) := by
  refine sweep_off val _ _ _ fun x hx hp => ?_
  obtain ⟨k, hk⟩ := List.mem_iff_getElem?.mp hx
  have hkn : k < n := by
    by_contra hc
    rw [List.getElem?_take_eq_none (by omega)] at hk
    cases hk
  rw [List.getElem?_take_of_lt hkn] at hk
  have h1 := (wf.args x (List.mem_of_getElem? hk) _ hp).1
  have h2 := old k x hkn hk
  omega

/-- the adjoints of what was created since the start, after sweeps of both tapes -/
theorem Twin.sweepAll (t : Twin B a b) {f f' : Nat → R} (h : B.Agree f f') :
    B.Agree (sweep a.val a.g.nodes f) (sweep b.val b.g.nodes f') := by
  have hE : ∀ p q, B.E p q → p < B.h1 ∧ q < B.h2 := fun p q he => ⟨(t.outer p q he).1, (t.outer p q he).2.1⟩
  intro d
  rw [← List.take_append_drop B.n1 a.g.nodes, ← List.take_append_drop B.n2 b.g.nodes, sweep_append, sweep_append,
    old_off t.inv1.wf t.old1, old_off t.inv2.wf t.old2]
  exact sweep_agree hE (fun p q hp => t.pr_val hp) t.newNodes h d

theorem TopAt.mem {W : Type} {s : St W} {n : Nat} (h : TopAt s n) (m : Nat → W) : TopAt (s.withMem m) n := h

theorem tt_grad (t : Twin B a b) {v w : Var} (h : VarRel B a b v w) :
    TT B a b (v.grad : M W1 Unit) (w.grad : M W2 Unit) (fun _ _ _ _ => True) := by
  intro r1 t1 r2 t2 e1 e2
  obtain ⟨-, m1, rfl, i1⟩ := grad_run t.inv1 (fun nd hn => Or.inl (t.cok1 nd hn)) h.has1 e1
  obtain ⟨-, m2, rfl, i2⟩ := grad_run t.inv2 (fun nd hn => Or.inl (t.cok2 nd hn)) h.has2 e2
  have hE : ∀ p q, B.E p q → p < B.h1 ∧ q < B.h2 := fun p q he => ⟨(t.outer p q he).1, (t.outer p q he).2.1⟩
  refine ⟨⟨_, a.g, a.val, _⟩, ⟨_, b.g, b.val, _⟩, rfl, rfl, Since.refl a, Since.refl b,
    ⟨i1, i2, t.cok1, t.cok2, t.off, t.len, t.old1, t.old2, t.new, t.vals, ?_, t.outer, t.nest1, t.nest2⟩, trivial⟩
  exact t.sweepAll (Agree.upd hE t.adjs h.pr fun _ => rfl)

theorem TopAt.zero_inv {W : Type} [Rep W R] [LawfulRep W R] {s s' : St W} {g : Graph R} {val adj : Nat → R}
    {n : Nat} (hi : Inv s g val adj) (h : TopAt s n) (hn : n ≤ g.nodes.length)
    (e : (setZeroNestedAdj : M W Unit) s = .ok ((), s')) :
    ∃ m adj', s' = s.withMem m ∧ Inv s' g val adj' ∧ (∀ nd ∈ g.nodes.drop n, adj' nd.pos = zero) ∧
      ∀ p, (∀ nd ∈ g.nodes.drop n, nd.pos ≠ p) → adj' p = adj p := by
  have hvh := hi.vhead
  unfold setZeroNestedAdj at e
  rw [bind_ok (get_ok _)] at e
  have e2 : (rdNest s.nestVari s.level : M W Nat) s = .ok (n + 1, s) := by
    unfold rdNest; rw [if_pos ⟨h.1, h.2.1⟩, h.2.2]; rfl
  have hx : s.vhead - (n + 1) = g.nodes.length - n := by omega
  rw [bind_ok e2, hx] at e
  obtain ⟨m, adj', e3, i, hz, hk⟩ := Inv.zeroAdjLoop_ok n (g.nodes.length - n) hi (by omega)
  rw [e3] at e
  cases e
  have ht : (g.nodes.drop n).take (g.nodes.length - n) = g.nodes.drop n :=
    List.take_of_length_le (by simp)
  rw [ht] at hz hk
  exact ⟨m, adj', rfl, i, hz, hk⟩

theorem tt_zero (t : Twin B a b) (hn : B.nested) :
    TT B a b (setZeroNestedAdj : M W1 Unit) (setZeroNestedAdj : M W2 Unit) (fun _ _ _ _ => True) := by
  intro r1 t1 r2 t2 e1 e2
  obtain ⟨n, hn1, hn2⟩ := t.len
  obtain ⟨m1, f1, rfl, i1, z1, k1⟩ := (t.nest1 hn).zero_inv t.inv1 (by omega) e1
  obtain ⟨m2, f2, rfl, i2, z2, k2⟩ := (t.nest2 hn).zero_inv t.inv2 (by omega) e2
  refine ⟨⟨_, a.g, a.val, _⟩, ⟨_, b.g, b.val, _⟩, rfl, rfl, Since.refl a, Since.refl b,
    ⟨i1, i2, t.cok1, t.cok2, t.off, t.len, t.old1, t.old2, t.new, t.vals, ?_, t.outer, t.nest1, t.nest2⟩, trivial⟩
  have nn := t.newNodes
  intro d
  by_cases hd : ∃ nd ∈ a.g.nodes.drop B.n1, nd.pos = B.h1 + d
  · obtain ⟨x, hx, hp⟩ := hd
    have : ∃ y ∈ b.g.nodes.drop B.n2, y.pos = B.h2 + d := by
      obtain ⟨k, hk⟩ := List.mem_iff_getElem.mp hx
      obtain ⟨hk, rfl⟩ := hk
      have hr := nn.get hk (nn.length_eq ▸ hk)
      obtain ⟨d', h1, h2⟩ := hr.pos
      simp only [List.get_eq_getElem] at h1 h2
      exact ⟨_, List.getElem_mem _, by rw [h2]; omega⟩
    obtain ⟨y, hy, hq⟩ := this
    simp only
    rw [← hp, ← hq, z1 x hx, z2 y hy]
  · have hd' : ¬ ∃ y ∈ b.g.nodes.drop B.n2, y.pos = B.h2 + d := by
      rintro ⟨y, hy, hq⟩
      obtain ⟨k, hk⟩ := List.mem_iff_getElem.mp hy
      obtain ⟨hk, rfl⟩ := hk
      have hr := nn.get (nn.length_eq ▸ hk) hk
      obtain ⟨d', h1, h2⟩ := hr.pos
      simp only [List.get_eq_getElem] at h1 h2
      exact hd ⟨_, List.getElem_mem _, by rw [h1]; omega⟩
    simp only
    rw [k1 _ fun nd hm he => hd ⟨nd, hm, he⟩, k2 _ fun nd hm he => hd' ⟨nd, hm, he⟩]
    exact t.adjs d

theorem VLI.adjs (t : Twin B a b) {vs ws : List Var} (h : VLI B vs ws a b) :
    vs.map (fun v => a.adj (a.g.pos v)) = ws.map (fun v => b.adj (b.g.pos v)) := by
  unfold VLI at h
  induction h with
  | nil => rfl
  | cons h _ ih =>
    obtain ⟨d, h1, h2⟩ := h.2
    simp only [List.map_cons, ih, h1, h2, t.adjs d]

theorem TT.adjsOf (t : Twin B a b) {vs ws : List Var} {k1 : List R → M W1 γ} {k2 : List R → M W2 δ}
    {Q' : γ → δ → Side W1 R → Side W2 R → Prop} (h : VLI B vs ws a b) (hk : ∀ x, TT B a b (k1 x) (k2 x) Q') :
    TT B a b (adjs vs >>= k1) (adjs ws >>= k2) Q' := by
  have e2 := t.inv2.varAdjs h.vl.has2
  rw [← h.adjs t] at e2
  exact TT.read (t.inv1.varAdjs h.vl.has1) e2 (hk _)

theorem tt_newVarsI (xs : List R) : ∀ {a : Side W1 R} {b : Side W2 R}, Twin B a b →
    TT B a b (newVars xs : M W1 (List Var)) (newVars xs : M W2 (List Var)) (VLI B) := by
  unfold newVars
  induction xs with
  | nil => intro a b t; exact TT.pure t .nil
  | cons x xs ih =>
    intro a b t
    rw [List.mapM_cons, List.mapM_cons]
    refine TT.bind (tt_newVarI t x) fun v w a' b' l1 l2 t' hv => ?_
    refine TT.bind (ih t') fun vs ws a'' b'' l1' l2' t'' hvs => ?_
    exact TT.pure t'' (.cons (VRI.later hv l1' l2') hvs)

/-- results are equal -/
def SameRes : α → α → Side W1 R → Side W2 R → Prop := fun x y _ _ => x = y

/-- the part of `gradient` before `end_nested` -/
def gradBody {W : Type} [Rep W R] (f : List Var → M W Var) (x : List R) : M W (R × List R) := do
  let xv ← newVars x
  let fv ← f xv
  let y ← fv.val
  fv.grad
  let df ← adjs xv
  pure (y, df)

theorem tt_scalar (t : Twin B a b) (f : Code R) (hf : f.Sane) {vs ws e1 e2 : List Var} (hv : VarsRel B a b vs ws)
    (he : VarsRel B a b e1 e2) :
    TT B a b (f.scalar e1 vs : M W1 Var) (f.scalar e2 ws : M W2 Var) (VR B) := by
  unfold Code.scalar
  refine TT.bind (tt_code f hf t (VarsRel.append t hv he)) fun o o' a' b' l1 l2 t' ho => ?_
  cases ho with
  | nil => exact TT.fail _
  | cons h _ => exact TT.pure t' h

theorem tt_gradBody (t : Twin B a b) (f : Code R) (hf : f.Sane) {e1 e2 : List Var} (he : VarsRel B a b e1 e2)
    (x : List R) :
    TT B a b (gradBody (f.scalar e1) x : M W1 _) (gradBody (f.scalar e2) x : M W2 _) SameRes := by
  unfold gradBody
  refine TT.bind (tt_newVarsI x t) fun vs ws a1 b1 l1 m1 t1 hv => ?_
  refine TT.bind (tt_scalar t1 f hf hv.vl (he.later l1 m1)) fun v w a2 b2 l2 m2 t2 hf' => ?_
  refine TT.val t2 hf' fun y => ?_
  refine TT.bind (tt_grad t2 hf') fun _ _ a3 b3 l3 m3 t3 _ => ?_
  exact TT.adjsOf t3 ((hv.later l2 m2).later l3 m3) fun d => TT.pure t3 rfl

theorem tt_jacLoop {vs ws : List Var} (hn : B.nested) {fv fw : List Var} : ∀ {a : Side W1 R} {b : Side W2 R},
    Twin B a b → VLI B vs ws a b → VarsRel B a b fv fw →
    TT B a b (jacLoop vs fv : M W1 (List (List R))) (jacLoop ws fw : M W2 (List (List R))) SameRes := by
  induction fv generalizing fw with
  | nil =>
    intro a b t _ h
    cases h
    exact TT.pure t rfl
  | cons v fv ih =>
    intro a b t hv h
    cases h with
    | cons h hs =>
      unfold jacLoop
      refine TT.bind (tt_zero t hn) fun _ _ a1 b1 l1 m1 t1 _ => ?_
      refine TT.bind (tt_grad t1 (h.later l1 m1)) fun _ _ a2 b2 l2 m2 t2 _ => ?_
      refine TT.adjsOf t2 ((hv.later l1 m1).later l2 m2) fun row => ?_
      refine TT.bind (ih t2 ((hv.later l1 m1).later l2 m2) ((VarsRel.later hs l1 m1).later l2 m2))
        fun rows rows' a3 b3 l3 m3 t3 hr => ?_
      cases hr
      exact TT.pure t3 rfl

/-- the part of `jacobian` before `end_nested` -/
def jacBody {W : Type} [Rep W R] (f : List Var → Nat → M W (List Var)) (n : Nat) (x : List R) :
    M W (List R × List (List R)) := do
  let xv ← newVars x
  let fv ← f xv n
  let fv ← confN n fv
  let ys ← vals fv
  let rows ← jacLoop xv fv
  pure (ys, rows)

theorem tt_confN (t : Twin B a b) (n : Nat) {vs ws : List Var} (h : VarsRel B a b vs ws) :
    TT B a b (confN n vs : M W1 (List Var)) (confN n ws : M W2 (List Var)) (VL B) := by
  unfold confN
  rw [← h.length]
  split
  · exact TT.pure t h
  · exact TT.fail _

theorem tt_jacBody (t : Twin B a b) (hn : B.nested) (f : Code R) (hf : f.Sane) {e1 e2 : List Var}
    (he : VarsRel B a b e1 e2) (n : Nat) (x : List R) :
    TT B a b (jacBody (f.vector e1) n x : M W1 _) (jacBody (f.vector e2) n x : M W2 _) SameRes := by
  unfold jacBody
  refine TT.bind (tt_newVarsI x t) fun vs ws a1 b1 l1 m1 t1 hv => ?_
  refine TT.bind (tt_code f hf t1 (VarsRel.append t1 hv.vl (he.later l1 m1))) fun o o' a2 b2 l2 m2 t2 ho => ?_
  refine TT.bind (tt_confN t2 n ho) fun o o' a3 b3 l3 m3 t3 ho => ?_
  refine TT.valsOf t3 ho fun ys => ?_
  refine TT.bind (tt_jacLoop hn t3 ((hv.later l2 m2).later l3 m3) ho) fun r r' a4 b4 l4 m4 t4 hr => ?_
  cases hr
  exact TT.pure t4 rfl

theorem gradient_body {W : Type} [Rep W R] [LawfulRep W R] {s s' : St W} {f : List Var → M W Var} {x : List R} {r : R × List R}
    (e : gradient f x s = .ok (r, s')) :
    ∃ s1 s2, (beginNested : M W Unit) s = .ok ((), s1) ∧ gradBody f x s1 = .ok (r, s2) := by
  unfold gradient at e
  obtain ⟨_, s1, e1, e⟩ := bind_inv e
  refine ⟨s1, ?_⟩
  unfold gradBody
  obtain ⟨xv, s2, e2, e⟩ := bind_inv e
  obtain ⟨fv, s3, e3, e⟩ := bind_inv e
  obtain ⟨y, s4, e4, e⟩ := bind_inv e
  obtain ⟨_, s5, e5, e⟩ := bind_inv e
  obtain ⟨df, s6, e6, e⟩ := bind_inv e
  obtain ⟨_, s7, e7, e⟩ := bind_inv e
  cases e
  refine ⟨s6, e1, ?_⟩
  rw [bind_ok e2, bind_ok e3, bind_ok e4, bind_ok e5, bind_ok e6]
  rfl

theorem jacobian_body {W : Type} [Rep W R] [LawfulRep W R] {s s' : St W} {f : List Var → Nat → M W (List Var)} {n : Nat} {x : List R}
    {r : List R × List (List R)} (e : jacobian f n x s = .ok (r, s')) :
    ∃ s1 s2, (beginNested : M W Unit) s = .ok ((), s1) ∧ jacBody f n x s1 = .ok (r, s2) := by
  unfold jacobian at e
  obtain ⟨_, s1, e1, e⟩ := bind_inv e
  refine ⟨s1, ?_⟩
  unfold jacBody
  obtain ⟨xv, s2, e2, e⟩ := bind_inv e
  obtain ⟨fv, s3, e3, e⟩ := bind_inv e
  obtain ⟨fw, s4, e4, e⟩ := bind_inv e
  obtain ⟨ys, s5, e5, e⟩ := bind_inv e
  obtain ⟨rows, s6, e6, e⟩ := bind_inv e
  obtain ⟨_, s7, e7, e⟩ := bind_inv e
  cases e
  refine ⟨s6, e1, ?_⟩
  rw [bind_ok e2, bind_ok e3, bind_ok e4, bind_ok e5, bind_ok e6]
  rfl

/-! ## Starting -/

/-- nothing from position `h` on -/
def cutAt (h : Nat) (f : Nat → R) (p : Nat) : R := if p < h then f p else zero

theorem cutAt_lt {h p : Nat} (f : Nat → R) (hp : p < h) : cutAt h f p = f p := if_pos hp

theorem cutAt_ge (h d : Nat) (f : Nat → R) : cutAt h f (h + d) = zero := if_neg (by omega)

theorem Inv.below {W : Type} [Rep W R] [LawfulRep W R] {s : St W} {g : Graph R} {val adj : Nat → R}
    (h : Inv s g val adj) : Inv s g (cutAt s.tape.head val) (cutAt s.tape.head adj) := by
  refine { h with recs := fun nd hn => ?_ }
  have := (h.wf.below nd hn).2
  have hlt : nd.pos < s.tape.head := by simp only [Node.len] at this; omega
  rw [cutAt_lt _ hlt, cutAt_lt _ hlt]
  exact h.recs nd hn

/-- two clients start together -/
theorem twin_start {c1 : Client W1} {c2 : Client W2} {g1 g2 : Graph R} {v1 a1 v2 a2 : Nat → R}
    (G1 : Good c1 g1 v1 a1) (G2 : Good c2 g2 v2 a2) {e1 e2 : List Var} (m1 : ∀ v ∈ e1, g1.Has v)
    (m2 : ∀ v ∈ e2, g2.Has v) {ys : List R} (r1 : vals e1 c1.st = .ok (ys, c1.st))
    (r2 : vals e2 c2.st = .ok (ys, c2.st)) (nested : Prop)
    (n1 : nested → TopAt c1.st g1.nodes.length) (n2 : nested → TopAt c2.st g2.nodes.length) :
    ∃ (B : Base) (a : Side W1 R) (b : Side W2 R), B.nested = nested ∧ B.n2 = g2.nodes.length ∧ a.s = c1.st ∧ b.s = c2.st ∧ Twin B a b ∧
      VarsRel B a b e1 e2 := by
  rw [G1.inv.varVals m1] at r1
  rw [G2.inv.varVals m2] at r2
  have q1 : e1.map (fun v => v1 (g1.pos v)) = ys := by injection r1 with h; injection h
  have q2 : e2.map (fun v => v2 (g2.pos v)) = ys := by injection r2 with h; injection h
  have hl : e1.length = e2.length := by
    have := congrArg List.length (q1.trans q2.symm); simpa using this
  have lt1 : ∀ v, g1.Has v → g1.pos v < c1.st.tape.head := by
    intro v hv
    obtain ⟨nd, hn, hp⟩ := hv.mem_pos
    have := (G1.inv.wf.below nd hn).2
    simp only [Node.len] at this
    omega
  have lt2 : ∀ v, g2.Has v → g2.pos v < c2.st.tape.head := by
    intro v hv
    obtain ⟨nd, hn, hp⟩ := hv.mem_pos
    have := (G2.inv.wf.below nd hn).2
    simp only [Node.len] at this
    omega
  refine ⟨⟨c1.st.tape.head, c2.st.tape.head, g1.nodes.length, g2.nodes.length,
      fun p q => ∃ (k : Nat) (v w : Var), e1[k]? = some v ∧ e2[k]? = some w ∧ p = g1.pos v ∧ q = g2.pos w, nested⟩,
    ⟨c1.st, g1, cutAt c1.st.tape.head v1, cutAt c1.st.tape.head a1⟩,
    ⟨c2.st, g2, cutAt c2.st.tape.head v2, cutAt c2.st.tape.head a2⟩, rfl, rfl, rfl, rfl,
    ⟨G1.inv.below, G2.inv.below, G1.cok, G2.cok, ⟨0, rfl, rfl⟩, ⟨0, rfl, rfl⟩, ?_, ?_, ?_, ?_, ?_, ?_, n1, n2⟩, ?_⟩
  · intro k nd _ e
    have := (G1.inv.wf.below nd (List.mem_of_getElem? e)).2
    simp only [Node.len] at this
    simp only; omega
  · intro k nd _ e
    have := (G2.inv.wf.below nd (List.mem_of_getElem? e)).2
    simp only [Node.len] at this
    simp only; omega
  · intro k x y e
    rw [List.getElem?_eq_none (by simp)] at e
    cases e
  · intro d; simp only [cutAt_ge]
  · intro d; simp only [cutAt_ge]
  · rintro p q ⟨k, v, w, h1, h2, rfl, rfl⟩
    have l1 := lt1 v (m1 v (List.mem_of_getElem? h1))
    have l2 := lt2 w (m2 w (List.mem_of_getElem? h2))
    refine ⟨l1, l2, ?_⟩
    simp only [cutAt_lt _ l1, cutAt_lt _ l2]
    have := congrArg (fun l => l[k]?) (q1.trans q2.symm)
    simpa [List.getElem?_map, h1, h2] using this
  · exact forall₂_of_get hl fun k v w h1 h2 => ⟨m1 v (List.mem_of_getElem? h1), m2 w (List.mem_of_getElem? h2),
      Or.inr ⟨k, v, w, h1, h2, rfl, rfl⟩⟩

end Fz
