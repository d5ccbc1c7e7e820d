import Verif.Proof.History
import Verif.Proof.MatStep
import Verif.Proof.Ode
import Verif.Spec.Plain

/-!
# Values of new variables, for every interpretation of `real64`
-/

set_option linter.unusedSectionVars false

namespace Fz
variable {W R : Type} [Arith R] [Rep W R] [LawfulRep W R]
open Arith Spec
variable {s s' s'' : St W} {g g' g'' : Graph R} {val adj val' adj' val'' adj'' : Nat → R}

/-- any position -/
abbrev anyPos : Nat → Prop := fun _ => True

/-- `m` has the effect `Evo` whenever it completes, and then its result satisfies `Q` -/
def Gives {α : Type} (s : St W) (g : Graph R) (val adj : Nat → R) (m : M W α)
    (Q : α → Graph R → (Nat → R) → Prop) : Prop :=
  ∀ r s', m s = .ok (r, s') → ∃ g' val' adj', Evo anyPos s g val adj s' g' val' adj' ∧ Q r g' val'

/-- the variable is on the tape, with value `x` -/
structure ValR (x : R) (v : Var) (g : Graph R) (val : Nat → R) : Prop where
  has : g.Has v
  eq : val (g.pos v) = x

/-- the variables are on the tape, with values `xs` -/
abbrev ValL (xs : List R) (vs : List Var) (g : Graph R) (val : Nat → R) : Prop :=
  List.Forall₂ (fun x v => ValR x v g val) xs vs

theorem Graph.pos_below (h : Inv s g val adj) {v : Var} (hv : g.Has v) : g.pos v < s.tape.head := by
  obtain ⟨nd, h1, h2⟩ := hv.at
  have := (h.wf.below nd (List.mem_of_getElem? h1.2)).2
  simp only [Node.len] at this
  omega

theorem Evo.valR (e : Evo anyPos s g val adj s' g' val' adj') (h : Inv s g val adj) {x : R} {v : Var}
    (hv : ValR x v g val) : ValR x v g' val' :=
  ⟨e.hasV hv.has, by rw [e.pre.posErase hv.has, e.val _ (Graph.pos_below h hv.has)]; exact hv.eq⟩

theorem Evo.valL (e : Evo anyPos s g val adj s' g' val' adj') (h : Inv s g val adj) {xs : List R} {vs : List Var}
    (hv : ValL xs vs g val) : ValL xs vs g' val' := hv.imp fun _ _ => e.valR h

theorem ValL.has {xs : List R} {vs : List Var} (h : ValL xs vs g val) : ∀ v ∈ vs, g.Has v := by
  induction h with
  | nil => simp
  | cons a _ ih =>
    intro v hv
    rcases List.mem_cons.mp hv with rfl | hv
    · exact a.has
    · exact ih v hv

theorem ValL.eq {xs : List R} {vs : List Var} (h : ValL xs vs g val) : vs.map (fun v => val (g.pos v)) = xs := by
  induction h with
  | nil => rfl
  | cons a _ ih => rw [List.map_cons, ih, a.eq]

theorem ValL.of {vs : List Var} (h : ∀ v ∈ vs, g.Has v) : ValL (vs.map fun v => val (g.pos v)) vs g val := by
  induction vs with
  | nil => exact .nil
  | cons v vs ih => exact .cons ⟨h v (by simp), rfl⟩ (ih fun w hw => h w (by simp [hw]))

theorem ValR.hasF {x : R} {v : Var} (h : ValR x v g val) : g.HasF anyPos v := ⟨h.has, trivial⟩
theorem ValL.hasF {xs : List R} {vs : List Var} (h : ValL xs vs g val) : ∀ v ∈ vs, g.HasF anyPos v :=
  fun v hv => ⟨h.has v hv, trivial⟩

theorem ValR.read (h : Inv s g val adj) {x : R} {v : Var} (hv : ValR x v g val) :
    (v.val : M W R) s = .ok (x, s) := by rw [h.varVal hv.has, hv.eq]
theorem ValL.read (h : Inv s g val adj) {xs : List R} {vs : List Var} (hv : ValL xs vs g val) :
    (vals vs : M W (List R)) s = .ok (xs, s) := by rw [h.varVals hv.has, hv.eq]

section rules
variable {α β : Type} {Q : α → Graph R → (Nat → R) → Prop} {Q' : β → Graph R → (Nat → R) → Prop}

theorem Gives.pure (h : Inv s g val adj) {r : α} (hq : Q r g val) : Gives s g val adj (Pure.pure r : M W α) Q := by
  intro r' s' e
  cases e
  exact ⟨g, val, adj, Evo.refl h, hq⟩

theorem Gives.fail (e : Err) : Gives s g val adj (Fz.fail e : M W α) Q := by
  intro r' s' h
  cases h

theorem Gives.bind {m : M W α} {k : α → M W β} (hm : Gives s g val adj m Q)
    (hk : ∀ r s' g' val' adj', Evo anyPos s g val adj s' g' val' adj' → Q r g' val' →
      Gives s' g' val' adj' (k r) Q') :
    Gives s g val adj (m >>= k) Q' := by
  intro r s'' e
  obtain ⟨a, s', h1, h2⟩ := bind_inv e
  obtain ⟨g', val', adj', ev, hq⟩ := hm a s' h1
  obtain ⟨g'', val'', adj'', ev', hq'⟩ := hk a s' g' val' adj' ev hq r s'' h2
  exact ⟨g'', val'', adj'', ev.trans ev', hq'⟩

theorem Gives.read {m : M W α} {k : α → M W β} {a : α} (hm : m s = .ok (a, s))
    (hk : Gives s g val adj (k a) Q') : Gives s g val adj (m >>= k) Q' := by
  intro r s' e
  rw [bind_ok hm] at e
  exact hk r s' e

theorem Gives.ofSafe {m : M W α} {P : α → Graph R → Prop} (hm : Safe anyPos s g val adj m P) :
    Gives s g val adj m (fun r g' _ => P r g') := by
  intro r s' e
  exact hm (fun _ _ => trivial) r s' e

end rules

theorem gives_grown {m : M W Var} {nd : Node R} {v : R} (h : Inv s g val adj)
    (hp : nd.pos = s.tape.head) (hc : nd.ChainOK)
    (hok : s.tape.head + nd.len ≤ cap → ∃ s', m s = .ok (⟨s.vhead⟩, s') ∧ Inv.Grown s g val adj nd v s')
    (herr : cap < s.tape.head + nd.len → ∃ e, m s = .error e) :
    Gives s g val adj m (ValR v) := by
  intro r s' e
  by_cases hcap : s.tape.head + nd.len ≤ cap
  · obtain ⟨s1, e1, gr⟩ := hok hcap
    rw [e1] at e
    cases e
    refine ⟨_, _, _, Evo.ofGrown h gr hp hc (fun _ _ => trivial), ?_, ?_⟩
    · rw [h.vhead]
      exact g.has_last nd
    · rw [h.vhead, Graph.pos_last, upd_self]
  · obtain ⟨x, hx⟩ := herr (by omega)
    rw [hx] at e; cases e

theorem gives_newOp (h : Inv s g val adj) {vs : List Var} (hv : ∀ v ∈ vs, g.Has v) (x : R) {c : Chain}
    (hc : c.notMM) :
    Gives s g val adj (do let w ← newVarOp x vs; w.setChain c; pure w : M W Var) (ValR x) := by
  refine gives_grown (nd := ⟨s.tape.head, vs.map g.pos, [], c, .plain⟩) (v := x) h rfl (hc.ok _ _ _)
    (fun hcap => h.newOp hv x c (by simpa [Node.len] using hcap)) fun hcap => ?_
  refine bind_err' ?_
  unfold newVarOp newVariValOp
  rw [bind_ok (h.varIdxs hv)]
  exact bind_err' (newVariWith_err (Tape.pushValOp_err h.ok x _ (by simpa [Node.len] using hcap)))

theorem gives_newOpDop (h : Inv s g val adj) {vs : List Var} (hv : ∀ v ∈ vs, g.Has v) (x : R) (ds : List R)
    {c : Chain} (hc : c.notMM) :
    Gives s g val adj (do let w ← newVarOpDop x vs ds; w.setChain c; pure w : M W Var) (ValR x) := by
  refine gives_grown (nd := ⟨s.tape.head, vs.map g.pos, ds, c, .plain⟩) (v := x) h rfl (hc.ok _ _ _)
    (fun hcap => h.newOpDop hv x ds c (by simpa [Node.len] using hcap)) fun hcap => ?_
  refine bind_err' ?_
  unfold newVarOpDop newVariValOpDop
  rw [bind_ok (h.varIdxs hv)]
  exact bind_err' (newVariWith_err (Tape.pushValOpDop_err h.ok x _ _ (by simpa [Node.len] using hcap)))

theorem gives_newVar (h : Inv s g val adj) (x : R) : Gives s g val adj (newVar x : M W Var) (ValR x) := by
  refine gives_grown (nd := ⟨s.tape.head, [], [], (s.varis s.vhead).chain, .plain⟩) (v := x) h rfl
    (fun _ => rfl)
    (fun hcap => h.newVar_ok x (by simpa [Node.len] using hcap)) fun hcap => ?_
  unfold newVar newVariVal
  exact bind_err' (newVariWith_err (Tape.pushVal_err h.ok x (by simpa [Node.len] using hcap)))

theorem gives_newVar0 (h : Inv s g val adj) : Gives s g val adj (newVar0 (R := R) : M W Var) (ValR (zero : R)) :=
  gives_newVar h (zero : R)

theorem gives_mapM {α : Type} {f : α → M W Var} {k : α → R} (l : List α) :
    ∀ {s : St W} {g : Graph R} {val adj : Nat → R}, Inv s g val adj →
    (∀ a ∈ l, ∀ {s' : St W} {g' : Graph R} {val' adj' : Nat → R}, Evo anyPos s g val adj s' g' val' adj' →
      Gives s' g' val' adj' (f a) (ValR (k a))) →
    Gives s g val adj (l.mapM f) (ValL (l.map k)) := by
  induction l with
  | nil => intro s g val adj h _; exact Gives.pure h .nil
  | cons a l ih =>
    intro s g val adj h hf
    rw [List.mapM_cons]
    refine Gives.bind (hf a (by simp) (Evo.refl h)) fun r s1 g1 val1 adj1 ev hr => ?_
    refine Gives.bind (ih ev.inv fun b hb s' g' val' adj' ev' => hf b (by simp [hb]) (ev.trans ev'))
      fun rs s2 g2 val2 adj2 ev2 hrs => ?_
    exact Gives.pure ev2.inv (.cons (ev2.valR ev.inv hr) hrs)

theorem gives_newVars (h : Inv s g val adj) (xs : List R) :
    Gives s g val adj (newVars xs : M W (List Var)) (ValL xs) := by
  have := gives_mapM (f := fun d => (newVar d : M W Var)) (k := id) xs h fun a _ _ _ _ _ ev => gives_newVar ev.inv a
  rw [List.map_id] at this
  exact this

theorem gives_newVar1d : ∀ (n : Nat) {s : St W} {g : Graph R} {val adj : Nat → R}, Inv s g val adj →
    Gives s g val adj (newVar1d (R := R) n : M W (List Var)) (ValL (List.replicate n (zero : R)))
  | 0, _, _, _, _, h => Gives.pure h .nil
  | n + 1, s, g, val, adj, h => by
    unfold newVar1d
    refine Gives.bind (gives_newVar0 h) fun r s1 g1 val1 adj1 ev hr => ?_
    refine Gives.bind (gives_newVar1d n ev.inv) fun rs s2 g2 val2 adj2 ev2 hrs => ?_
    exact Gives.pure ev2.inv (.cons (ev2.valR ev.inv hr) hrs)

section ops
variable (h : Inv s g val adj) {v v1 v2 : Var} {x x1 x2 : R}
include h

theorem gives_unary (hv : ValR x v g val) (f : R → R) {c : Chain} (hc : c.notMM) :
    Gives s g val adj (unary f c v : M W Var) (ValR (f x)) := by
  unfold unary
  exact Gives.read (hv.read h) (gives_newOp h (by simpa using hv.has) _ hc)

theorem gives_binary (h1 : ValR x1 v1 g val) (h2 : ValR x2 v2 g val)
    (f : R → R → R) {c : Chain} (hc : c.notMM) : Gives s g val adj (binary f c v1 v2 : M W Var) (ValR (f x1 x2)) := by
  unfold binary
  exact Gives.read (h1.read h) (Gives.read (h2.read h) (gives_newOp h (by simp [h1.has, h2.has]) _ hc))

theorem gives_unaryData (hv : ValR x v g val) (f : R → R) (d : R) {c : Chain}
    (hc : c.notMM) : Gives s g val adj (unaryData f d c v : M W Var) (ValR (f x)) := by
  unfold unaryData
  exact Gives.read (hv.read h) (gives_newOpDop h (by simpa using hv.has) _ _ hc)

theorem gives_reduceV {vs : List Var} {xs : List R} (hv : ValL xs vs g val) (f : List R → R)
    {c : Chain} (hc : c.notMM) : Gives s g val adj (reduceV f c vs : M W Var) (ValR (f xs)) := by
  unfold reduceV
  exact Gives.read (hv.read h) (gives_newOp h hv.has _ hc)

theorem gives_neutral (hv : ValR x v g val) {c : Chain} (hc : c.isNeutral) :
    Gives s g val adj (do v.setChain c; pure v : M W Var) (ValR x) := by
  intro r s' e
  obtain ⟨nd, h1, h2⟩ := hv.has.at
  obtain ⟨s1, e1, i, hvh, ht, k⟩ := h.setChain_ok h1 c
  rw [bind_ok e1] at e
  cases e
  exact ⟨_, _, _, Evo.ofSetChain h1 hc trivial i ht k, hv.has.setChain _ _, by rw [Graph.pos_setChain]; exact hv.eq⟩

theorem ValR.nan (hv : ValR x v g val) : (isNanV (R := R) v : M W Bool) s = .ok (isNanD x, s) := by
  rw [isNanV_run h hv.hasF, hv.eq]
theorem ValR.rel (hv : ValR x v g val) (o : RelOp) (d : R) : (relVD o v d : M W Bool) s = .ok (o.cmp x d, s) := by
  rw [relVD_run h hv.hasF, hv.eq]

theorem gives_fn (hv : ValR x v g val) (f : Fn) (hf : f ≠ .invSquare) :
    Gives s g val adj (f.api v : M W Var) (ValR (f.plain x)) := by
  cases f
  case invSquare => exact absurd rfl hf
  case pos => exact Gives.pure h hv
  case neg => exact gives_unary h hv _ (by decide)
  case abs =>
    unfold Fn.api Fn.plain absV
    refine Gives.read (hv.read h) ?_
    dsimp only
    by_cases h1 : flt (zero : R) x = true
    · have h1' : fgt x (zero : R) = true := h1
      rw [if_pos h1', if_pos h1]; exact Gives.pure h hv
    have h1' : ¬ fgt x (zero : R) = true := h1
    rw [if_neg h1', if_neg h1]
    by_cases h2 : flt x (zero : R) = true
    · rw [if_pos h2, if_pos h2]; exact gives_unary h hv _ (by decide)
    rw [if_neg h2, if_neg h2]
    by_cases h3 : feq x (zero : R) = true
    · rw [if_pos h3, if_pos h3]; exact gives_newVar0 h
    rw [if_neg h3, if_neg h3]
    exact gives_newOp h (by simpa using hv.has) _ (by decide)
  case acosh =>
    unfold Fn.api Fn.plain acoshV
    refine Gives.read (hv.nan h) ?_
    by_cases h1 : feq x x = true
    · simp only [isNanD, fne, h1, Bool.not_true, Bool.false_eq_true, if_false, if_true]
      refine Gives.read (hv.rel h _ _) ?_
      split
      · exact Gives.fail _
      · exact gives_unary h hv _ (by decide)
    · simp only [isNanD, fne, h1, Bool.not_false, if_true]
      exact Gives.pure h hv
  case atanh =>
    unfold Fn.api Fn.plain atanhV
    refine Gives.read (hv.nan h) ?_
    by_cases h1 : feq x x = true
    · simp only [isNanD, fne, h1, Bool.not_true, Bool.false_eq_true, if_false, if_true]
      refine Gives.read (hv.rel h _ _) (Gives.read (hv.rel h _ _) ?_)
      split
      · exact Gives.fail _
      · exact gives_unary h hv _ (by decide)
    · simp only [isNanD, fne, h1, Bool.not_false, if_true]
      exact Gives.pure h hv
  all_goals exact gives_unary h hv _ (by decide)

theorem gives_binVV (h1 : ValR x1 v1 g val) (h2 : ValR x2 v2 g val) (f : Bin) :
    Gives s g val adj (f.callVV v1 v2 : M W Var) (ValR (f.plain x1 x2)) := by
  cases f <;> exact gives_binary h h1 h2 _ (by decide)

theorem gives_ite {m m' : M W Var} {y y' : R} {b : Bool} (h1 : b = false → Gives s g val adj m (ValR y'))
    (h2 : b = true → Gives s g val adj m' (ValR y)) :
    Gives s g val adj (if (!b) = true then m else m') (ValR (if b = true then y else y')) := by
  cases b
  · exact h1 rfl
  · exact h2 rfl

theorem gives_binVD (hv : ValR x v g val) (f : Bin) (d : R) (hs : f = .hypot → fne d (zero : R) = true)
    (hp : f = .pow → feq d half = true ∨ feq d one = true ∨ feq d two = true ∨ feq d (neg two) = false) :
    Gives s g val adj (f.callVD v d : M W Var) (ValR (f.plainVD x d)) := by
  cases f
  case add => exact gives_ite h (fun _ => gives_unary h hv _ (by decide)) fun _ => gives_neutral h hv (by simp [Chain.isNeutral])
  case sub => exact gives_ite h (fun _ => gives_unary h hv _ (by decide)) fun _ => gives_neutral h hv (by simp [Chain.isNeutral])
  case mul => exact gives_ite h (fun _ => gives_unaryData h hv _ _ (by decide)) fun _ => gives_neutral h hv (by simp [Chain.isNeutral])
  case div => exact gives_ite h (fun _ => gives_unaryData h hv _ _ (by decide)) fun _ => gives_neutral h hv (by simp [Chain.isNeutral])
  case pow =>
    have hp := hp rfl
    unfold Bin.callVD Bin.plainVD powVD
    by_cases c1 : feq d (half : R) = true
    · simp only [if_pos c1]; exact gives_unary h hv _ (by decide)
    by_cases c2 : feq d (one : R) = true
    · simp only [if_neg c1, if_pos c2]; exact Gives.pure h hv
    by_cases c3 : feq d (two : R) = true
    · simp only [if_neg c1, if_neg c2, if_pos c3]; exact gives_unary h hv (fun x => x *. x) (by decide)
    have c4 : ¬ feq d (neg two : R) = true := by
      rcases hp with hp | hp | hp | hp
      · exact absurd hp c1
      · exact absurd hp c2
      · exact absurd hp c3
      · simp [hp]
    simp only [if_neg c1, if_neg c2, if_neg c3, if_neg c4]
    by_cases c5 : feq d (neg one : R) = true
    · simp only [if_pos c5]; exact gives_unary h hv (fun x => one /. x) (by decide)
    by_cases c6 : feq d (neg half : R) = true
    · simp only [if_neg c5, if_pos c6]; exact gives_unary h hv (fun x => one /. sqrt x) (by decide)
    · simp only [if_neg c5, if_neg c6]; exact gives_unaryData h hv (fun x => pow x d) _ (by decide)
  case hypot =>
    unfold Bin.callVD Bin.plainVD hypotVD
    simp only [if_pos (hs rfl), bind_assoc]
    exact Gives.read (hv.read h) (gives_newOp h (by simpa using hv.has) _ (by decide))

theorem gives_binDV (hc : Commutes R) (hv : ValR x v g val) (f : Bin) (d : R)
    (hs : f = .hypot → fne d (zero : R) = true) :
    Gives s g val adj (f.callDV d v : M W Var) (ValR (f.plainDV d x)) := by
  cases f
  case add => exact gives_ite h (fun _ => gives_unary h hv _ (by decide)) fun _ => gives_neutral h hv (by simp [Chain.isNeutral])
  case sub => exact gives_unary h hv _ (by decide)
  case mul =>
    refine gives_ite h (fun _ => ?_) fun _ => gives_neutral h hv (by simp [Chain.isNeutral])
    rw [hc.mul]
    exact gives_unaryData h hv _ _ (by decide)
  case div => exact gives_unaryData h hv (fun x => d /. x) _ (by decide)
  case pow => exact gives_unaryData h hv (fun x => pow d x) _ (by decide)
  case hypot =>
    unfold Bin.callDV Bin.plainDV hypotDV
    simp only [if_pos (hs rfl), bind_assoc]
    rw [hc.hypot]
    exact Gives.read (hv.read h) (gives_newOp h (by simpa using hv.has) _ (by decide))

variable {a b : List Var} {xs ys : List R}

theorem gives_dotVV (ha : ValL xs a g val) (hb : ValL ys b g val) :
    Gives s g val adj (dotVV (R := R) a b : M W Var) (ValR (fdot xs ys)) := by
  unfold dotVV
  refine Gives.read (ha.read h) (Gives.read (hb.read h) ?_)
  split
  · exact gives_newOp h (by simpa [or_imp, forall_and] using ⟨ha.has, hb.has⟩) _ (by decide)
  · exact Gives.fail _

theorem gives_dotVD (ha : ValL xs a g val) (d : List R) :
    Gives s g val adj (dotVD a d : M W Var) (ValR (fdot xs d)) := by
  unfold dotVD
  refine Gives.read (ha.read h) ?_
  split
  · exact gives_newOpDop h ha.has _ _ (by decide)
  · exact Gives.fail _

theorem gives_dotDV (ha : ValL xs a g val) (d : List R) :
    Gives s g val adj (dotDV d a : M W Var) (ValR (fdot d xs)) := by
  unfold dotDV
  refine Gives.read (ha.read h) ?_
  split
  · exact gives_newOpDop h ha.has _ _ (by decide)
  · exact Gives.fail _

theorem gives_varWithPartials (ha : ∀ v ∈ a, g.Has v) (x : R) (ds : List R) :
    Gives s g val adj (varWithPartials x a ds : M W Var) (ValR x) := by
  unfold varWithPartials
  split
  · exact Gives.fail _
  · exact gives_newOpDop h ha _ _ (by decide)

theorem gives_userOp (ha : ∀ v ∈ a, g.Has v) (x : R) (r : URule) (ds : List R) :
    Gives s g val adj (userOp x r a ds : M W Var) (ValR x) := by
  unfold userOp
  cases ds with
  | nil => exact gives_newOp h ha _ (Chain.notMM_user r)
  | cons d ds => exact gives_newOpDop h ha _ _ (Chain.notMM_user r)

end ops

/-! ## matrix products -/

theorem gives_newOpId (h : Inv s g val adj) (x : R) {nd : Node R} (hc : Inv.CanPush g s.tape.head nd)
    (hd : nd.dops = []) (hok : nd.ChainOK) :
    Gives s g val adj (do let w ← newVarOpId x nd.ops; w.setChain nd.chain; pure w : M W Var) (ValR x) := by
  refine gives_grown (nd := nd) (v := x) h hc.pos hok (fun hcap => h.newOpId_ok x hc hd hcap) fun hcap => ?_
  refine bind_err' ?_
  unfold newVarOpId newVariValOp
  exact bind_err' (newVariWith_err (Tape.pushValOp_err h.ok x _ (by simpa [Node.len, hd] using hcap)))

theorem gives_matmulLoop (c : Chain) (la lb : Nat) (f : Nat → Nat → R) (P : Graph R → Prop)
    (kd : Graph R → Nat → Nat → Kind R)
    (hP : ∀ {s : St W} {g : Graph R} {val adj : Nat → R} {s' : St W} {g' : Graph R} {val' adj' : Nat → R},
      Evo anyPos s g val adj s' g' val' adj' → P g → P g')
    (ps : List (Nat × Nat))
    (hnode : ∀ {s : St W} {g : Graph R} {val adj : Nat → R}, Inv s g val adj → P g → ∀ p ∈ ps,
      Inv.CanPush g s.tape.head ⟨s.tape.head, [p.1 + 1, p.2 + 1, la, lb], [], c, kd g p.1 p.2⟩ ∧
      (⟨s.tape.head, [p.1 + 1, p.2 + 1, la, lb], [], c, kd g p.1 p.2⟩ : Node R).ChainOK) :
    ∀ {s : St W} {g : Graph R} {val adj : Nat → R}, Inv s g val adj → P g →
    Gives s g val adj (matmulLoop c la lb f ps : M W (List Var)) (ValL (ps.map fun p => f p.1 p.2)) := by
  induction ps with
  | nil => intro s g val adj h _; exact Gives.pure h .nil
  | cons p ps ih =>
    obtain ⟨i, j⟩ := p
    intro s g val adj h hp
    obtain ⟨c1, c2⟩ := hnode h hp (i, j) (by simp)
    have e : (matmulLoop c la lb f ((i, j) :: ps) : M W (List Var)) =
        ((do let w ← newVarOpId (f i j) [i + 1, j + 1, la, lb]; w.setChain c; pure w) >>= fun s => do
          let ss ← matmulLoop c la lb f ps
          pure (s :: ss)) := by
      simp only [matmulLoop, bind_assoc, pure_bind]
    rw [e]
    have st := gives_newOpId h (f i j) c1 rfl c2
    dsimp only at st
    refine Gives.bind st fun r s1 g1 val1 adj1 ev hr => ?_
    have ih' := @ih (fun {s g val adj} h hp q hq => hnode h hp q (List.mem_cons_of_mem _ hq))
    refine Gives.bind (ih' ev.inv (hP ev hp))
      fun rs s2 g2 val2 adj2 ev2 hrs => ?_
    exact Gives.pure ev2.inv (.cons (ev2.valR ev.inv hr) hrs)

/-- the entries are on the tape, with values `x` -/
def MatVal (x : Nat → Nat → R) (a : Mat Var) (g : Graph R) (val : Nat → R) : Prop :=
  ∀ i < a.nrow, ∀ j < a.ncol, ValR (x i j) (a.get i j) g val

theorem MatVal.hasF {x : Nat → Nat → R} {a : Mat Var} (h : MatVal x a g val) : MatHasF anyPos g a :=
  fun i hi j hj => (h i hi j hj).hasF

theorem MatVal.evo {x : Nat → Nat → R} {a : Mat Var} (h : MatVal x a g val)
    (e : Evo anyPos s g val adj s' g' val' adj') (hi : Inv s g val adj) : MatVal x a g' val' :=
  fun i hi' j hj => e.valR hi (h i hi' j hj)

theorem MatVal.read {x : Nat → Nat → R} {a : Mat Var} (h : Inv s g val adj) (ha : MatVal x a g val) :
    ∃ m : Mat R, (matVals a : M W (Mat R)) s = .ok (m, s) ∧ m.nrow = a.nrow ∧ m.ncol = a.ncol ∧
      ∀ i < a.nrow, ∀ j < a.ncol, m.get i j = x i j := by
  unfold matVals
  rw [bind_ok (h.varVals ha.hasF.has.flat)]
  refine ⟨_, rfl, rfl, rfl, fun i hi j hj => ?_⟩
  simp only
  rw [List.getD_eq_getElem?_getD, List.getElem?_map, flat_get a hi hj]
  exact (ha i hi j hj).eq

theorem matmulD_eq {a b : Mat R} {x y : Nat → Nat → R} {n i j : Nat} (hn : a.ncol = n) (hm : b.nrow = n)
    (ha : ∀ k < n, a.get i k = x i k) (hb : ∀ k < n, b.get k j = y k j) : matmulD a b i j = mulEntry n x y i j := by
  unfold matmulD mulEntry Mat.row Mat.col
  rw [hn, hm]
  congr 1
  · exact List.map_congr_left fun k hk => ha k (List.mem_range.mp hk)
  · exact List.map_congr_left fun k hk => hb k (List.mem_range.mp hk)

theorem gives_matmulVV (h : Inv s g val adj) {a b : Mat Var} {x y : Nat → Nat → R} (ha : MatVal x a g val)
    (hb : MatVal y b g val)
    (h1 : a.nrow ≤ int32Max) (h2 : a.ncol ≤ int32Max) (h3 : b.nrow ≤ int32Max) (h4 : b.ncol ≤ int32Max) :
    Gives s g val adj (matmulVV (R := R) a b : M W (List Var))
      (ValL ((matPairs a.nrow b.ncol).map fun p => mulEntry a.ncol x y p.1 p.2)) := by
  unfold matmulVV
  refine Gives.bind (Gives.ofSafe (safe_pushVarMat h ha.hasF h1 h2)) fun la s1 g1 val1 adj1 ev1 b1 => ?_
  have hb1 := hb.evo ev1 h
  refine Gives.bind (Gives.ofSafe (safe_pushVarMat ev1.inv hb1.hasF h3 h4)) fun lb s2 g2 val2 adj2 ev2 b2 => ?_
  obtain ⟨av, hav, a1, a2, a3⟩ := ((ha.evo ev1 h).evo ev2 ev1.inv).read ev2.inv
  obtain ⟨bv, hbv, b1', b2', b3'⟩ := (hb1.evo ev2 ev1.inv).read ev2.inv
  refine Gives.read hav (Gives.read hbv ?_)
  split
  · rename_i hn
    obtain ⟨ids, m1, m2⟩ := b1.evo ev2
    obtain ⟨ids', m1', m2'⟩ := b2
    have hval : (matPairs a.nrow b.ncol).map (fun p => mulEntry a.ncol x y p.1 p.2) =
        (matPairs a.nrow b.ncol).map fun p => matmulD av bv p.1 p.2 := by
      refine List.map_congr_left fun p hp => ?_
      have hpl := mem_matPairs hp
      exact (matmulD_eq a2 (b1'.trans hn.symm) (fun k hk => a3 _ hpl.1 k hk)
        fun k hk => b3' k (by omega) _ hpl.2).symm
    rw [hval]
    refine gives_matmulLoop _ la lb _ (fun g => (Block.vb la a.nrow a.ncol ids ∈ g.blocks ∧
        ∀ p ∈ ids, anyPos p ∧ ∃ nd ∈ g.nodes, nd.pos = p) ∧ (Block.vb lb b.nrow b.ncol ids' ∈ g.blocks ∧
        ∀ p ∈ ids', anyPos p ∧ ∃ nd ∈ g.nodes, nd.pos = p))
      (fun _ i j => .mmVV (cmRow ids a.nrow a.ncol i) (cmCol ids' b.nrow j)) ?_ _ ?_ ev2.inv
      ⟨⟨m1, m2⟩, m1', m2'⟩
    · rintro s g val adj s' g' val' adj' e ⟨⟨q1, q2⟩, q3, q4⟩
      exact ⟨⟨e.pre.blocks.subset q1, fun p hp => ⟨(q2 p hp).1, e.pre.memPos (q2 p hp).2⟩⟩,
        e.pre.blocks.subset q3, fun p hp => ⟨(q4 p hp).1, e.pre.memPos (q4 p hp).2⟩⟩
    · rintro s g val adj hi ⟨⟨q1, q2⟩, q3, q4⟩ p hp
      have hpl := mem_matPairs hp
      refine ⟨⟨rfl, ?_, ?_, ?_⟩, ⟨rfl, Or.inl rfl⟩⟩
      · intro q hq
        rcases List.mem_append.mp hq with hq | hq
        · exact (q2 q (mem_cmRow hq)).2
        · exact (q4 q (mem_cmCol hq)).2
      · have l1 : la ≤ int32Max := hi.block_small q1
        have l2 : lb ≤ int32Max := hi.block_small q3
        intro o ho
        simp only [List.mem_cons, List.not_mem_nil, or_false] at ho
        rcases ho with rfl | rfl | rfl | rfl <;> omega
      · rw [hn] at q1 ⊢
        exact ⟨p.1, p.2, la, a.nrow, b.nrow, ids, lb, b.ncol, ids', rfl, q1, q3, hpl.1, hpl.2, rfl, rfl⟩
  · exact Gives.fail _

theorem gives_matmulVD (h : Inv s g val adj) {a : Mat Var} {b : Mat R} {x : Nat → Nat → R} (ha : MatVal x a g val)
    (h1 : a.nrow ≤ int32Max) (h2 : a.ncol ≤ int32Max) (h3 : b.nrow ≤ int32Max) (h4 : b.ncol ≤ int32Max) :
    Gives s g val adj (matmulVD a b : M W (List Var))
      (ValL ((matPairs a.nrow b.ncol).map fun p => mulEntry a.ncol x b.get p.1 p.2)) := by
  unfold matmulVD
  refine Gives.bind (Gives.ofSafe (safe_pushVarMat h ha.hasF h1 h2)) fun la s1 g1 val1 adj1 ev1 b1 => ?_
  refine Gives.bind (Gives.ofSafe (safe_pushDataMat ev1.inv h3 h4)) fun lb s2 g2 val2 adj2 ev2 b2 => ?_
  obtain ⟨av, hav, a1, a2, a3⟩ := ((ha.evo ev1 h).evo ev2 ev1.inv).read ev2.inv
  refine Gives.read hav ?_
  split
  · rename_i hn
    obtain ⟨ids, m1, m2⟩ := b1.evo ev2
    obtain ⟨xs, m1'⟩ := b2
    have hval : (matPairs a.nrow b.ncol).map (fun p => mulEntry a.ncol x b.get p.1 p.2) =
        (matPairs a.nrow b.ncol).map fun p => matmulD av b p.1 p.2 := by
      refine List.map_congr_left fun p hp => ?_
      have hpl := mem_matPairs hp
      exact (matmulD_eq a2 hn.symm (fun k hk => a3 _ hpl.1 k hk) fun k hk => rfl).symm
    rw [hval]
    refine gives_matmulLoop _ la lb _ (fun g => (Block.vb la a.nrow a.ncol ids ∈ g.blocks ∧
        ∀ p ∈ ids, anyPos p ∧ ∃ nd ∈ g.nodes, nd.pos = p) ∧ Block.db lb b.nrow b.ncol xs ∈ g.blocks)
      (fun _ i j => .mmVD (cmRow ids a.nrow a.ncol i) (cmCol xs b.nrow j)) ?_ _ ?_ ev2.inv
      ⟨⟨m1, m2⟩, m1'⟩
    · rintro s g val adj s' g' val' adj' e ⟨⟨q1, q2⟩, q3⟩
      exact ⟨⟨e.pre.blocks.subset q1, fun p hp => ⟨(q2 p hp).1, e.pre.memPos (q2 p hp).2⟩⟩,
        e.pre.blocks.subset q3⟩
    · rintro s g val adj hi ⟨⟨q1, q2⟩, q3⟩ p hp
      have hpl := mem_matPairs hp
      refine ⟨⟨rfl, ?_, ?_, ?_⟩, ⟨rfl, Or.inl rfl⟩⟩
      · intro q hq
        exact (q2 q (mem_cmRow hq)).2
      · have l1 : la ≤ int32Max := hi.block_small q1
        have l2 : lb ≤ int32Max := hi.block_small q3
        intro o ho
        simp only [List.mem_cons, List.not_mem_nil, or_false] at ho
        rcases ho with rfl | rfl | rfl | rfl <;> omega
      · rw [hn] at q1 ⊢
        exact ⟨p.1, p.2, la, a.nrow, b.nrow, ids, lb, b.ncol, xs, rfl, q1, q3, hpl.1, hpl.2, rfl, rfl⟩
  · exact Gives.fail _

theorem gives_matmulDV (h : Inv s g val adj) {a : Mat R} {b : Mat Var} {y : Nat → Nat → R} (hb : MatVal y b g val)
    (h1 : a.nrow ≤ int32Max) (h2 : a.ncol ≤ int32Max) (h3 : b.nrow ≤ int32Max) (h4 : b.ncol ≤ int32Max) :
    Gives s g val adj (matmulDV a b : M W (List Var))
      (ValL ((matPairs a.nrow b.ncol).map fun p => mulEntry a.ncol a.get y p.1 p.2)) := by
  unfold matmulDV
  refine Gives.bind (Gives.ofSafe (safe_pushDataMat h h1 h2)) fun la s1 g1 val1 adj1 ev1 b1 => ?_
  have hb1 := hb.evo ev1 h
  refine Gives.bind (Gives.ofSafe (safe_pushVarMat ev1.inv hb1.hasF h3 h4)) fun lb s2 g2 val2 adj2 ev2 b2 => ?_
  obtain ⟨bv, hbv, b1', b2', b3'⟩ := (hb1.evo ev2 ev1.inv).read ev2.inv
  refine Gives.read hbv ?_
  split
  · rename_i hn
    obtain ⟨xs, m1⟩ := b1.evo ev2
    obtain ⟨ids', m1', m2'⟩ := b2
    have hval : (matPairs a.nrow b.ncol).map (fun p => mulEntry a.ncol a.get y p.1 p.2) =
        (matPairs a.nrow b.ncol).map fun p => matmulD a bv p.1 p.2 := by
      refine List.map_congr_left fun p hp => ?_
      have hpl := mem_matPairs hp
      exact (matmulD_eq rfl (b1'.trans hn.symm) (fun k hk => rfl)
        fun k hk => b3' k (by omega) _ hpl.2).symm
    rw [hval]
    refine gives_matmulLoop _ la lb _ (fun g => Block.db la a.nrow a.ncol xs ∈ g.blocks ∧
        (Block.vb lb b.nrow b.ncol ids' ∈ g.blocks ∧ ∀ p ∈ ids', anyPos p ∧ ∃ nd ∈ g.nodes, nd.pos = p))
      (fun _ i j => .mmDV (cmRow xs a.nrow a.ncol i) (cmCol ids' b.nrow j)) ?_ _ ?_ ev2.inv
      ⟨m1, m1', m2'⟩
    · rintro s g val adj s' g' val' adj' e ⟨q1, q3, q4⟩
      exact ⟨e.pre.blocks.subset q1, e.pre.blocks.subset q3, fun p hp => ⟨(q4 p hp).1, e.pre.memPos (q4 p hp).2⟩⟩
    · rintro s g val adj hi ⟨q1, q3, q4⟩ p hp
      have hpl := mem_matPairs hp
      refine ⟨⟨rfl, ?_, ?_, ?_⟩, ⟨rfl, Or.inl rfl⟩⟩
      · intro q hq
        exact (q4 q (mem_cmCol hq)).2
      · have l1 : la ≤ int32Max := hi.block_small q1
        have l2 : lb ≤ int32Max := hi.block_small q3
        intro o ho
        simp only [List.mem_cons, List.not_mem_nil, or_false] at ho
        rcases ho with rfl | rfl | rfl | rfl <;> omega
      · rw [hn] at q1 ⊢
        exact ⟨p.1, p.2, la, a.nrow, b.nrow, xs, lb, b.ncol, ids', rfl, q1, q3, hpl.1, hpl.2, rfl, rfl⟩
  · exact Gives.fail _

/-! ## all calls -/

theorem gives_single {m : M W Var} {x : R} (h : Gives s g val adj m (ValR x)) :
    Gives s g val adj (single m) (ValL [x]) :=
  Gives.bind h fun _ _ _ _ _ ev hr => Gives.pure ev.inv (.cons hr .nil)

theorem gives_elemental2 (f : Bin) : ∀ (as bs : List Var) {xs ys : List R} {s : St W} {g : Graph R} {val adj : Nat → R},
    Inv s g val adj → ValL xs as g val → ValL ys bs g val →
    Gives s g val adj (elemental2 (f.callVV : Var → Var → M W Var) as bs) (ValL (List.zipWith f.plain xs ys))
  | [], [], _, _, _, _, _, _, h, .nil, .nil => Gives.pure h .nil
  | [], _ :: _, _, _, _, _, _, _, _, _, _ => Gives.fail _
  | _ :: _, [], _, _, _, _, _, _, _, _, _ => Gives.fail _
  | a :: as, b :: bs, _, _, s, g, val, adj, h, .cons h1 ha, .cons h2 hb => by
    unfold elemental2
    refine Gives.bind (gives_binVV h h1 h2 f) fun r s1 g1 val1 adj1 ev hr => ?_
    refine Gives.bind (gives_elemental2 f as bs ev.inv (ev.valL h ha) (ev.valL h hb)) fun rs s2 g2 val2 adj2 ev2 hrs => ?_
    exact Gives.pure ev2.inv (.cons (ev2.valR ev.inv hr) hrs)

theorem ValL.entry {xs : List R} {env : List Var} (h : ValL xs env g val) {i : Nat} (hi : i < env.length) :
    ValR (num xs i) (nth env i) g val := by
  unfold num nth
  induction h generalizing i with
  | nil => simp at hi
  | cons a _ ih =>
    cases i with
    | zero => exact a
    | succ i => exact ih (by simpa using hi)

theorem ValL.nths {xs : List R} {env : List Var} (h : ValL xs env g val) {is : List Nat}
    (hi : ∀ i ∈ is, i < env.length) : ValL (is.map (num xs)) (is.map (nth env)) g val := by
  induction is with
  | nil => exact .nil
  | cons i is ih => exact .cons (h.entry (hi i (by simp))) (ih fun j hj => hi j (by simp [hj]))

theorem ValL.mat {xs : List R} {env : List Var} (h : ValL xs env g val) {a : Matrix' Nat}
    (hi : ∀ i ∈ a.list, i < env.length) :
    MatVal (fun i j => num xs (a.get i j)) ⟨a.nrow, a.ncol, fun i j => nth env (a.get i j)⟩ g val := by
  intro i hi' j hj'
  refine h.entry (hi _ ?_)
  unfold Matrix'.list entries
  simp only [List.mem_map, List.mem_flatMap, List.mem_range]
  exact ⟨(i, j), ⟨j, hj', i, hi', rfl⟩, rfl⟩

theorem zipWith_maps {α β γ δ ε : Type} (f : γ → δ → ε) (p : α → γ) (q : β → δ) :
    ∀ (l : List α) (m : List β), List.zipWith f (l.map p) (m.map q) = List.zipWith (fun a b => f (p a) (q b)) l m
  | [], _ => by simp
  | _ :: _, [] => by simp
  | a :: l, b :: m => by simp

theorem make_gives (hc : Commutes R) (h : Inv s g val adj) {env : List Var} {ys : List R} (hy : ValL ys env g val)
    (m : Make R) (ha : ∀ i ∈ m.args, i < env.length) (hs : m.Sane) (hp : m.Plain) :
    Gives s g val adj (m.call env : M W (List Var)) (ValL (m.plain ys)) := by
  cases m with
  | new0 => exact gives_single (gives_newVar0 h)
  | new d => exact gives_single (gives_newVar h d)
  | newVals ds => exact gives_newVars h ds
  | newArr n => exact gives_newVar1d n h
  | fn f i => exact gives_single (gives_fn h (hy.entry (ha i (by simp [Make.args]))) f hp)
  | fnArr f is =>
    have key := gives_mapM (f := fun i => (f.api (nth env i) : M W Var)) (k := fun i => f.plain (num ys i)) is h
      fun i hi s' g' val' adj' ev => gives_fn ev.inv (ev.valR h (hy.entry (ha i hi))) f hp
    have e : (Make.call (.fnArr f is) env : M W (List Var)) = is.mapM fun i => (f.api (nth env i) : M W Var) := by
      simp only [Make.call, elemental1, List.mapM_map, Function.comp_def]
    rw [e]
    exact key
  | bin f i j =>
    exact gives_single (gives_binVV h (hy.entry (ha i (by simp [Make.args])))
      (hy.entry (ha j (by simp [Make.args]))) f)
  | binArr f is js =>
    have := gives_elemental2 f _ _ h (hy.nths (is := is) fun i hi => ha i (by simp [Make.args, hi]))
      (hy.nths (is := js) fun i hi => ha i (by simp [Make.args, hi]))
    rw [zipWith_maps] at this
    exact this
  | binVD f i d =>
    refine gives_single (gives_binVD h (hy.entry (ha i (by simp [Make.args]))) f d ?_ ?_)
    · rintro rfl; exact hs
    · rintro rfl; exact hp
  | binDV f d i =>
    refine gives_single (gives_binDV h hc (hy.entry (ha i (by simp [Make.args]))) f d ?_)
    rintro rfl; exact hs
  | sum is => exact gives_single (gives_reduceV h (hy.nths ha) _ (by decide))
  | norm2 is => exact gives_single (gives_reduceV h (hy.nths ha) _ (by decide))
  | logSumExp is => exact gives_single (gives_reduceV h (hy.nths ha) _ (by decide))
  | dotVV is js =>
    exact gives_single (gives_dotVV h (hy.nths fun i hi => ha i (by simp [Make.args, hi]))
      (hy.nths fun i hi => ha i (by simp [Make.args, hi])))
  | dotVD is ds => exact gives_single (gives_dotVD h (hy.nths ha) ds)
  | dotDV ds is => exact gives_single (gives_dotDV h (hy.nths ha) ds)
  | matmulVV a b =>
    simp only [Make.Sane] at hs
    exact gives_matmulVV h (hy.mat fun i hi => ha i (by simp [Make.args, hi]))
      (hy.mat fun i hi => ha i (by simp [Make.args, hi]))
      (by simp only [int32Max]; omega) (by simp only [int32Max]; omega)
      (by simp only [int32Max]; omega) (by simp only [int32Max]; omega)
  | matmulVD a b =>
    simp only [Make.Sane] at hs
    exact gives_matmulVD h (hy.mat ha)
      (by simp only [int32Max]; omega) (by simp only [int32Max]; omega)
      (by simp only [int32Max]; omega) (by simp only [int32Max]; omega)
  | matmulDV a b =>
    simp only [Make.Sane] at hs
    exact gives_matmulDV h (hy.mat ha)
      (by simp only [int32Max]; omega) (by simp only [int32Max]; omega)
      (by simp only [int32Max]; omega) (by simp only [int32Max]; omega)
  | lpdfVV d xs m' s' =>
    have h1 := hy.entry (ha m' (by simp [Make.args]))
    have h2 := hy.entry (ha s' (by simp [Make.args]))
    refine gives_single ?_
    cases d
    · exact Gives.read (h1.read h) (Gives.read (h2.read h) (gives_varWithPartials h (by simp [h1.has, h2.has]) _ _))
    · exact Gives.read (h1.read h) (Gives.read (h2.read h) (gives_varWithPartials h (by simp [h1.has, h2.has]) _ _))
  | lpdfVD d xs m' s' =>
    have h1 := hy.entry (ha m' (by simp [Make.args]))
    refine gives_single ?_
    cases d
    · exact Gives.read (h1.read h) (gives_varWithPartials h (by simp [h1.has]) _ _)
    · exact Gives.read (h1.read h) (gives_varWithPartials h (by simp [h1.has]) _ _)
  | lpdfDV d xs m' s' =>
    have h1 := hy.entry (ha s' (by simp [Make.args]))
    refine gives_single ?_
    cases d
    · exact Gives.read (h1.read h) (gives_varWithPartials h (by simp [h1.has]) _ _)
    · exact Gives.read (h1.read h) (gives_varWithPartials h (by simp [h1.has]) _ _)
  | partials x is ds => exact gives_single (gives_varWithPartials h (hy.nths ha).has x ds)
  | user x r is ds => exact gives_single (gives_userOp h (hy.nths ha).has x r ds)

/-! ## programs -/

theorem code_gives (hc : Commutes R) (f : Code R) : ∀ {s : St W} {g : Graph R} {val adj : Nat → R} {env : List Var}
    {ys : List R}, Inv s g val adj → ValL ys env g val → f.Sane → f.Plain →
    Gives s g val adj (f.run env : M W (List Var)) (ValL (f.plain ys)) := by
  induction f with
  | ret is =>
    intro s g val adj env ys h hy _ _
    unfold Code.run
    split
    · rename_i hi
      exact Gives.pure h (hy.nths hi)
    · exact Gives.fail _
  | make m k ih =>
    intro s g val adj env ys h hy hs hp
    unfold Code.run
    split
    · rename_i hi
      refine Gives.bind (make_gives hc h hy m hi hs.1 hp.1) fun vs s1 g1 val1 adj1 ev hv => ?_
      exact ih ev.inv (List.rel_append (ev.valL h hy) hv) hs.2 hp.2
    · exact Gives.fail _
  | look i k ih =>
    intro s g val adj env ys h hy hs hp
    unfold Code.run
    split
    · rename_i hi
      exact Gives.read ((hy.entry hi).read h) (ih _ h hy (hs _) (hp _))
    · exact Gives.fail _

end Fz
