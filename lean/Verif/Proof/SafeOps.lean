import Verif.Proof.Safe

/-!
# Every creating function is `Safe`
-/

set_option linter.unusedSectionVars false

namespace Fz
variable {W R : Type} [Arith R] [Rep W R] [LawfulRep W R]
open Arith
variable {φ : Nat → Prop} {s s' s'' : St W} {g g' g'' : Graph R} {val adj val' adj' val'' adj'' : Nat → R}

/-- the result is a variable on the tape -/
abbrev HasR (φ : Nat → Prop) (r : Var) (g : Graph R) : Prop := g.HasF φ r
/-- all results are variables on the tape -/
abbrev HasL (φ : Nat → Prop) (r : List Var) (g : Graph R) : Prop := ∀ v ∈ r, g.HasF φ v

theorem Evo.ofGrown {nd : Node R} {v : R} (h : Inv s g val adj) (gr : Inv.Grown s g val adj nd v s')
    (hp : nd.pos = s.tape.head) (hc : nd.ChainOK) (ho : ∀ p ∈ nd.args, φ p) :
    Evo φ s g val adj s' (g.push nd) (upd val nd.pos v) (upd adj nd.pos zero) where
  inv := gr.inv
  cok := fun hk x hx => by
    have : x ∈ g.nodes ∨ x = nd := by simpa [Graph.push] using hx
    rcases this with h | rfl
    · exact hk x h
    · exact hc
  pre := g.erase_push nd
  val := fun p hlt => upd_ne _ _ (by omega)
  adj := fun p hlt => upd_ne _ _ (by omega)
  news := fun k x hk he => by
    have : x = nd := by
      have hlt := (List.getElem?_eq_some_iff.mp he).1
      simp only [Graph.push, List.length_append, List.length_singleton] at hlt
      have hk' : k = g.nodes.length := by omega
      subst hk'
      simp [Graph.push] at he
      exact he.symm
    subst this
    exact ⟨by omega, upd_self _ _ _⟩
  keep := gr.keep
  head := by rw [gr.head]; omega
  own := fun k x hk he => by
    have : x = nd := by
      have hlt := (List.getElem?_eq_some_iff.mp he).1
      simp only [Graph.push, List.length_append, List.length_singleton] at hlt
      have hk' : k = g.nodes.length := by omega
      subst hk'
      simp [Graph.push] at he
      exact he.symm
    subst this
    exact ho
  chain := fun k x hk _ => by
    have hlt := (List.getElem?_eq_some_iff.mp hk).1
    simp only [Graph.push]
    rw [List.getElem?_append_left hlt]
    exact hk

theorem safe_grown {m : M W Var} {nd : Node R} {v : R} (h : Inv s g val adj)
    (hp : nd.pos = s.tape.head) (hc : nd.ChainOK) (ho : ∀ p ∈ nd.args, φ p)
    (hok : s.tape.head + nd.len ≤ cap → ∃ s', m s = .ok (⟨s.vhead⟩, s') ∧ Inv.Grown s g val adj nd v s')
    (herr : cap < s.tape.head + nd.len → ∃ e, m s = .error e) :
    Safe φ s g val adj m (HasR φ) := by
  intro hφ r s' e
  by_cases hcap : s.tape.head + nd.len ≤ cap
  · obtain ⟨s1, e1, gr⟩ := hok hcap
    rw [e1] at e
    cases e
    refine ⟨_, _, _, Evo.ofGrown h gr hp hc ho, ?_, ?_⟩
    · rw [h.vhead]
      exact g.has_last nd
    · rw [h.vhead]
      refine hφ _ ?_
      simp only [Graph.pos, Graph.push]
      simp
      omega
  · obtain ⟨x, hx⟩ := herr (by omega)
    rw [hx] at e; cases e

/-- chain procedures other than those of matrix products -/
def Chain.notMM (c : Chain) : Prop := c ≠ .matmulVV ∧ c ≠ .matmulVD ∧ c ≠ .matmulDV

instance (c : Chain) : Decidable c.notMM := by unfold Chain.notMM; infer_instance

theorem Chain.notMM_user (r : URule) : (Chain.user r).notMM := by simp [Chain.notMM]

theorem Chain.notMM.ok {c : Chain} (h : c.notMM) (p : Nat) (ops : List Nat) (ds : List R) :
    (⟨p, ops, ds, c, .plain⟩ : Node R).ChainOK := by
  intro hc
  rcases hc with hc | hc | hc
  · exact absurd hc h.1
  · exact absurd hc h.2.1
  · exact absurd hc h.2.2

theorem pos_ge {vs : List Var} (hv : ∀ v ∈ vs, g.HasF φ v) : ∀ p ∈ vs.map g.pos, φ p := by
  intro p hp
  obtain ⟨v, hm, rfl⟩ := List.mem_map.mp hp
  exact (hv v hm).ge

theorem safe_newOp (h : Inv s g val adj) {vs : List Var} (hv : ∀ v ∈ vs, g.HasF φ v) (x : R) {c : Chain}
    (hc : c.notMM) :
    Safe φ s g val adj (do let w ← newVarOp x vs; w.setChain c; pure w : M W Var) (HasR φ) := by
  refine safe_grown (nd := ⟨s.tape.head, vs.map g.pos, [], c, .plain⟩) (v := x) h rfl (hc.ok _ _ _) (pos_ge hv)
    (fun hcap => h.newOp (fun v hm => (hv v hm).has) x c (by simpa [Node.len] using hcap)) fun hcap => ?_
  refine bind_err' ?_
  unfold newVarOp newVariValOp
  rw [bind_ok (h.varIdxs fun v hm => (hv v hm).has)]
  exact bind_err' (newVariWith_err (Tape.pushValOp_err h.ok x _ (by simpa [Node.len] using hcap)))

theorem safe_newOpDop (h : Inv s g val adj) {vs : List Var} (hv : ∀ v ∈ vs, g.HasF φ v) (x : R) (ds : List R)
    {c : Chain} (hc : c.notMM) :
    Safe φ s g val adj (do let w ← newVarOpDop x vs ds; w.setChain c; pure w : M W Var) (HasR φ) := by
  refine safe_grown (nd := ⟨s.tape.head, vs.map g.pos, ds, c, .plain⟩) (v := x) h rfl (hc.ok _ _ _) (pos_ge hv)
    (fun hcap => h.newOpDop (fun v hm => (hv v hm).has) x ds c (by simpa [Node.len] using hcap)) fun hcap => ?_
  refine bind_err' ?_
  unfold newVarOpDop newVariValOpDop
  rw [bind_ok (h.varIdxs fun v hm => (hv v hm).has)]
  exact bind_err' (newVariWith_err (Tape.pushValOpDop_err h.ok x _ _ (by simpa [Node.len] using hcap)))

theorem safe_newVar (h : Inv s g val adj) (x : R) : Safe φ s g val adj (newVar x : M W Var) (HasR φ) := by
  refine safe_grown (nd := ⟨s.tape.head, [], [], (s.varis s.vhead).chain, .plain⟩) (v := x) h rfl
    (fun _ => rfl) (by simp [Node.args])
    (fun hcap => h.newVar_ok x (by simpa [Node.len] using hcap)) fun hcap => ?_
  unfold newVar newVariVal
  exact bind_err' (newVariWith_err (Tape.pushVal_err h.ok x (by simpa [Node.len] using hcap)))

theorem safe_newVar0 (h : Inv s g val adj) : Safe φ s g val adj (newVar0 (R := R) : M W Var) (HasR φ) :=
  safe_newVar h (zero : R)

theorem safe_mapM {α : Type} {f : α → M W Var} (l : List α) : ∀ {s : St W} {g : Graph R} {val adj : Nat → R},
    Inv s g val adj →
    (∀ a ∈ l, ∀ {s' : St W} {g' : Graph R} {val' adj' : Nat → R}, Evo φ s g val adj s' g' val' adj' →
      Safe φ s' g' val' adj' (f a) (HasR φ)) →
    Safe φ s g val adj (l.mapM f) (HasL φ) := by
  induction l with
  | nil => intro s g val adj h _; exact Safe.pure h (by simp [HasL])
  | cons a l ih =>
    intro s g val adj h hf
    rw [List.mapM_cons]
    refine Safe.bind (hf a (by simp) (Evo.refl h)) fun r s1 g1 val1 adj1 ev hr => ?_
    refine Safe.bind (ih ev.inv fun b hb s' g' val' adj' ev' => hf b (by simp [hb]) (ev.trans ev'))
      fun rs s2 g2 val2 adj2 ev2 hrs => ?_
    refine Safe.pure ev2.inv ?_
    intro v hv
    rcases List.mem_cons.mp hv with rfl | hv
    · exact ev2.hasF hr
    · exact hrs v hv

theorem safe_newVars (h : Inv s g val adj) (xs : List R) :
    Safe φ s g val adj (newVars xs : M W (List Var)) (HasL φ) :=
  safe_mapM xs h fun a _ _ _ _ _ ev => safe_newVar ev.inv a

theorem safe_newVar1d : ∀ (n : Nat) {s : St W} {g : Graph R} {val adj : Nat → R}, Inv s g val adj →
    Safe φ s g val adj (newVar1d (R := R) n : M W (List Var)) (HasL φ)
  | 0, _, _, _, _, h => Safe.pure h (by simp [HasL])
  | n + 1, s, g, val, adj, h => by
    unfold newVar1d
    refine Safe.bind (safe_newVar0 h) fun r s1 g1 val1 adj1 ev hr => ?_
    refine Safe.bind (safe_newVar1d n ev.inv) fun rs s2 g2 val2 adj2 ev2 hrs => ?_
    refine Safe.pure ev2.inv ?_
    intro v hv
    rcases List.mem_cons.mp hv with rfl | hv
    · exact ev2.hasF hr
    · exact hrs v hv

theorem safe_newVar2d (m : Nat) : ∀ (n : Nat) {s : St W} {g : Graph R} {val adj : Nat → R},
    Inv s g val adj →
    Safe φ s g val adj (newVar2d (R := R) m n : M W (List (List Var))) (fun r g => ∀ c ∈ r, HasL φ c g)
  | 0, _, _, _, _, h => Safe.pure h (by simp)
  | n + 1, s, g, val, adj, h => by
    unfold newVar2d
    refine Safe.bind (safe_newVar1d m h) fun r s1 g1 val1 adj1 ev hr => ?_
    refine Safe.bind (safe_newVar2d m n ev.inv) fun rs s2 g2 val2 adj2 ev2 hrs => ?_
    refine Safe.pure ev2.inv ?_
    intro c hc
    rcases List.mem_cons.mp hc with rfl | hc
    · exact fun v hv => ev2.hasF (hr v hv)
    · exact hrs c hc

theorem safe_unary (h : Inv s g val adj) {v : Var} (hv : g.HasF φ v) (f : R → R) {c : Chain} (hc : c.notMM) :
    Safe φ s g val adj (unary f c v : M W Var) (HasR φ) := by
  unfold unary
  exact Safe.read (h.varVal hv.has) (safe_newOp h (by simpa using hv) _ hc)

theorem safe_binary (h : Inv s g val adj) {v1 v2 : Var} (h1 : g.HasF φ v1) (h2 : g.HasF φ v2)
    (f : R → R → R) {c : Chain} (hc : c.notMM) : Safe φ s g val adj (binary f c v1 v2 : M W Var) (HasR φ) := by
  unfold binary
  exact Safe.read (h.varVal h1.has) (Safe.read (h.varVal h2.has) (safe_newOp h (by simp [h1, h2]) _ hc))

theorem safe_unaryData (h : Inv s g val adj) {v : Var} (hv : g.HasF φ v) (f : R → R) (d : R) {c : Chain}
    (hc : c.notMM) : Safe φ s g val adj (unaryData f d c v : M W Var) (HasR φ) := by
  unfold unaryData
  exact Safe.read (h.varVal hv.has) (safe_newOpDop h (by simpa using hv) _ _ hc)

theorem safe_reduceV (h : Inv s g val adj) {vs : List Var} (hv : ∀ v ∈ vs, g.HasF φ v) (f : List R → R)
    {c : Chain} (hc : c.notMM) : Safe φ s g val adj (reduceV f c vs : M W Var) (HasR φ) := by
  unfold reduceV
  exact Safe.read (h.varVals fun v hm => (hv v hm).has) (safe_newOp h hv _ hc)

theorem Evo.ofSetChain {v : Var} {nd : Node R} (hv : g.At v nd) {c : Chain} (hc : c.isNeutral)
    (hf : φ nd.pos) (i : Inv s' (g.setChain (v.vi - 1) c) val adj) (ht : s'.tape = s.tape) (k : Keep s s') :
    Evo φ s g val adj s' (g.setChain (v.vi - 1) c) val adj where
  inv := i
  cok := fun hk x hx => by
    obtain ⟨i, hi⟩ := List.mem_iff_getElem?.mp hx
    simp only [Graph.setChain, List.getElem?_modify] at hi
    cases hy : g.nodes[i]? with
    | none => rw [hy] at hi; simp at hi
    | some y =>
      rw [hy] at hi
      have hky := hk y (List.mem_of_getElem? hy)
      by_cases hki : v.vi - 1 = i
      · simp only [hki, if_true, Option.map_some, Option.some.injEq] at hi
        simp at hi
        subst hi
        unfold Node.ChainOK at hky ⊢
        simp only
        split
        · rename_i hkd
          intro h
          rcases hc with rfl | rfl | rfl | rfl <;> simp at h
        all_goals
          rename_i hkd
          rw [hkd] at hky
          exact ⟨hky.1, Or.inr hc⟩
      · simp [hki] at hi
        subst hi
        exact hky
  pre := by rw [Graph.erase_setChain]; exact Graph.Prefix.refl _
  val := fun _ _ => rfl
  adj := fun _ _ => rfl
  news := fun k x hk he => by
    have := (List.getElem?_eq_some_iff.mp he).1
    simp [Graph.setChain] at this
    omega
  keep := k
  head := by rw [ht]
  own := fun k x hk he => by
    have := (List.getElem?_eq_some_iff.mp he).1
    simp [Graph.setChain] at this
    omega
  chain := fun k x hk hn => by
    have hne : k ≠ v.vi - 1 := by
      intro he
      subst he
      rw [hv.2] at hk
      cases hk
      exact hn hf
    simp only [Graph.setChain, List.getElem?_modify]
    simp [Ne.symm hne, hk]

/-- a neutral element: the operand is returned with its chain pointer overwritten -/
theorem safe_neutral (h : Inv s g val adj) {v : Var} (hv : g.HasF φ v) {c : Chain} (hc : c.isNeutral) :
    Safe φ s g val adj (do v.setChain c; pure v : M W Var) (HasR φ) := by
  intro _ r s' e
  obtain ⟨nd, h1, h2⟩ := hv.has.at
  obtain ⟨s1, e1, i, hvh, ht, k⟩ := h.setChain_ok h1 c
  rw [bind_ok e1] at e
  cases e
  exact ⟨_, _, _, Evo.ofSetChain h1 hc (h2 ▸ hv.ge) i ht k, hv.has.setChain _ _, by rw [Graph.pos_setChain]; exact hv.ge⟩

section ops
variable (h : Inv s g val adj) {v v1 v2 : Var} (hv : g.HasF φ v) (h1 : g.HasF φ v1) (h2 : g.HasF φ v2)
include h

theorem safe_posV (hv : g.HasF φ v) : Safe φ s g val adj (posV v : M W Var) (HasR φ) := Safe.pure h hv

theorem safe_negV (hv : g.HasF φ v) : Safe φ s g val adj (negV (R := R) v : M W Var) (HasR φ) := by
  unfold negV; exact safe_unary h hv _ (by decide)

theorem safe_absV (hv : g.HasF φ v) : Safe φ s g val adj (absV (R := R) v : M W Var) (HasR φ) := by
  unfold absV
  refine Safe.read (h.varVal hv.has) ?_
  split
  · exact Safe.pure h hv
  · split
    · exact safe_negV h hv
    · split
      · exact safe_newVar0 h
      · exact safe_newOp h (by simpa using hv) _ (by decide)

theorem isNanV_run (hv : g.HasF φ v) :
    (isNanV (R := R) v : M W Bool) s = .ok (isNanD (val (g.pos v)), s) := by
  unfold isNanV
  rw [bind_ok (h.varVal hv.has)]
  rfl

theorem relVD_run (hv : g.HasF φ v) (o : RelOp) (d : R) :
    (relVD o v d : M W Bool) s = .ok (o.cmp (val (g.pos v)) d, s) := by
  unfold relVD
  rw [bind_ok (h.varVal hv.has)]
  rfl

theorem relDV_run (hv : g.HasF φ v) (o : RelOp) (d : R) :
    (relDV o d v : M W Bool) s = .ok (o.cmp (val (g.pos v)) d, s) := by
  unfold relDV
  rw [bind_ok (h.varVal hv.has)]
  rfl

theorem relVV_run (h1 : g.HasF φ v1) (h2 : g.HasF φ v2) (o : RelOp) :
    (relVV (R := R) o v1 v2 : M W Bool) s = .ok (o.cmp (val (g.pos v1)) (val (g.pos v2)), s) := by
  unfold relVV
  rw [bind_ok (h.varVal h1.has), bind_ok (h.varVal h2.has)]
  rfl

theorem safe_acoshV (hv : g.HasF φ v) : Safe φ s g val adj (acoshV (R := R) v : M W Var) (HasR φ) := by
  unfold acoshV
  refine Safe.read (isNanV_run h hv) ?_
  split
  · exact Safe.pure h hv
  · refine Safe.read (relVD_run h hv _ _) ?_
    split
    · exact Safe.fail _
    · exact safe_unary h hv _ (by decide)

theorem safe_atanhV (hv : g.HasF φ v) : Safe φ s g val adj (atanhV (R := R) v : M W Var) (HasR φ) := by
  unfold atanhV
  refine Safe.read (isNanV_run h hv) ?_
  split
  · exact Safe.pure h hv
  · refine Safe.read (relVD_run h hv _ _) (Safe.read (relVD_run h hv _ _) ?_)
    split
    · exact Safe.fail _
    · exact safe_unary h hv _ (by decide)

theorem safe_addVD (hv : g.HasF φ v) (d : R) : Safe φ s g val adj (addVD v d : M W Var) (HasR φ) := by
  unfold addVD
  split
  · exact safe_unary h hv _ (by decide)
  · exact safe_neutral h hv (by simp [Chain.isNeutral])

theorem safe_addDV (hv : g.HasF φ v) (d : R) : Safe φ s g val adj (addDV d v : M W Var) (HasR φ) := by
  unfold addDV
  split
  · exact safe_unary h hv _ (by decide)
  · exact safe_neutral h hv (by simp [Chain.isNeutral])

theorem safe_subVD (hv : g.HasF φ v) (d : R) : Safe φ s g val adj (subVD v d : M W Var) (HasR φ) := by
  unfold subVD
  split
  · exact safe_unary h hv _ (by decide)
  · exact safe_neutral h hv (by simp [Chain.isNeutral])

theorem safe_mulVD (hv : g.HasF φ v) (d : R) : Safe φ s g val adj (mulVD v d : M W Var) (HasR φ) := by
  unfold mulVD
  split
  · exact safe_unaryData h hv _ _ (by decide)
  · exact safe_neutral h hv (by simp [Chain.isNeutral])

theorem safe_mulDV (hv : g.HasF φ v) (d : R) : Safe φ s g val adj (mulDV d v : M W Var) (HasR φ) := by
  unfold mulDV
  split
  · exact safe_unaryData h hv _ _ (by decide)
  · exact safe_neutral h hv (by simp [Chain.isNeutral])

theorem safe_divVD (hv : g.HasF φ v) (d : R) : Safe φ s g val adj (divVD v d : M W Var) (HasR φ) := by
  unfold divVD
  split
  · exact safe_unaryData h hv _ _ (by decide)
  · exact safe_neutral h hv (by simp [Chain.isNeutral])

theorem safe_powVD (hv : g.HasF φ v) (d : R) : Safe φ s g val adj (powVD v d : M W Var) (HasR φ) := by
  unfold powVD
  split
  · exact safe_unary h hv _ (by decide)
  split
  · exact Safe.pure h hv
  split
  · exact safe_unary h hv _ (by decide)
  split
  · exact safe_unary h hv _ (by decide)
  split
  · exact safe_unary h hv _ (by decide)
  split
  · exact safe_unary h hv _ (by decide)
  · exact safe_unaryData h hv _ _ (by decide)

theorem safe_hypotVD (hv : g.HasF φ v) (d : R) (hd : fne d (zero : R) = true) :
    Safe φ s g val adj (hypotVD v d : M W Var) (HasR φ) := by
  unfold hypotVD
  rw [if_pos hd]
  exact Safe.read (h.varVal hv.has) (safe_newOp h (by simpa using hv) _ (by decide))

theorem safe_hypotDV (hv : g.HasF φ v) (d : R) (hd : fne d (zero : R) = true) :
    Safe φ s g val adj (hypotDV d v : M W Var) (HasR φ) := by
  unfold hypotDV
  rw [if_pos hd]
  exact Safe.read (h.varVal hv.has) (safe_newOp h (by simpa using hv) _ (by decide))

variable {a b : List Var} (ha : ∀ v ∈ a, g.HasF φ v) (hb : ∀ v ∈ b, g.HasF φ v)

theorem safe_dotVV (ha : ∀ v ∈ a, g.HasF φ v) (hb : ∀ v ∈ b, g.HasF φ v) :
    Safe φ s g val adj (dotVV (R := R) a b : M W Var) (HasR φ) := by
  unfold dotVV
  refine Safe.read (h.varVals fun v hm => (ha v hm).has) (Safe.read (h.varVals fun v hm => (hb v hm).has) ?_)
  split
  · exact safe_newOp h (by simpa [or_imp, forall_and] using ⟨ha, hb⟩) _ (by decide)
  · exact Safe.fail _

theorem safe_dotVD (ha : ∀ v ∈ a, g.HasF φ v) (d : List R) :
    Safe φ s g val adj (dotVD a d : M W Var) (HasR φ) := by
  unfold dotVD
  refine Safe.read (h.varVals fun v hm => (ha v hm).has) ?_
  split
  · exact safe_newOpDop h ha _ _ (by decide)
  · exact Safe.fail _

theorem safe_dotDV (ha : ∀ v ∈ a, g.HasF φ v) (d : List R) :
    Safe φ s g val adj (dotDV d a : M W Var) (HasR φ) := by
  unfold dotDV
  refine Safe.read (h.varVals fun v hm => (ha v hm).has) ?_
  split
  · exact safe_newOpDop h ha _ _ (by decide)
  · exact Safe.fail _

theorem safe_varWithPartials (ha : ∀ v ∈ a, g.HasF φ v) (x : R) (ds : List R) :
    Safe φ s g val adj (varWithPartials x a ds : M W Var) (HasR φ) := by
  unfold varWithPartials
  split
  · exact Safe.fail _
  · exact safe_newOpDop h ha _ _ (by decide)

theorem safe_userOp (ha : ∀ v ∈ a, g.HasF φ v) (x : R) (r : URule) (ds : List R) :
    Safe φ s g val adj (userOp x r a ds : M W Var) (HasR φ) := by
  unfold userOp
  cases ds with
  | nil => exact safe_newOp h ha _ (Chain.notMM_user r)
  | cons d ds => exact safe_newOpDop h ha _ _ (Chain.notMM_user r)

theorem safe_lpdfVV (h1 : g.HasF φ v1) (h2 : g.HasF φ v2) (f f1 f2 : R → R → R → R) (ys : List R) :
    Safe φ s g val adj (lpdfVV f f1 f2 ys v1 v2 : M W Var) (HasR φ) := by
  unfold lpdfVV
  exact Safe.read (h.varVal h1.has) (Safe.read (h.varVal h2.has)
    (safe_varWithPartials h (by simp [h1, h2]) _ _))

theorem safe_lpdfVD (h1 : g.HasF φ v1) (f f1 : R → R → R → R) (ys : List R) (d : R) :
    Safe φ s g val adj (lpdfVD f f1 ys v1 d : M W Var) (HasR φ) := by
  unfold lpdfVD
  exact Safe.read (h.varVal h1.has) (safe_varWithPartials h (by simp [h1]) _ _)

theorem safe_lpdfDV (h1 : g.HasF φ v1) (f f1 : R → R → R → R) (ys : List R) (d : R) :
    Safe φ s g val adj (lpdfDV f f1 ys d v1 : M W Var) (HasR φ) := by
  unfold lpdfDV
  exact Safe.read (h.varVal h1.has) (safe_varWithPartials h (by simp [h1]) _ _)

end ops

/-! ## matrix products -/

theorem Evo.ofGrownB {b : Block R} (gr : Inv.GrownB s g val adj b s') :
    Evo φ s g val adj s' (g.pushB b) val adj where
  inv := gr.inv
  cok := fun hk => hk
  pre := g.erase_pushB b
  val := fun _ _ => rfl
  adj := fun _ _ => rfl
  news := fun k x hk he => by
    have := (List.getElem?_eq_some_iff.mp he).1
    simp only [Graph.pushB] at this
    omega
  keep := gr.keep
  head := by rw [gr.head]; omega
  own := fun k x hk he => by
    have := (List.getElem?_eq_some_iff.mp he).1
    simp only [Graph.pushB] at this
    omega
  chain := fun _ _ hk _ => hk

/-- the entries are variables on the tape, at positions satisfying `φ` -/
def MatHasF (φ : Nat → Prop) (g : Graph R) (a : Mat Var) : Prop := ∀ i < a.nrow, ∀ j < a.ncol, g.HasF φ (a.get i j)

theorem MatHasF.has {a : Mat Var} (h : MatHasF φ g a) : Inv.MatHas g a := fun i hi j hj => (h i hi j hj).has

theorem MatHasF.flat {a : Mat Var} (h : MatHasF φ g a) : ∀ v ∈ a.flat, g.HasF φ v := by
  intro v hv
  simp only [Mat.flat, List.mem_flatMap, List.mem_map, List.mem_range] at hv
  obtain ⟨j, hj, i, hi, rfl⟩ := hv
  exact h i hi j hj

/-- a block of variables that are on the tape -/
def VBlock (φ : Nat → Prop) (m n : Nat) (loc : Nat) (g : Graph R) : Prop :=
  ∃ ids, Block.vb loc m n ids ∈ g.blocks ∧ ∀ p ∈ ids, φ p ∧ ∃ nd ∈ g.nodes, nd.pos = p
/-- a block of reals -/
def DBlock (m n : Nat) (loc : Nat) (g : Graph R) : Prop := ∃ xs, Block.db loc m n xs ∈ g.blocks

theorem Graph.Prefix.memPos (h : g.erase.Prefix g'.erase) {p : Nat} (hp : ∃ nd ∈ g.nodes, nd.pos = p) :
    ∃ nd ∈ g'.nodes, nd.pos = p := by
  obtain ⟨nd, hn, rfl⟩ := hp
  obtain ⟨k, hk⟩ := List.mem_iff_getElem?.mp hn
  obtain ⟨c, hc⟩ := h.getErase hk
  exact ⟨_, List.mem_of_getElem? hc, rfl⟩

theorem VBlock.evo {m n loc : Nat} (h : VBlock φ m n loc g) (e : Evo φ s g val adj s' g' val' adj') :
    VBlock φ m n loc g' := by
  obtain ⟨ids, h1, h2⟩ := h
  exact ⟨ids, e.pre.blocks.subset h1, fun p hp => ⟨(h2 p hp).1, e.pre.memPos (h2 p hp).2⟩⟩

theorem DBlock.evo {m n loc : Nat} (h : DBlock m n loc g) (e : Evo φ s g val adj s' g' val' adj') :
    DBlock m n loc g' := by
  obtain ⟨xs, h1⟩ := h
  exact ⟨xs, e.pre.blocks.subset h1⟩

theorem pushTape_err {f : Tape W → Except Err (Nat × Tape W)} (h : ∃ e, f s.tape = .error e) :
    ∃ e, pushTape f s = .error e := by
  obtain ⟨e, he⟩ := h
  exact ⟨e, by simp [pushTape, he]⟩

theorem safe_pushVarMat (h : Inv s g val adj) {a : Mat Var} (ha : MatHasF φ g a)
    (hr : a.nrow ≤ int32Max) (hc : a.ncol ≤ int32Max) :
    Safe φ s g val adj (pushVarMat a : M W Nat) (VBlock φ a.nrow a.ncol) := by
  intro _ r s' e
  by_cases hcap : s.tape.head + (2 + a.nrow * a.ncol) ≤ cap
  · obtain ⟨s1, e1, gr⟩ := h.pushVarMat_ok ha.has hr hc hcap
    rw [e1] at e
    cases e
    refine ⟨_, _, _, Evo.ofGrownB gr, _, by simp only [Graph.pushB, List.mem_append, List.mem_singleton]; exact Or.inr rfl, ?_⟩
    intro p hp
    obtain ⟨v, hv, rfl⟩ := List.mem_map.mp hp
    exact ⟨(ha.flat v hv).ge, (ha.flat v hv).has.mem_pos⟩
  · exfalso
    unfold pushVarMat at e
    rw [bind_ok (h.varIdxs ha.has.flat)] at e
    obtain ⟨x, hx⟩ := pushTape_err (s := s) (f := fun t => t.pushIntArray ([a.nrow, a.ncol] ++ a.flat.map g.pos))
      (Tape.pushIntArray_err (R := R) h.ok _ (by simp [Inv.flat_length]; omega))
    rw [hx] at e; cases e

theorem safe_pushDataMat (h : Inv s g val adj) {a : Mat R}
    (hr : a.nrow ≤ int32Max) (hc : a.ncol ≤ int32Max) :
    Safe φ s g val adj (pushDataMat a : M W Nat) (DBlock a.nrow a.ncol) := by
  intro _ r s' e
  by_cases hcap : s.tape.head + (2 + 2 * (a.nrow * a.ncol)) ≤ cap
  · obtain ⟨s1, e1, gr⟩ := h.pushDataMat_ok hr hc hcap
    rw [e1] at e
    cases e
    exact ⟨_, _, _, Evo.ofGrownB gr, _, by simp only [Graph.pushB, List.mem_append, List.mem_singleton]; exact Or.inr rfl⟩
  · exfalso
    unfold pushDataMat at e
    by_cases h2 : s.tape.head + 2 ≤ cap
    · obtain ⟨t1, e1, x1⟩ := Tape.pushIntArray_ok (R := R) h.ok [a.nrow, a.ncol] (by simpa using h2)
      rw [bind_ok (pushTape_ok e1)] at e
      obtain ⟨x, hx⟩ := pushTape_err (s := { s with tape := t1 }) (f := fun t => t.pushRealArray a.flat)
        (Tape.pushRealArray_err x1.ok _ (by rw [x1.head, Inv.flat_length]; simp; omega))
      rw [bind_err hx] at e; cases e
    · obtain ⟨x, hx⟩ := pushTape_err (s := s) (f := fun t => t.pushIntArray [a.nrow, a.ncol])
        (Tape.pushIntArray_err (R := R) h.ok _ (by simp; omega))
      rw [bind_err hx] at e; cases e

theorem safe_newOpId (h : Inv s g val adj) (x : R) {nd : Node R} (hc : Inv.CanPush g s.tape.head nd)
    (hd : nd.dops = []) (hok : nd.ChainOK) (ho : ∀ p ∈ nd.args, φ p) :
    Safe φ s g val adj (do let w ← newVarOpId x nd.ops; w.setChain nd.chain; pure w : M W Var) (HasR φ) := by
  refine safe_grown (nd := nd) (v := x) h hc.pos hok ho (fun hcap => h.newOpId_ok x hc hd hcap) fun hcap => ?_
  refine bind_err' ?_
  unfold newVarOpId newVariValOp
  exact bind_err' (newVariWith_err (Tape.pushValOp_err h.ok x _ (by simpa [Node.len, hd] using hcap)))

/-- the loop over the entries, for any of the three products -/
theorem safe_matmulLoop (c : Chain) (la lb : Nat) (f : Nat → Nat → R) (P : Graph R → Prop)
    (kd : Graph R → Nat → Nat → Kind R)
    (hP : ∀ {s : St W} {g : Graph R} {val adj : Nat → R} {s' : St W} {g' : Graph R} {val' adj' : Nat → R},
      Evo φ s g val adj s' g' val' adj' → P g → P g')
    (ps : List (Nat × Nat))
    (hnode : ∀ {s : St W} {g : Graph R} {val adj : Nat → R}, Inv s g val adj → P g → ∀ p ∈ ps,
      Inv.CanPush g s.tape.head ⟨s.tape.head, [p.1 + 1, p.2 + 1, la, lb], [], c, kd g p.1 p.2⟩ ∧
      (⟨s.tape.head, [p.1 + 1, p.2 + 1, la, lb], [], c, kd g p.1 p.2⟩ : Node R).ChainOK ∧
      ∀ q ∈ (⟨s.tape.head, [p.1 + 1, p.2 + 1, la, lb], [], c, kd g p.1 p.2⟩ : Node R).args, φ q) :
    ∀ {s : St W} {g : Graph R} {val adj : Nat → R}, Inv s g val adj → P g →
    Safe φ s g val adj (matmulLoop c la lb f ps : M W (List Var)) (HasL φ) := by
  induction ps with
  | nil => intro s g val adj h _; exact Safe.pure h (by simp [HasL])
  | cons p ps ih =>
    obtain ⟨i, j⟩ := p
    intro s g val adj h hp
    obtain ⟨c1, c2, c3⟩ := hnode h hp (i, j) (by simp)
    have e : (matmulLoop c la lb f ((i, j) :: ps) : M W (List Var)) =
        ((do let w ← newVarOpId (f i j) [i + 1, j + 1, la, lb]; w.setChain c; pure w) >>= fun s => do
          let ss ← matmulLoop c la lb f ps
          pure (s :: ss)) := by
      simp only [matmulLoop, bind_assoc, pure_bind]
    rw [e]
    have st := safe_newOpId h (f i j) c1 rfl c2 c3
    dsimp only at st
    refine Safe.bind st fun r s1 g1 val1 adj1 ev hr => ?_
    have ih' := @ih (fun {s g val adj} h hp q hq => hnode h hp q (List.mem_cons_of_mem _ hq))
    refine Safe.bind (ih' ev.inv (hP ev hp))
      fun rs s2 g2 val2 adj2 ev2 hrs => ?_
    refine Safe.pure ev2.inv ?_
    intro v hv
    rcases List.mem_cons.mp hv with rfl | hv
    · exact ev2.hasF hr
    · exact hrs v hv

theorem MatHasF.evo {a : Mat Var} (h : MatHasF φ g a) (e : Evo φ s g val adj s' g' val' adj') :
    MatHasF φ g' a := fun i hi j hj => e.hasF (h i hi j hj)

theorem matVals_run (h : Inv s g val adj) {a : Mat Var} (ha : MatHasF φ g a) :
    ∃ m, (matVals a : M W (Mat R)) s = .ok (m, s) := by
  unfold matVals
  rw [bind_ok (h.varVals ha.has.flat)]
  exact ⟨_, rfl⟩

theorem mem_matPairs {m n : Nat} {p : Nat × Nat} (h : p ∈ matPairs m n) : p.1 < m ∧ p.2 < n := by
  simp only [matPairs, List.mem_flatMap, List.mem_map, List.mem_range] at h
  obtain ⟨j, hj, i, hi, rfl⟩ := h
  exact ⟨hi, hj⟩

theorem mem_cmRow {α : Type} {l : List α} {m n i : Nat} {x : α} (h : x ∈ cmRow l m n i) : x ∈ l := by
  simp only [cmRow, List.mem_filterMap, List.mem_range] at h
  obtain ⟨c, _, hc⟩ := h
  exact List.mem_of_getElem? hc

theorem mem_cmCol {α : Type} {l : List α} {m j : Nat} {x : α} (h : x ∈ cmCol l m j) : x ∈ l :=
  List.mem_of_mem_drop (List.mem_of_mem_take h)

theorem Inv.block_small (h : Inv s g val adj) {b : Block R} (hb : b ∈ g.blocks) : b.loc ≤ int32Max := by
  have h1 := (h.wf.bbelow b hb).2
  have h2 := h.ok.head_le
  have h3 := h.ok.size_le
  have : 1 ≤ b.len := by cases b <;> simp [Block.len] <;> omega
  omega

open Classical in
theorem safe_matmulVV (h : Inv s g val adj) {a b : Mat Var} (ha : MatHasF φ g a) (hb : MatHasF φ g b)
    (h1 : a.nrow ≤ int32Max) (h2 : a.ncol ≤ int32Max) (h3 : b.nrow ≤ int32Max) (h4 : b.ncol ≤ int32Max) :
    Safe φ s g val adj (matmulVV (R := R) a b : M W (List Var)) (HasL φ) := by
  unfold matmulVV
  refine Safe.bind (safe_pushVarMat h ha (by omega) h2) fun la s1 g1 val1 adj1 ev1 b1 => ?_
  refine Safe.bind (safe_pushVarMat ev1.inv (hb.evo ev1) h3 (by omega)) fun lb s2 g2 val2 adj2 ev2 b2 => ?_
  obtain ⟨av, hav⟩ := matVals_run ev2.inv ((ha.evo ev1).evo ev2)
  obtain ⟨bv, hbv⟩ := matVals_run ev2.inv ((hb.evo ev1).evo ev2)
  refine Safe.read hav (Safe.read hbv ?_)
  split
  · rename_i hn
    obtain ⟨ids, m1, m2⟩ := b1.evo ev2
    obtain ⟨ids', m1', m2'⟩ := b2
    refine safe_matmulLoop _ la lb _ (fun g => (Block.vb la a.nrow a.ncol ids ∈ g.blocks ∧
        ∀ p ∈ ids, φ p ∧ ∃ nd ∈ g.nodes, nd.pos = p) ∧ (Block.vb lb b.nrow b.ncol ids' ∈ g.blocks ∧
        ∀ p ∈ ids', φ p ∧ ∃ nd ∈ g.nodes, nd.pos = p))
      (fun _ i j => .mmVV (cmRow ids a.nrow a.ncol i) (cmCol ids' b.nrow j)) ?_ _ ?_ ev2.inv
      ⟨⟨m1, m2⟩, m1', m2'⟩
    · rintro s g val adj s' g' val' adj' e ⟨⟨q1, q2⟩, q3, q4⟩
      exact ⟨⟨e.pre.blocks.subset q1, fun p hp => ⟨(q2 p hp).1, e.pre.memPos (q2 p hp).2⟩⟩,
        e.pre.blocks.subset q3, fun p hp => ⟨(q4 p hp).1, e.pre.memPos (q4 p hp).2⟩⟩
    · rintro s g val adj hi ⟨⟨q1, q2⟩, q3, q4⟩ p hp
      have hpl := mem_matPairs hp
      refine ⟨⟨rfl, ?_, ?_, ?_⟩, ⟨rfl, Or.inl rfl⟩, ?_⟩
      · intro q hq
        rcases List.mem_append.mp hq with hq | hq
        · exact (q2 q (mem_cmRow hq)).2
        · exact (q4 q (mem_cmCol hq)).2
      · have l1 : la ≤ int32Max := hi.block_small q1
        have l2 : lb ≤ int32Max := hi.block_small q3
        intro o ho
        simp only [List.mem_cons, List.not_mem_nil, or_false] at ho
        rcases ho with rfl | rfl | rfl | rfl <;> omega
      · rw [hn] at q1 ⊢
        exact ⟨p.1, p.2, la, a.nrow, b.nrow, ids, lb, b.ncol, ids', rfl, q1, q3, hpl.1, hpl.2, rfl, rfl⟩
      · intro q hq
        rcases List.mem_append.mp hq with hq | hq
        · exact (q2 q (mem_cmRow hq)).1
        · exact (q4 q (mem_cmCol hq)).1
  · exact Safe.fail _

theorem safe_matmulVD (h : Inv s g val adj) {a : Mat Var} {b : Mat R} (ha : MatHasF φ g a)
    (h1 : a.nrow ≤ int32Max) (h2 : a.ncol ≤ int32Max) (h3 : b.nrow ≤ int32Max) (h4 : b.ncol ≤ int32Max) :
    Safe φ s g val adj (matmulVD a b : M W (List Var)) (HasL φ) := by
  unfold matmulVD
  refine Safe.bind (safe_pushVarMat h ha (by omega) h2) fun la s1 g1 val1 adj1 ev1 b1 => ?_
  refine Safe.bind (safe_pushDataMat ev1.inv h3 (by omega)) fun lb s2 g2 val2 adj2 ev2 b2 => ?_
  obtain ⟨av, hav⟩ := matVals_run ev2.inv ((ha.evo ev1).evo ev2)
  refine Safe.read hav ?_
  split
  · rename_i hn
    obtain ⟨ids, m1, m2⟩ := b1.evo ev2
    obtain ⟨xs, m1'⟩ := b2
    refine safe_matmulLoop _ la lb _ (fun g => (Block.vb la a.nrow a.ncol ids ∈ g.blocks ∧
        ∀ p ∈ ids, φ p ∧ ∃ nd ∈ g.nodes, nd.pos = p) ∧ Block.db lb b.nrow b.ncol xs ∈ g.blocks)
      (fun _ i j => .mmVD (cmRow ids a.nrow a.ncol i) (cmCol xs b.nrow j)) ?_ _ ?_ ev2.inv
      ⟨⟨m1, m2⟩, m1'⟩
    · rintro s g val adj s' g' val' adj' e ⟨⟨q1, q2⟩, q3⟩
      exact ⟨⟨e.pre.blocks.subset q1, fun p hp => ⟨(q2 p hp).1, e.pre.memPos (q2 p hp).2⟩⟩,
        e.pre.blocks.subset q3⟩
    · rintro s g val adj hi ⟨⟨q1, q2⟩, q3⟩ p hp
      have hpl := mem_matPairs hp
      refine ⟨⟨rfl, ?_, ?_, ?_⟩, ⟨rfl, Or.inl rfl⟩, ?_⟩
      · intro q hq
        exact (q2 q (mem_cmRow hq)).2
      · have l1 : la ≤ int32Max := hi.block_small q1
        have l2 : lb ≤ int32Max := hi.block_small q3
        intro o ho
        simp only [List.mem_cons, List.not_mem_nil, or_false] at ho
        rcases ho with rfl | rfl | rfl | rfl <;> omega
      · rw [hn] at q1 ⊢
        exact ⟨p.1, p.2, la, a.nrow, b.nrow, ids, lb, b.ncol, xs, rfl, q1, q3, hpl.1, hpl.2, rfl, rfl⟩
      · intro q hq
        exact (q2 q (mem_cmRow hq)).1
  · exact Safe.fail _

theorem safe_matmulDV (h : Inv s g val adj) {a : Mat R} {b : Mat Var} (hb : MatHasF φ g b)
    (h1 : a.nrow ≤ int32Max) (h2 : a.ncol ≤ int32Max) (h3 : b.nrow ≤ int32Max) (h4 : b.ncol ≤ int32Max) :
    Safe φ s g val adj (matmulDV a b : M W (List Var)) (HasL φ) := by
  unfold matmulDV
  refine Safe.bind (safe_pushDataMat h (by omega) h2) fun la s1 g1 val1 adj1 ev1 b1 => ?_
  refine Safe.bind (safe_pushVarMat ev1.inv (hb.evo ev1) h3 (by omega)) fun lb s2 g2 val2 adj2 ev2 b2 => ?_
  obtain ⟨bv, hbv⟩ := matVals_run ev2.inv ((hb.evo ev1).evo ev2)
  refine Safe.read hbv ?_
  split
  · rename_i hn
    obtain ⟨xs, m1⟩ := b1.evo ev2
    obtain ⟨ids', m1', m2'⟩ := b2
    refine safe_matmulLoop _ la lb _ (fun g => Block.db la a.nrow a.ncol xs ∈ g.blocks ∧
        (Block.vb lb b.nrow b.ncol ids' ∈ g.blocks ∧ ∀ p ∈ ids', φ p ∧ ∃ nd ∈ g.nodes, nd.pos = p))
      (fun _ i j => .mmDV (cmRow xs a.nrow a.ncol i) (cmCol ids' b.nrow j)) ?_ _ ?_ ev2.inv
      ⟨m1, m1', m2'⟩
    · rintro s g val adj s' g' val' adj' e ⟨q1, q3, q4⟩
      exact ⟨e.pre.blocks.subset q1, e.pre.blocks.subset q3, fun p hp => ⟨(q4 p hp).1, e.pre.memPos (q4 p hp).2⟩⟩
    · rintro s g val adj hi ⟨q1, q3, q4⟩ p hp
      have hpl := mem_matPairs hp
      refine ⟨⟨rfl, ?_, ?_, ?_⟩, ⟨rfl, Or.inl rfl⟩, ?_⟩
      · intro q hq
        exact (q4 q (mem_cmCol hq)).2
      · have l1 : la ≤ int32Max := hi.block_small q1
        have l2 : lb ≤ int32Max := hi.block_small q3
        intro o ho
        simp only [List.mem_cons, List.not_mem_nil, or_false] at ho
        rcases ho with rfl | rfl | rfl | rfl <;> omega
      · rw [hn] at q1 ⊢
        exact ⟨p.1, p.2, la, a.nrow, b.nrow, xs, lb, b.ncol, ids', rfl, q1, q3, hpl.1, hpl.2, rfl, rfl⟩
      · intro q hq
        exact (q4 q (mem_cmCol hq)).1
  · exact Safe.fail _

end Fz
