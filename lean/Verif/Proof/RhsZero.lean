import Verif.Proof.Rhs
import Verif.Proof.Assign
import Verif.Proof.Value
import Verif.Proof.MirrorSweep

/-!
# Right-hand sides that begin by setting the result to zero

The array `f` holds zeros on entry, so these assignments change nothing: neither the words of the tape nor the values.
-/

namespace Fz
open Spec

variable {W : Type} [Rep W ℝ] [LawfulRep W ℝ]
variable {s t s' : St W} {g : Graph ℝ} {val adj : Nat → ℝ}

/-- assigning its own value to a variable does nothing -/
theorem assign_self (hi : Inv s g val adj) {v : Var} (hv : g.Has v) :
    (v.assign (val (g.pos v)) : M W Unit) s = .ok ((), s) := by
  obtain ⟨nd, h1, h2⟩ := hv.at
  have hb := hi.wf.below nd h1.mem
  have hl := hi.ok.head_le
  simp only [Node.len] at hb
  have e' : s.tape.setValAt nd.pos (val nd.pos) = .ok { s.tape with mem := putReal s.tape.mem nd.pos (val nd.pos) } :=
    Tape.wrSec_ok _ s.tape nd.pos (by omega) (by simp; omega)
  have hw := hi.recs nd h1.mem
  have hm : putReal s.tape.mem nd.pos (val nd.pos) = s.tape.mem := by
    funext q
    by_cases hq : q < nd.pos ∨ nd.pos + 2 ≤ q
    · exact putReal_off hq
    · have h0 := hw 0 (by simp [Tape.recWords])
      have h1 := hw 1 (by simp [Tape.recWords])
      have : q = nd.pos ∨ q = nd.pos + 1 := by omega
      rcases this with rfl | rfl
      · rw [show s.tape.mem nd.pos = _ from h0]; simp [putReal, overlay, Tape.recWords]
      · rw [h1]; simp [putReal, overlay, Tape.recWords]
  rw [hm] at e'
  rw [← h2]
  unfold Var.assign setIndexedVal
  rw [bind_ok (hi.getV h1)]
  exact modTape_ok (f := fun t => t.setValAt nd.pos (val nd.pos)) (s := s) e'

/-- the same for a state that differs in chain procedures -/
theorem assign_selfL {T : Nat → Prop} (hA : Akin T s t) (hi : Inv t g val adj) {v : Var} (hv : g.Has v) :
    (v.assign (val (g.pos v)) : M W Unit) s = .ok ((), s) := by
  have e := assign_self hi hv
  unfold Var.assign setIndexedVal at e ⊢
  obtain ⟨w, t1, e1, k1⟩ := bind_inv e
  have ht := getVari_st e1
  subst ht
  have hw := getVari_akin (Akin.same (T := fun _ => False) (by simp)) e1
  rw [e1] at hw
  injection hw with hw
  injection hw with hw _
  subst hw
  rw [bind_ok (getVari_akin hA e1)]
  have hx := hA.idx v.vi
  simp only [Vari.setVal, modTape, hA.tape, hx] at k1 ⊢
  cases he : t1.tape.setValAt (t1.varis v.vi).i (val (g.pos v)) with
  | error e => rw [he] at k1; cases k1
  | ok r =>
    rw [he] at k1
    have : r = t1.tape := by
      injection k1 with k1
      injection k1 with _ k1
      rw [← k1]
    rw [this, ← hA.tape]

theorem zeros_sem {n : Nat} {a : Stmt} (h : a.Zeros n) {y q : List ℝ} (hy : y.length = n ∨ (y.length ≤ n ∧ q = [])) :
    a.sem (y ++ List.replicate n 0 ++ q) = y ++ List.replicate n 0 ++ q := by
  induction h with
  | nop => rfl
  | @real i h1 h2 =>
    simp only [Stmt.sem]
    apply List.ext_getElem? fun k => ?_
    rw [List.getElem?_set]
    split
    · subst_vars
      split
      · rename_i hk
        rcases hy with hy | ⟨hy, rfl⟩
        · rw [List.append_assoc, List.getElem?_append_right (by omega), List.getElem?_append_left (by simp; omega),
            List.getElem?_replicate_of_lt (by omega)]
        · rw [List.append_nil] at hk ⊢
          rw [List.length_append, List.length_replicate] at hk
          rw [List.getElem?_append_right (by omega), List.getElem?_replicate_of_lt (by omega)]
      · rename_i hk
        exact (List.getElem?_eq_none (by omega)).symm
    · rfl
  | seq _ _ iha ihb => simp only [Stmt.sem, iha, ihb]

theorem zeros_cost {n : Nat} {a : Stmt} (h : a.Zeros n) (v : List ℝ) : a.cost v = 0 := by
  induction h generalizing v with
  | nop => rfl
  | real _ _ => rfl
  | seq _ _ iha ihb => simp only [Stmt.cost, iha, ihb]

omit [LawfulRep W ℝ] in
theorem zeros_run {n : Nat} {a : Stmt} (h : a.Zeros n) {xv : List Var}
    (ha : ∀ i, n ≤ i → i < 2 * n → ((lookV xv i).assign (0 : ℝ) : M W Unit) s = .ok ((), s)) :
    (a.run xv : M W (List Var)) s = .ok (xv, s) := by
  induction h with
  | nop => rfl
  | @real i h1 h2 =>
    unfold Stmt.run
    rw [bind_ok (ha i h1 h2)]
    rfl
  | seq _ _ iha ihb =>
    unfold Stmt.run
    rw [bind_ok iha]
    exact ihb

/-- `p'` is `p` without the assignments at the beginning -/
structure RestOf (n : Nat) (p p' : Proc) : Prop where
  plain : p'.body.NoReal
  outs : p'.outs = p.outs
  sem : ∀ {y q : List ℝ}, y.length = n ∨ (y.length ≤ n ∧ q = []) →
    p.body.sem (y ++ List.replicate n 0 ++ q) = p'.body.sem (y ++ List.replicate n 0 ++ q)
  ok : ∀ {y q : List ℝ}, y.length = n ∨ (y.length ≤ n ∧ q = []) → p.body.Ok (y ++ List.replicate n 0 ++ q) →
    p'.body.Ok (y ++ List.replicate n 0 ++ q)
  stable : ∀ {y q : List ℝ}, y.length = n ∨ (y.length ≤ n ∧ q = []) → p.body.Stable (y ++ List.replicate n 0 ++ q) →
    p'.body.Stable (y ++ List.replicate n 0 ++ q)
  cost : ∀ {y q : List ℝ}, y.length = n ∨ (y.length ≤ n ∧ q = []) → p.body.cost (y ++ List.replicate n 0 ++ q) =
    p'.body.cost (y ++ List.replicate n 0 ++ q)
  mild : p.body.Mild → p'.body.Mild
  noConst : p.body.NoConst → p'.body.NoConst
  run : ∀ {W : Type} [Rep W ℝ] [LawfulRep W ℝ] {s : St W} {xv : List Var},
    (∀ i, n ≤ i → i < 2 * n → ((lookV xv i).assign (0 : ℝ) : M W Unit) s = .ok ((), s)) →
    (p.run xv : M W (List Var)) s = p'.run xv s

theorem restOf {n : Nat} {p : Proc} (h : p.body.Clean n) : ∃ p', RestOf n p p' := by
  rcases h with h | ⟨a, b, e, ha, hb⟩
  · exact ⟨p, h, rfl, fun _ => rfl, fun _ h => h, fun _ h => h, fun _ => rfl, id, id, fun _ => rfl⟩
  · obtain ⟨body, outs⟩ := p
    simp only at e
    subst e
    refine ⟨⟨b, outs⟩, hb, rfl, fun hy => ?_, fun hy h => ?_, fun hy h => ?_, fun hy => ?_, fun h => h.2, fun h => h.2,
      fun hs => ?_⟩
    · simp only [Stmt.sem, zeros_sem ha hy]
    · have := h.2; rwa [zeros_sem ha hy] at this
    · have := h.2; rwa [zeros_sem ha hy] at this
    · simp only [Stmt.cost, zeros_sem ha hy, zeros_cost ha, Nat.zero_add]
    · simp only [Proc.run, Stmt.run, bind_assoc]
      rw [bind_ok (zeros_run ha hs)]

variable {n : Nat} {p p' : Proc}

theorem RestOf.rhsFn (h : RestOf n p p') : rhsFn p n = rhsFn p' n := by
  funext i w
  unfold Spec.rhsFn Proc.sem
  rw [h.sem (by
    rcases Nat.le_total n w.length with hw | hw
    · exact .inl (by simpa using hw)
    · exact .inr ⟨by simp, by simpa using hw⟩), h.outs]

theorem RestOf.procOk (h : RestOf n p p') {y q : List ℝ} (hy : y.length = n) (ho : p.Ok (y ++ List.replicate n 0 ++ q)) :
    p'.Ok (y ++ List.replicate n 0 ++ q) :=
  ⟨h.ok (.inl hy) ho.1, by rw [h.outs, ← h.sem (.inl hy)]; exact ho.2⟩

variable {P P' : ℝ → Proc} {f : ℝ → List ℝ → List ℝ} {q : List ℝ}

theorem RestOf.fair (h : ∀ u, RestOf n (P u) (P' u)) {ns K : Nat} {u : ℝ} {y : List ℝ} {S : List (List ℝ)}
    (hf : FairRhs P q n ns K u y S) : FairRhs P' q n ns K u y S := by
  obtain ⟨hy, h1, h2, h3, h4⟩ := hf
  exact ⟨hy, h1, (h u).procOk hy h2, (h u).stable (.inl hy) h3, by rw [← (h u).cost (.inl hy)]; exact h4⟩

theorem RestOf.callable (h : ∀ u, RestOf n (P u) (P' u)) {ns K hd m : Nat} {u : ℝ} {y : List ℝ} {S : List (List ℝ)}
    (hf : CallableRhs P q n ns K hd m u y S) : CallableRhs P' q n ns K hd m u y S := by
  obtain ⟨h0, h1, h2, h3⟩ := hf
  exact ⟨RestOf.fair h h0, h1, by rw [(h u).outs]; exact h2, by rw [← (h u).cost (.inl h0.1)]; exact h3⟩

/-- on new variables -/
theorem RestOf.runs {T : Nat → Prop} (h : RestOf n p p') (hA : Akin T s t) (hi : Inv t g val adj) {y : List ℝ}
    (hy : y.length = n) (hr : t.tape.head + 6 * (y ++ List.replicate n 0 ++ q).length ≤ cap) :
    ∃ xv s1, (newVars (y ++ List.replicate n 0 ++ q) : M W (List Var)) s = .ok (xv, s1) ∧
      (p.run xv : M W (List Var)) s1 = p'.run xv s1 := by
  obtain ⟨xv, t1, g', val', adj', e1, i1, -, te, -⟩ := newVars_value (ps := []) (zs := []) (y ++ List.replicate n 0 ++ q) hi
    ⟨rfl, by simp, by simp⟩ hr
  obtain ⟨s1, f1, A1⟩ := blind_newVars _ _ _ _ _ hA e1
  refine ⟨xv, s1, f1, h.run fun i h1 h2 => ?_⟩
  have hlen := newVars_len _ e1
  have hi' : i < xv.length := by
    rw [hlen]
    simp only [List.length_append, List.length_replicate]
    omega
  simp only [List.nil_append] at te
  have := assign_selfL A1 i1 (te.has i hi')
  rw [te.value i hi'] at this
  have hz : look (y ++ List.replicate n 0 ++ q) i = 0 := by
    unfold look
    rw [List.getD_eq_getElem?_getD, List.append_assoc, List.getElem?_append_right (by omega),
      List.getElem?_append_left (by simp; omega), List.getElem?_replicate_of_lt (by omega)]
    rfl
  rwa [hz] at this

theorem rest_eqY {T : Nat → Prop} {u : ℝ} {y : List ℝ} (h : RestOf y.length (P u) (P' u)) (hA : Akin T s t)
    (hi : Inv t g val adj) (hl : t.level < maxNestedStack) (hr : t.tape.head + 6 * (2 * y.length) ≤ cap)
    (S : List (List ℝ)) (out : Nat → Nat → ℝ) :
    setSensRhs (newCvsRhsYvar true y.length f (rhsY P)) u y S out s =
      setSensRhs (newCvsRhsYvar true y.length f (rhsY P')) u y S out s ∧
    (∀ J : Junk W ℝ, setSensRhsL J (newCvsRhsYvar true y.length f (rhsY P)) u y S out s =
      setSensRhsL J (newCvsRhsYvar true y.length f (rhsY P')) u y S out s) ∧
    ∀ b ns jac, calcJacYvar (newCvsRhsYvar b ns f (rhsY P)) u y jac s =
      calcJacYvar (newCvsRhsYvar b ns f (rhsY P')) u y jac s := by
  obtain ⟨s0, f0, A0⟩ := blind_begin _ _ _ _ hA (beginNested_ok t hl)
  obtain ⟨xv, s1, e1, e2⟩ := h.runs (q := []) A0 hi.begun rfl (by
    show t.tape.head + _ ≤ _
    simp only [List.length_append, List.length_replicate, List.length_nil]
    omega)
  rw [List.append_nil] at e1
  have hs := same_y (F := rhsY P) (G := rhsY P') (f := f) (u := u) f0 e1 (fun yv fv h => by
    subst h
    exact e2) S out
  exact ⟨hs.1, hs.2, same_jac (F := rhsY P) (G := rhsY P') (f := f) (u := u) f0 e1 fun yv fv h => by
    subst h
    exact e2⟩

theorem rest_eqP {T : Nat → Prop} {u : ℝ} {y : List ℝ} {b : Bool} {ns : Nat} (hb : ¬ (b = true ∧ ns = y.length))
    (h : RestOf y.length (P u) (P' u)) (hA : Akin T s t)
    (hi : Inv t g val adj) (hl : t.level < maxNestedStack) (hr : t.tape.head + 6 * (2 * y.length + q.length) ≤ cap)
    (S : List (List ℝ)) (out : Nat → Nat → ℝ) :
    setSensRhs (newCvsRhsPvar b ns q f (rhsP P)) u y S out s =
      setSensRhs (newCvsRhsPvar b ns q f (rhsP P')) u y S out s ∧
    ∀ J : Junk W ℝ, setSensRhsL J (newCvsRhsPvar b ns q f (rhsP P)) u y S out s =
      setSensRhsL J (newCvsRhsPvar b ns q f (rhsP P')) u y S out s := by
  obtain ⟨s0, f0, A0⟩ := blind_begin _ _ _ _ hA (beginNested_ok t hl)
  obtain ⟨xv, s1, e1, e2⟩ := h.runs (q := q) A0 hi.begun rfl (by
    show t.tape.head + _ ≤ _
    simp only [List.length_append, List.length_replicate]
    omega)
  exact same_p hb (F := rhsP P) (G := rhsP P') (f := f) (u := u) f0 e1 (fun yv fv qv h => by
    subst h
    exact e2) S out

theorem rests (h : ∀ u, (P u).body.Clean n) : ∃ P' : ℝ → Proc, ∀ u, RestOf n (P u) (P' u) :=
  ⟨fun u => (restOf (h u)).choose, fun u => (restOf (h u)).choose_spec⟩

/-- a call that succeeds has begun a nested tape -/
theorem sens_level {u : ℝ} {y : List ℝ} {F : ℝ → List Var → List Var → M W (List Var)} {S : List (List ℝ)}
    {out out' : Nat → Nat → ℝ} (e : setSensRhs (newCvsRhsYvar true y.length f F) u y S out s = .ok (out', t)) :
    s.level < maxNestedStack := by
  rw [setSensRhs_y _ _ _ _ _ _ _ rfl] at e
  obtain ⟨⟨⟩, s0, e0, -⟩ := bind_inv e
  exact (begin_run e0).1

theorem sens_levelP {u : ℝ} {y : List ℝ} {F : ℝ → List Var → List Var → List Var → M W (List Var)} {S : List (List ℝ)}
    {b : Bool} {ns : Nat} (hb : ¬ (b = true ∧ ns = y.length))
    {out out' : Nat → Nat → ℝ} (e : setSensRhs (newCvsRhsPvar b ns q f F) u y S out s = .ok (out', t)) :
    s.level < maxNestedStack := by
  rw [setSensRhs_p _ _ _ _ _ _ _ _ _ _ rfl hb] at e
  obtain ⟨⟨⟩, s0, e0, -⟩ := bind_inv e
  exact (begin_run e0).1

theorem jac_level {u : ℝ} {y : List ℝ} {F : ℝ → List Var → List Var → M W (List Var)} {b : Bool} {ns : Nat}
    {jac jac' : Nat → ℝ} (e : calcJacYvar (newCvsRhsYvar b ns f F) u y jac s = .ok (jac', t)) :
    s.level < maxNestedStack := by
  rw [calcJac_eq] at e
  obtain ⟨⟨⟩, s0, e0, -⟩ := bind_inv e
  exact (begin_run e0).1

theorem akin_self (s : St W) : Akin (fun _ => False) s s := .same (by simp)

theorem sensOk_cleanY {K : Nat} (hn : ∀ u, (P u).body.Clean n) :
    SensOk (W := W) (rhsInit f P) (FairRhs P [] n n K) (newCvsRhsYvar true n f (rhsY P)) K := by
  obtain ⟨P', h⟩ := rests hn
  intro g val adj s t u y S out out' hi hfit hroom hok e
  have hok' := RestOf.fair h hok
  obtain ⟨rfl, -, -, -, h3⟩ := hok
  rw [(rest_eqY (h u) (akin_self s) hi (sens_level e) (by simp at h3; omega) S out).1] at e
  obtain ⟨a1, a2⟩ := sensOk_rhsY (fun u => (h u).plain) hi hfit hroom hok' e
  exact ⟨by simp only [rhsInit, (h u).rhsFn]; exact a1, a2⟩

theorem sensOk_cleanP {K : Nat} (hn : ∀ u, (P u).body.Clean n) :
    SensOk (W := W) (rhsParam f P q) (FairRhs P q n q.length K) (newCvsRhsPvar false q.length q f (rhsP P)) K := by
  obtain ⟨P', h⟩ := rests hn
  intro g val adj s t u y S out out' hi hfit hroom hok e
  have hok' := RestOf.fair h hok
  obtain ⟨rfl, -, -, -, h3⟩ := hok
  rw [(rest_eqP (by simp) (h u) (akin_self s) hi (sens_levelP (by simp) e) (by omega) S out).1] at e
  obtain ⟨a1, a2⟩ := sensOk_rhsP (fun u => (h u).plain) hi hfit hroom hok' e
  exact ⟨by simp only [rhsParam, (h u).rhsFn]; exact a1, a2⟩

theorem sensTotal_cleanY {K hd lv : Nat} (hlv : lv < maxNestedStack) (hroom : hd + K ≤ cap)
    (hn : ∀ u, (P u).body.Clean n) (hc : ∀ u, (P u).body.NoConst) (h0 : 0 < n) :
    SensTotal (W := W) (rhsInit f P) (CallableRhs P [] n n K hd 1) (newCvsRhsYvar true n f (rhsY P)) (2 * n) hd lv := by
  obtain ⟨P', h⟩ := rests hn
  intro g val adj s u y S out hi hhd hl hok
  have hok' := RestOf.callable h hok
  obtain ⟨⟨rfl, -, -, -, h3⟩, -⟩ := hok
  obtain ⟨out', t, val', a, e, a1, a2⟩ := sensTotal_rhsY (f := f) hlv hroom (fun u => (h u).plain)
    (fun u => (h u).noConst (hc u)) h0 (out := out) hi hhd hl hok'
  exact ⟨out', t, val', a, (rest_eqY (h u) (akin_self s) hi.inv (by omega) (by simp at h3; omega) S out).1.trans e,
    by simp only [rhsInit, (h u).rhsFn]; exact a1, a2⟩

theorem sensTotal_cleanP {K hd lv : Nat} (hq : q.length = 3) (hlv : lv < maxNestedStack)
    (hroom : hd + K ≤ cap) (hn : ∀ u, (P u).body.Clean n) (hc : ∀ u, (P u).body.NoConst) :
    SensTotal (W := W) (rhsParam f P q) (CallableRhs P q n q.length K hd 1) (newCvsRhsPvar false q.length q f (rhsP P))
      (2 * n + 3) hd lv := by
  obtain ⟨P', h⟩ := rests hn
  intro g val adj s u y S out hi hhd hl hok
  have hok' := RestOf.callable h hok
  obtain ⟨⟨rfl, -, -, -, h3⟩, -⟩ := hok
  obtain ⟨out', t, val', a, e, a1, a2⟩ := sensTotal_rhsP (f := f) hq hlv hroom (fun u => (h u).plain)
    (fun u => (h u).noConst (hc u)) (out := out) hi hhd hl hok'
  exact ⟨out', t, val', a, (rest_eqP (by simp) (h u) (akin_self s) hi.inv (by omega) (by omega) S out).1.trans e,
    by simp only [rhsParam, (h u).rhsFn]; exact a1, a2⟩

theorem sensL_cleanY {K hd h0 m k lv k0 : Nat} (hlv : lv < maxNestedStack)
    (hk : k < m) (hhd : hd = h0 + k * (n * (6 + 3 * n))) (h0' : 0 < n)
    (hroom : hd + K ≤ cap) (hn : ∀ u, (P u).body.Clean n) (hm : ∀ u, (P u).body.Mild) :
    SensL W (rhsInit f P) (CallableRhs P [] n n K h0 m) (newCvsRhsYvar true n f (rhsY P)) k0 hd lv := by
  obtain ⟨P', h⟩ := rests hn
  intro g val adj s t u y S out hi hh hl hok
  have hok' := RestOf.callable h hok
  obtain ⟨⟨rfl, -, -, -, h3⟩, -⟩ := hok
  obtain ⟨out', s', t', e, a1, a2⟩ := sensL_rhsY (W := W) (k0 := k0) (f := f) hlv hk hhd h0' hroom
    (fun u => (h u).plain) (fun u => (h u).mild (hm u)) out hi hh hl hok'
  exact ⟨out', s', t', fun J => ((rest_eqY (h u) hi.akin hi.fine.inv (by omega) (by simp at h3; omega) S out).2.1 J).trans (e J),
    by simp only [rhsInit, (h u).rhsFn]; exact a1, a2⟩

theorem sensL_cleanP {K hd h0 m k lv k0 : Nat} (hq : q.length = 3)
    (hlv : lv < maxNestedStack) (hk : k < m) (hhd : hd = h0 + k * (n * (6 + 3 * q.length)))
    (hroom : hd + K ≤ cap) (hn : ∀ u, (P u).body.Clean n) (hm : ∀ u, (P u).body.Mild) :
    SensL W (rhsParam f P q) (CallableRhs P q n q.length K h0 m) (newCvsRhsPvar false q.length q f (rhsP P)) k0 hd lv := by
  obtain ⟨P', h⟩ := rests hn
  intro g val adj s t u y S out hi hh hl hok
  have hok' := RestOf.callable h hok
  obtain ⟨⟨rfl, -, -, -, h3⟩, -⟩ := hok
  obtain ⟨out', s', t', e, a1, a2⟩ := sensL_rhsP (W := W) (k0 := k0) (f := f) hq hlv hk hhd hroom
    (fun u => (h u).plain) (fun u => (h u).mild (hm u)) out hi hh hl hok'
  exact ⟨out', s', t', fun J => ((rest_eqP (by simp) (h u) hi.akin hi.fine.inv (by omega) (by omega) S out).2 J).trans (e J),
    by simp only [rhsParam, (h u).rhsFn]; exact a1, a2⟩

end Fz
