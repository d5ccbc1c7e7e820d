import Verif.Proof.Assign
import Verif.Proof.Rules
import Verif.Props.Cells

/-!
# C72, C73: assignment of reals to variables

C72: a variable that is declared and then assigned a real cannot be told from a variable constructed from the real;
the last assignment counts; assignments to different variables may be exchanged.  "Cannot be told" is equality of the
two programs in front of every continuation `k`: the same result and the same state, or the same error.

C73: what an assignment does to derivatives.  Chain procedures read the values of the operands when the sweep runs, so
that an assignment to a variable that has been used changes derivatives of what was computed from it before.
Variables created before the assigned one are not concerned.
-/

set_option linter.unusedSectionVars false

namespace Props
open Fz Spec

section generic
variable {W R : Type} [Arith R] [Rep W R] [LawfulRep W R]
variable {h : List (Call R)} {c : Client W} {α : Type}

/-- **C72**: `x = var(n); x = d` (arrays) is `x = var(d)`. -/
theorem C72_array (hr : Reach h c) (ds : List R) (k : List Var → M W α) :
    (do let vs ← newVar1d (R := R) ds.length; Var.assign1d vs ds; k vs : M W α) c.st = (newVars ds >>= k) c.st := by
  obtain ⟨g, val, adj, G⟩ := hr.good
  have := G.inv.vhead
  exact declare_assign G.inv.ok (by omega) G.inv.vcap ds k

/-- **C72**: `x = var(); x = d` is `x = var(d)`. -/
theorem C72_scalar (hr : Reach h c) (d : R) (k : Var → M W α) :
    (do let v ← newVar0 (R := R); v.assign d; k v : M W α) c.st = (newVar d >>= k) c.st := by
  have := C72_array hr [d] (fun vs => match vs with | [v] => k v | _ => fail .oob)
  have e1 : (do let vs ← newVar1d (R := R) [d].length; Var.assign1d vs [d]
                match vs with | [v] => k v | _ => fail .oob : M W α) =
      (do let v ← newVar0 (R := R); v.assign d; k v) := by
    show (do let vs ← (do let v ← newVar0 (R := R); let vs ← (pure [] : M W (List Var)); pure (v :: vs))
             Var.assign1d vs [d]; _ : M W α) = _
    simp only [bind_assoc, pure_bind, Var.assign1d]
  have e2 : (newVars [d] >>= fun vs => match vs with | [v] => k v | _ => fail .oob : M W α) = (newVar d >>= k) := by
    unfold newVars
    simp only [List.mapM_cons, List.mapM_nil, bind_assoc, pure_bind]
  rw [← e1, ← e2]
  exact this

theorem newVars_length : ∀ (xs : List R) {s s' : St W} {vs : List Var},
    (newVars xs : M W (List Var)) s = .ok (vs, s') → vs.length = xs.length := by
  intro xs
  induction xs with
  | nil => intro s s' vs e; cases e; rfl
  | cons x xs ih =>
    intro s s' vs e
    unfold newVars at e
    rw [List.mapM_cons] at e
    obtain ⟨v, s1, e1, e⟩ := Fz.bind_inv e
    obtain ⟨us, s2, e2, e⟩ := Fz.bind_inv e
    cases e
    simp [ih e2]

/-- **C72**: `x = var(n); x = d` with one real `d` for all elements is `x = var([d, ..., d])`. -/
theorem C72_all (hr : Reach h c) (n : Nat) (d : R) (k : List Var → M W α) :
    (do let vs ← newVar1d (R := R) n; Var.assign1dFrom0d vs d; k vs : M W α) c.st =
      (newVars (List.replicate n d) >>= k) c.st := by
  have heq : ∀ (vs : List Var), (Var.assign1dFrom0d vs d : M W Unit) = Var.assign1d vs (vs.map fun _ => d) := by
    intro vs
    induction vs with
    | nil => rfl
    | cons v vs ih =>
      show (v.assign d >>= fun _ => Var.assign1dFrom0d vs d : M W Unit) = _
      rw [ih]
      rfl
  have key := C72_array hr (List.replicate n d) k
  rw [List.length_replicate] at key
  rw [← key]
  cases e : (newVar1d (R := R) n : M W (List Var)) c.st with
  | error x => exact (bind_err e).trans (bind_err e).symm
  | ok p =>
    obtain ⟨vs, s'⟩ := p
    refine (bind_ok e).trans (Eq.trans ?_ (bind_ok e).symm)
    have hl := newVar1d_length n e
    rw [heq vs, List.map_const', hl]

/-- **C72**: `x = var(m, n); x = d` (matrices) is `x = var(d)`, column by column. -/
theorem C72_matrix (hr : Reach h c) (m : Nat) (ds : List (List R)) (hd : ∀ col ∈ ds, col.length = m)
    (k : List Var → M W α) :
    (do let vs ← newVar2d (R := R) m ds.length; Var.assign2d vs ds; k vs.flatten : M W α) c.st =
      (newVars ds.flatten >>= k) c.st := by
  have flat : ∀ (n : Nat) {β : Type} (f : List Var → M W β),
      (newVar2d (R := R) m n >>= fun vs => f vs.flatten : M W β) = (newVar1d (R := R) (m * n) >>= f) := by
    intro n
    induction n with
    | zero => intro β f; rfl
    | succ n ih =>
      intro β f
      rw [show m * (n + 1) = m + m * n by rw [Nat.mul_succ, Nat.add_comm], newVar1d_add]
      have e : (newVar2d (R := R) m (n + 1) >>= fun vs => f vs.flatten : M W β) =
          (newVar1d (R := R) m >>= fun v => newVar2d (R := R) m n >>= fun vs => f (v ++ vs.flatten)) := by
        simp only [newVar2d, bind_assoc, pure_bind, List.flatten_cons]
      rw [e, bind_assoc]
      refine congrArg _ (funext fun v => ?_)
      rw [ih fun ws => f (v ++ ws)]
      simp only [bind_assoc, pure_bind]
  have hlen : ds.flatten.length = m * ds.length := by
    clear flat
    induction ds with
    | nil => simp
    | cons d ds ih =>
      rw [List.flatten_cons, List.length_append, hd d (by simp), ih fun col hc => hd col (by simp [hc]),
        List.length_cons, Nat.mul_succ, Nat.add_comm]
  have key := C72_array hr ds.flatten k
  rw [hlen, ← flat ds.length fun vs => (Var.assign1d vs ds.flatten >>= fun _ => k vs : M W α)] at key
  rw [← key]
  cases e : (newVar2d (R := R) m ds.length : M W (List (List Var))) c.st with
  | error x => exact (bind_err e).trans (bind_err e).symm
  | ok p =>
    obtain ⟨vs, s'⟩ := p
    refine (bind_ok e).trans (Eq.trans ?_ (bind_ok e).symm)
    have shape : ∀ (n : Nat) {s s' : St W} {vs : List (List Var)},
        (newVar2d (R := R) m n : M W (List (List Var))) s = .ok (vs, s') → vs.length = n ∧ ∀ v ∈ vs, v.length = m := by
      intro n
      induction n with
      | zero => intro s s' vs e; cases e; simp
      | succ n ih =>
        intro s s' vs e
        obtain ⟨x, s1, e1, e⟩ := Fz.bind_inv e
        obtain ⟨y, s2, e2, e⟩ := Fz.bind_inv e
        cases e
        obtain ⟨i1, i2⟩ := ih e2
        refine ⟨by simp [i1], fun v hv => ?_⟩
        rcases List.mem_cons.mp hv with rfl | hv
        · exact newVar1d_length m e1
        · exact i2 v hv
    obtain ⟨hn, hm⟩ := shape _ e
    have : ∀ (vs : List (List Var)) (ds : List (List R)), vs.length = ds.length → (∀ v ∈ vs, v.length = m) →
        (∀ d ∈ ds, d.length = m) → (Var.assign2d vs ds : M W Unit) = Var.assign1d vs.flatten ds.flatten := by
      intro vs
      induction vs with
      | nil =>
        intro ds hl _ _
        obtain rfl := List.length_eq_zero_iff.mp hl.symm
        rfl
      | cons v vs ih =>
        intro ds hl hv hd
        match ds, hl with
        | d :: ds, hl =>
          rw [List.flatten_cons, List.flatten_cons,
            assign1d_append _ _ _ _ ((hv v (by simp)).trans (hd d (by simp)).symm),
            ← ih ds (by simpa using hl) (fun v hv' => hv v (by simp [hv'])) fun d hd' => hd d (by simp [hd'])]
          rfl
    rw [this vs ds hn hm hd]

theorem assign_words {s : St W} {g : Graph R} {val adj : Nat → R} (hi : Inv s g val adj) {v : Var} (hv : g.Has v) (d : R) :
    (v.assign d : M W Unit) s = .ok ((), s.withMem (putReal s.tape.mem (g.pos v) d)) ∧
      Inv (s.withMem (putReal s.tape.mem (g.pos v) d)) g (upd val (g.pos v) d) adj := by
  obtain ⟨nd, h1, h2⟩ := hv.at
  have hb := hi.wf.below nd h1.mem
  have hl := hi.ok.head_le
  simp only [Node.len] at hb
  obtain ⟨m, e, i⟩ := hi.setVal h1.mem d
  have e' : s.tape.setValAt nd.pos d = .ok { s.tape with mem := putReal s.tape.mem nd.pos d } :=
    Tape.wrSec_ok _ s.tape nd.pos (by omega) (by simp; omega)
  obtain rfl : putReal s.tape.mem nd.pos d = m := by
    rw [e'] at e
    injection e with e
    injection e
  rw [← h2]
  refine ⟨?_, i⟩
  unfold Var.assign setIndexedVal
  rw [bind_ok (hi.getV h1)]
  exact modTape_ok (f := fun t => t.setValAt nd.pos d) (s := s) e'

/-- **C72**: of two assignments to a variable the second counts. -/
theorem C72_last (hr : Reach h c) {v : Var} (hv : v ∈ existing c.st) (a b : R) (k : M W α) :
    (do v.assign a; v.assign b; k : M W α) c.st = (do v.assign b; k : M W α) c.st := by
  obtain ⟨g, val, adj, G⟩ := hr.good
  have hh := (mem_existing G.inv).mp hv
  obtain ⟨e1, i1⟩ := assign_words G.inv hh a
  obtain ⟨e2, -⟩ := assign_words i1 hh b
  obtain ⟨e3, -⟩ := assign_words G.inv hh b
  rw [bind_ok e1, bind_ok e2, bind_ok e3]
  show k (c.st.withMem (putReal (putReal _ _ a) _ b)) = _
  rw [putReal_putReal]

/-- **C72**: `x = x%val()` does nothing. -/
theorem C72_self (hr : Reach h c) {v : Var} (hv : v ∈ existing c.st) (k : M W α) :
    (do let x ← v.val (R := R); v.assign x; k : M W α) c.st = k c.st := by
  obtain ⟨g, val, adj, G⟩ := hr.good
  have hh := (mem_existing G.inv).mp hv
  obtain ⟨e1, -⟩ := assign_words G.inv hh (val (g.pos v))
  rw [bind_ok (G.inv.varVal hh), bind_ok e1]
  obtain ⟨nd, h1, h2⟩ := hh.at
  have hw := G.inv.recs nd h1.mem
  have : putReal c.st.tape.mem (g.pos v) (val (g.pos v)) = c.st.tape.mem := by
    rw [← h2]
    funext q
    by_cases hq : q < nd.pos ∨ nd.pos + 2 ≤ q
    · exact putReal_off hq
    · have h0 := hw 0 (by simp [Tape.recWords])
      have h1 := hw 1 (by simp [Tape.recWords])
      have : q = nd.pos ∨ q = nd.pos + 1 := by omega
      rcases this with rfl | rfl
      · rw [show c.st.tape.mem nd.pos = _ from h0]; simp [putReal, overlay, Tape.recWords]
      · rw [h1]; simp [putReal, overlay, Tape.recWords]
  rw [this]
  rfl

/-- **C72**: assignments to two different variables may be exchanged. -/
theorem C72_swap (hr : Reach h c) {v w : Var} (hv : v ∈ existing c.st) (hw : w ∈ existing c.st) (hne : v ≠ w) (a b : R)
    (k : M W α) : (do v.assign a; w.assign b; k : M W α) c.st = (do w.assign b; v.assign a; k : M W α) c.st := by
  obtain ⟨g, val, adj, G⟩ := hr.good
  have hhv := (mem_existing G.inv).mp hv
  have hhw := (mem_existing G.inv).mp hw
  obtain ⟨e1, i1⟩ := assign_words G.inv hhv a
  obtain ⟨e2, -⟩ := assign_words i1 hhw b
  obtain ⟨e3, i3⟩ := assign_words G.inv hhw b
  obtain ⟨e4, -⟩ := assign_words i3 hhv a
  rw [bind_ok e1, bind_ok e2, bind_ok e3, bind_ok e4]
  show k (c.st.withMem (putReal (putReal _ _ a) _ b)) = k (c.st.withMem (putReal (putReal _ _ b) _ a))
  obtain ⟨x, x1, x2⟩ := hhv.mem_pos
  obtain ⟨y, y1, y2⟩ := hhw.mem_pos
  have hpos : g.pos v ≠ g.pos w := fun he => hne (hhv.inj hhw G.inv he)
  have far : g.pos v + 2 ≤ g.pos w ∨ g.pos w + 2 ≤ g.pos v := by
    rw [← x2, ← y2] at hpos ⊢
    rcases List.pairwise_iff_getElem.mp G.inv.wf.sorted with hs
    obtain ⟨i, hi, rfl⟩ := List.mem_iff_getElem.mp x1
    obtain ⟨j, hj, rfl⟩ := List.mem_iff_getElem.mp y1
    rcases Nat.lt_trichotomy i j with hij | rfl | hij
    · have := hs i j hi hj hij; simp only [Node.len] at this; omega
    · exact absurd rfl hpos
    · have := hs j i hj hi hij; simp only [Node.len] at this; omega
  rcases far with far | far
  · rw [putReal_comm _ far a b]
  · rw [putReal_comm _ far b a]

end generic

/-! ## derivatives -/

section real
variable {W : Type} [Rep W ℝ] [LawfulRep W ℝ]
variable {h : List (Call ℝ)} {c : Client W}

theorem cUser_some {r : URule} {v a w b : ℝ} {xs ys ds : List ℝ} (hl : xs.length = ys.length)
    (e : (cUser r v a xs ds).isSome) : (cUser r w b ys ds).isSome := by
  unfold cUser at e ⊢
  cases r <;> simp only at e ⊢ <;> split at e
  case fixed.isTrue hc => rw [if_pos (by rw [← hl]; exact hc)]; rfl
  case each.isTrue hc => rw [if_pos hc]; rfl
  all_goals cases e

/-- whether a chain procedure fits a record does not depend on values -/
theorem contribPlain_some (ch : Chain) {v a w b : ℝ} {xs ys ds : List ℝ} (hl : xs.length = ys.length)
    (e : (contribPlain ch v a xs ds).isSome) : (contribPlain ch w b ys ds).isSome := by
  have nn : ∀ z : ℝ, isNanD z = false := fun z => by simp [isNanD, fne, Arith.feq]
  match xs, ys, hl with
  | [], [], _ =>
    cases ch <;> simp_all [contribPlain, cAll, cUn, cBin, cDat]
    all_goals first
      | exact cUser_some (by simp) e
      | (rcases ds with _ | ⟨d, _ | ⟨d', ds⟩⟩ <;> (try simp_all) <;> (try split_ifs) <;> rfl)
  | [x], [y], _ =>
    cases ch <;> simp_all [contribPlain, cAll, cUn, cBin, cDat]
    all_goals first
      | exact cUser_some (by simp) e
      | (rcases ds with _ | ⟨d, _ | ⟨d', ds⟩⟩ <;> (try simp_all) <;> (try split_ifs) <;> rfl)
  | [x, x'], [y, y'], _ =>
    cases ch <;> simp_all [contribPlain, cAll, cUn, cBin, cDat]
    exact cUser_some (by simp) e
  | x :: x' :: x'' :: xs, y :: y' :: y'' :: ys, hl =>
    cases ch <;> simp_all [contribPlain, cAll, cUn, cBin, cDat]
    exact cUser_some (by simpa using hl) e

theorem fits_any {nd : Node ℝ} {val : Nat → ℝ} (hf : nd.Fits val) (val' : Nat → ℝ) : nd.Fits val' := by
  intro adj
  obtain ⟨l, e⟩ := hf adj
  unfold Node.contrib at e ⊢
  cases hk : nd.kind with
  | plain =>
    simp only [hk] at e ⊢
    exact Option.isSome_iff_exists.mp (contribPlain_some nd.chain (xs := nd.ops.map val) (by simp) (by rw [e]; rfl))
  | mmVV r c =>
    simp only [hk] at e ⊢
    split at e
    · rename_i hc; rw [if_pos hc]; exact ⟨_, rfl⟩
    · cases e
  | mmVD r c => simp only [hk] at e ⊢; exact ⟨_, e⟩
  | mmDV r c => simp only [hk] at e ⊢; exact ⟨_, e⟩

theorem addAll_at (ps : List Nat) : ∀ (A A' : Nat → ℝ) (ds : List ℝ) {q : Nat}, A q = A' q →
    addAll A ps ds q = addAll A' ps ds q := by
  induction ps with
  | nil => intro A A' ds q e; exact e
  | cons p ps ih =>
    intro A A' ds q e
    cases ds with
    | nil => exact e
    | cons d ds =>
      refine ih _ _ ds ?_
      by_cases hq : q = p
      · subst hq; rw [upd_self, upd_self, e]
      · rw [upd_ne _ _ hq, upd_ne _ _ hq, e]

/-- a sweep over records, none of which reads a value that has changed -/
theorem sweep_same {val val' : Nat → ℝ} (P : Nat → Prop) : ∀ (l : List (Node ℝ)) (A A' : Nat → ℝ), (∀ nd ∈ l, P nd.pos) →
    (∀ nd ∈ l, nd.args = [] ∨ val nd.pos = val' nd.pos ∧ ∀ p ∈ nd.args, val p = val' p) → (∀ q, P q → A q = A' q) →
    ∀ q, P q → sweep val l A q = sweep val' l A' q := by
  intro l
  induction l with
  | nil => intro A A' _ _ hA; exact hA
  | cons nd l ih =>
    intro A A' hP hv hA q hq
    have ih' := ih A A' (fun x hx => hP x (by simp [hx])) (fun x hx => hv x (by simp [hx])) hA
    show addAll (sweep val l A) nd.args (nd.cl val (sweep val l A)) q =
      addAll (sweep val' l A') nd.args (nd.cl val' (sweep val' l A')) q
    rcases hv nd (by simp) with he | ⟨h1, h2⟩
    · rw [he]
      exact ih' q hq
    · have : nd.cl val (sweep val l A) = nd.cl val' (sweep val' l A') := by
        unfold Node.cl
        rw [contrib_congr h1 (ih' _ (hP nd (by simp))) h2]
      rw [this]
      exact addAll_at _ _ _ _ (ih' q hq)

theorem rate_sweep {s : St W} {g : Graph ℝ} {val adj : Nat → ℝ} (hi : Inv s g val adj)
    (hf : ∀ nd ∈ g.nodes, nd.Fits val) {v u : Var} (hv : g.Has v) (hu : g.Has u) :
    ∃ a : Nat → ℝ, (∀ nd ∈ g.nodes, a nd.pos = 0) ∧
      rate s v u = .ok (sweep val g.nodes (upd a (g.pos v) 1) (g.pos u)) := by
  obtain ⟨m, a, e1, i1, hz⟩ := hi.setZeroAllAdj_ok
  obtain ⟨m', e2, i2⟩ := i1.grad_ok hv hf
  refine ⟨a, hz, ?_⟩
  unfold rate partialOf
  rw [bind_ok e1, bind_ok e2, i2.varAdj hu]
  rfl

/-- **C73** (partial: the variables created before `x`, and `x` itself if it has no operands; missing: those computed
after `x` was created, of which the claim is false, see `C73_refuted`): `x = d` leaves the derivatives of these variables
with respect to all variables unchanged. -/
theorem C73_assign_partial (hr : Reach h c) {x v u : Var} (hx : x ∈ existing c.st) (hv : v ∈ existing c.st)
    (hu : u ∈ existing c.st) (hlt : v.vi < x.vi ∨ v = x ∧ ∃ w : View ℝ, seen c.st x = .ok w ∧ w.ops = []) {d a : ℝ}
    (ha : rate c.st v u = .ok a) :
    ∃ s', (x.assign d : M W Unit) c.st = .ok ((), s') ∧ existing s' = existing c.st ∧ rate s' v u = .ok a := by
  obtain ⟨g, val, adj, G⟩ := hr.good
  have hx' := (mem_existing G.inv).mp hx
  have hv' := (mem_existing G.inv).mp hv
  have hu' := (mem_existing G.inv).mp hu
  obtain ⟨e, i⟩ := assign_words G.inv hx' d
  refine ⟨_, e, rfl, ?_⟩
  have hf := rate_fits G.inv G.okf hv' ha
  obtain ⟨A, z, r⟩ := rate_sweep G.inv hf hv' hu'
  obtain ⟨A', z', r'⟩ := rate_sweep i (fun nd hnd => fits_any (hf nd hnd) _) hv' hu'
  rw [r', ← ha, r]
  refine congrArg Except.ok ?_
  have hvl : 1 ≤ v.vi ∧ v.vi ≤ g.nodes.length := hv'
  have hxl : 1 ≤ x.vi ∧ x.vi ≤ g.nodes.length := hx'
  have mono : ∀ {i j : Nat} (hi : i < g.nodes.length) (hj : j < g.nodes.length), i < j → g.nodes[i].pos < g.nodes[j].pos := by
    intro i j hi hj hij
    have := List.pairwise_iff_getElem.mp G.inv.wf.sorted i j hi hj hij
    simp only [Node.len] at this
    omega
  have pos : ∀ {y : Var} (hy : 1 ≤ y.vi ∧ y.vi ≤ g.nodes.length), g.pos y = (g.nodes[y.vi - 1]'(by omega)).pos := by
    intro y hy
    unfold Graph.pos
    rw [List.getElem?_eq_getElem (by omega)]
    rfl
  obtain ⟨n, hn1, hn2⟩ : ∃ n, v.vi ≤ n ∧ (n = x.vi - 1 ∨ n = x.vi ∧ (g.nodes[x.vi - 1]'(by omega)).args = []) := by
    rcases hlt with hlt | ⟨rfl, w, hw, ho⟩
    · exact ⟨x.vi - 1, by omega, .inl rfl⟩
    · refine ⟨v.vi, Nat.le_refl _, .inr ⟨rfl, ?_⟩⟩
      obtain ⟨nd, h1, h2⟩ := hx'.at
      rw [G.inv.seen h1] at hw
      cases hw
      have hnd : g.nodes[v.vi - 1]'(by omega) = nd := by
        have := h1.2
        rw [List.getElem?_eq_getElem (by omega)] at this
        exact Option.some.inj this
      rw [hnd]
      have hk := G.inv.wf.kinds nd h1.mem
      have ho' : nd.ops = [] := ho
      unfold KindOK at hk
      unfold Node.args
      split at hk <;> rename_i hkind
      · exact ho'
      all_goals
        obtain ⟨_, _, _, _, _, _, _, _, _, hops, -⟩ := hk
        rw [ho'] at hops
        cases hops
  have quiet : ∀ (f B : Nat → ℝ), (∀ nd ∈ g.nodes, B nd.pos = 0) →
      sweep f (g.nodes.drop n) (upd B (g.pos v) 1) = upd B (g.pos v) 1 := by
    intro f B hB
    refine sweep_zero f _ _ fun nd hnd => ?_
    obtain ⟨j, hj, rfl⟩ := List.mem_iff_getElem.mp hnd
    rw [List.length_drop] at hj
    rw [List.getElem_drop, upd_ne _ _ (by
      have := mono (i := v.vi - 1) (j := n + j) (by omega) (by omega) (by omega)
      rw [pos hvl]; omega)]
    exact hB _ (List.getElem_mem _)
  have cut : ∀ (f B : Nat → ℝ), sweep f g.nodes B = sweep f (g.nodes.take n) (sweep f (g.nodes.drop n) B) := by
    intro f B
    rw [← sweep_append, List.take_append_drop]
  rw [cut, cut, quiet _ _ z, quiet _ _ z']
  refine sweep_same (fun q => ∃ nd ∈ g.nodes, nd.pos = q) _ _ _ ?_ ?_ ?_ _ ?_
  · exact fun nd hnd => ⟨nd, List.mem_of_mem_take hnd, rfl⟩
  · intro nd hnd
    obtain ⟨j, hj, rfl⟩ := List.mem_iff_getElem.mp hnd
    rw [List.length_take] at hj
    rw [List.getElem_take]
    by_cases hjx : j = x.vi - 1
    · subst hjx
      rcases hn2 with hn2 | ⟨-, hn2⟩
      · omega
      · exact .inl hn2
    · have hm := mono (i := j) (j := x.vi - 1) (by omega) (by omega) (by omega)
      rw [← pos hxl] at hm
      refine .inr ⟨upd_ne _ _ (by omega), fun p hp => upd_ne _ _ ?_⟩
      have := (G.inv.wf.args _ (List.getElem_mem _) p hp).1
      omega
  · rintro q ⟨nd, hnd, rfl⟩
    by_cases hq : nd.pos = g.pos v
    · rw [hq, upd_self, upd_self]
    · rw [upd_ne _ _ hq, upd_ne _ _ hq, z nd hnd, z' nd hnd]
  · exact hu'.mem_pos

/-- after `x = 2; y = 3; f = x * y` and an assignment to one of the three: the sweep reads the new value of `y` -/
theorem demo_assigned (c : Client W) (H : Here c.st demoG demoV demoA 21 [] unused) {k : Nat} (hk : k < 3) (d : ℝ) :
    ∃ s', ((⟨k + 1⟩ : Var).assign d : M W Unit) c.st = .ok ((), s') ∧ existing s' = existing c.st ∧
      rate s' ⟨3⟩ ⟨1⟩ = .ok (if k = 1 then d else 3) := by
  have hh : ∀ k, k < 3 → demoG.Has ⟨k + 1⟩ := fun k hk => by simp [Graph.Has, demoG]; omega
  obtain ⟨e, i⟩ := assign_words H.inv (hh k hk) d
  refine ⟨_, e, rfl, ?_⟩
  obtain ⟨A, z, r⟩ := rate_sweep i (fun nd hnd => fits_any (demoFits nd hnd) _) (hh 2 (by omega)) (hh 0 (by omega))
  rw [r]
  have z1 := z ⟨1, [], [], .dummy, .plain⟩ (by simp [demoG])
  have z7 := z ⟨7, [], [], .dummy, .plain⟩ (by simp [demoG])
  simp only at z1 z7
  refine congrArg Except.ok ?_
  have : k = 0 ∨ k = 1 ∨ k = 2 := by omega
  rcases this with rfl | rfl | rfl <;>
    simp [sweep, demoG, Graph.pos, Node.args, Node.cl, Node.contrib, contribPlain, cBin, addAll, Arith.add, Arith.mul, demoV,
      upd, z1, z7]

/-- **C73**, the full claim is false of the code: `x = 2; y = 3; f = x * y`; the derivative of `f` with respect to `x` is
3, but after the assignment `y = 5` it is 5. -/
theorem C73_refuted : ∃ (h : List (Call ℝ)) (c : Client W) (s' : St W) (x v u : Var) (d a b : ℝ), Reach h c ∧
    x ∈ existing c.st ∧ v ∈ existing c.st ∧ u ∈ existing c.st ∧ rate c.st v u = .ok a ∧
    (x.assign d : M W Unit) c.st = .ok ((), s') ∧ rate s' v u = .ok b ∧ a ≠ b := by
  obtain ⟨c', hr', -, hex, -, -, -, hb⟩ := demo_rates (W := W)
  obtain ⟨c, hr, -, -, H⟩ := demo_here (W := W)
  obtain rfl : c = c' := by
    have := hr.2.symm.trans hr'.2
    exact Except.ok.inj this
  obtain ⟨s', e, -, r⟩ := demo_assigned c H (k := 1) (by omega) 5
  refine ⟨demo, c, s', ⟨2⟩, ⟨3⟩, ⟨1⟩, 5, 3, 5, hr, by simp [hex], by simp [hex], by simp [hex], ?_, e, by simpa using r,
    by norm_num⟩
  rw [hb ⟨3⟩ (by simp [hex])]
  simp [demoB]

/-- C73 and C72 apply: after `x = 2; y = 3; f = x * y` the derivatives of `x` and of `y` are not changed by `f = 7`;
a variable declared and assigned reads the value; the variables may be assigned in any order. -/
example : ∃ c : Client W, Reach demo c ∧ (∃ s', ((⟨3⟩ : Var).assign (7 : ℝ) : M W Unit) c.st = .ok ((), s') ∧
      rate s' ⟨1⟩ ⟨1⟩ = .ok (1 : ℝ) ∧ rate s' ⟨2⟩ ⟨1⟩ = .ok (0 : ℝ)) ∧
    (∃ s', ((⟨1⟩ : Var).assign (7 : ℝ) : M W Unit) c.st = .ok ((), s') ∧ rate s' ⟨1⟩ ⟨1⟩ = .ok (1 : ℝ)) ∧
    (∃ s', (do let v ← newVar0 (R := ℝ); v.assign (4 : ℝ); v.val : M W ℝ) c.st = .ok (4, s')) ∧
    (do (⟨1⟩ : Var).assign (4 : ℝ); (⟨2⟩ : Var).assign (5 : ℝ) : M W Unit) c.st =
      (do (⟨2⟩ : Var).assign (5 : ℝ); (⟨1⟩ : Var).assign (4 : ℝ) : M W Unit) c.st := by
  obtain ⟨c, hr, hh, hex, -, -, -, hb⟩ := demo_rates (W := W)
  have r1 : rate c.st ⟨1⟩ ⟨1⟩ = .ok (1 : ℝ) := by rw [hb _ (by simp [hex])]; simp [demoB]
  have r2 : rate c.st ⟨2⟩ ⟨1⟩ = .ok (0 : ℝ) := by rw [hb _ (by simp [hex])]; simp [demoB]
  refine ⟨c, hr, ?_, ?_, ?_, ?_⟩
  · obtain ⟨s', e, -, h1⟩ := C73_assign_partial hr (x := ⟨3⟩) (v := ⟨1⟩) (u := ⟨1⟩) (d := 7) (by simp [hex]) (by simp [hex])
      (by simp [hex]) (.inl (by simp)) r1
    obtain ⟨s'', e', -, h2⟩ := C73_assign_partial hr (x := ⟨3⟩) (v := ⟨2⟩) (u := ⟨1⟩) (d := 7) (by simp [hex]) (by simp [hex])
      (by simp [hex]) (.inl (by simp)) r2
    rw [e] at e'
    cases e'
    exact ⟨s', e, h1, h2⟩
  · obtain ⟨c', hr', -, -, H⟩ := demo_here (W := W)
    obtain rfl : c' = c := Except.ok.inj (hr'.2.symm.trans hr.2)
    have hat : demoG.At ⟨1⟩ ⟨1, [], [], .dummy, .plain⟩ := ⟨by simp, by simp [demoG]⟩
    obtain ⟨s', e, -, h1⟩ := C73_assign_partial hr (x := ⟨1⟩) (v := ⟨1⟩) (u := ⟨1⟩) (d := 7) (by simp [hex]) (by simp [hex])
      (by simp [hex]) (.inr ⟨rfl, _, H.inv.seen hat, rfl⟩) r1
    exact ⟨s', e, h1⟩
  · obtain ⟨g, val, adj, G⟩ := hr.good
    obtain ⟨s1, e1, gr⟩ := G.inv.newVar_ok (4 : ℝ) (by rw [hh]; simp [cap])
    refine ⟨s1, ?_⟩
    rw [C72_scalar hr (4 : ℝ) fun v => v.val, bind_ok e1, G.inv.vhead, gr.inv.varVal (g.has_last _), g.pos_last, upd_self]
  · have := C72_swap hr (v := ⟨1⟩) (w := ⟨2⟩) (by simp [hex]) (by simp [hex]) (by simp) (4 : ℝ) (5 : ℝ) (pure ())
    simpa using this

end real
end Props
