import Verif.Proof.OdeRun

/-!
# Sensitivity right-hand sides: calls that complete; results do not depend on earlier contents
-/

set_option linter.unusedSectionVars false

namespace Fz
open Arith Spec

section generic
variable {W R : Type} [Arith R] [Rep W R]

/-- the two arrays of vectors agree in the components below `k` of vectors below `ns` -/
def Same (ns k : Nat) (o o' : Nat → Nat → R) : Prop := ∀ j < ns, ∀ i < k, o j i = o' j i

/-- two computations with the same effect and related results -/
def Alike {α : Type} (Q : α → α → Prop) (m m' : M W α) : Prop :=
  ∀ s, (∃ e, m s = .error e ∧ m' s = .error e) ∨ ∃ a a' s', m s = .ok (a, s') ∧ m' s = .ok (a', s') ∧ Q a a'

theorem Alike.pure {α : Type} {Q : α → α → Prop} {a a' : α} (h : Q a a') :
    Alike (W := W) Q (pure a) (pure a') := fun s => Or.inr ⟨a, a', s, rfl, rfl, h⟩

theorem Alike.bind {α β : Type} {Q : α → α → Prop} {Q' : β → β → Prop} {m m' : M W α} {f f' : α → M W β}
    (h : Alike Q m m') (hf : ∀ a a', Q a a' → Alike Q' (f a) (f' a')) : Alike Q' (m >>= f) (m' >>= f') := by
  intro s
  rcases h s with ⟨e, h1, h2⟩ | ⟨a, a', s', h1, h2, hq⟩
  · exact Or.inl ⟨e, bind_err h1, bind_err h2⟩
  · rw [bind_ok h1, bind_ok h2]; exact hf a a' hq s'

theorem Alike.refl {α : Type} (m : M W α) : Alike Eq m m := by
  intro s
  cases e : m s with
  | error e' => exact Or.inl ⟨e', rfl, rfl⟩
  | ok q => exact Or.inr ⟨q.1, q.1, q.2, rfl, rfl, rfl⟩

/-- agree below row `i` and, in row `i`, for the vectors in `done` -/
def SameUpTo (ns i : Nat) (done : Nat → Prop) (o o' : Nat → Nat → R) : Prop :=
  (∀ j < ns, ∀ k < i, o j k = o' j k) ∧ ∀ j, done j → o j i = o' j i

theorem put_same {ns i : Nat} {d : Nat → Prop} {o o' : Nat → Nat → R} (h : SameUpTo ns i d o o') (j : Nat) {x x' : R}
    (hx : x = x') : SameUpTo ns i (fun j' => d j' ∨ j' = j) (put o j i x) (put o' j i x') := by
  subst hx
  refine ⟨fun j' hj k hk => ?_, fun j' hj => ?_⟩
  · have := h.1 j' hj k hk
    unfold put
    split <;> simp_all
  · unfold put
    by_cases hjj : j' = j
    · simp [hjj]
    · rw [if_neg (by simp [hjj]), if_neg (by simp [hjj])]
      exact h.2 j' (hj.resolve_right hjj)

theorem sensDots_same (yvar : List Var) (yS : List (List R)) (ns i : Nat) : ∀ (js : List Nat) (d : Nat → Prop)
    (o o' : Nat → Nat → R), SameUpTo ns i d o o' →
    Alike (W := W) (SameUpTo ns i fun j => d j ∨ j ∈ js) (sensDots yvar yS i js o) (sensDots yvar yS i js o') := by
  intro js
  induction js with
  | nil => intro d o o' h; exact Alike.pure (by simpa using h)
  | cons j js ih =>
    intro d o o' h
    unfold sensDots
    refine (Alike.refl _).bind ?_
    rintro v _ rfl
    refine (Alike.refl _).bind ?_
    rintro a _ rfl
    refine (Alike.refl _).bind ?_
    rintro v' _ rfl
    have := ih _ _ _ (put_same h j (x := fdot a v') rfl)
    simpa [or_assoc] using this

theorem sensPars_same (pvar : List Var) (off ns i : Nat) : ∀ (js : List Nat) (o o' : Nat → Nat → R),
    (∀ j ∈ js, off + j < ns) → SameUpTo ns i (fun j => j < ns) o o' →
    Alike (W := W) (SameUpTo ns i fun j => j < ns) (sensPars pvar off i js o) (sensPars pvar off i js o') := by
  intro js
  induction js with
  | nil => intro o o' _ h; exact Alike.pure h
  | cons j js ih =>
    intro o o' hj h
    unfold sensPars
    refine (Alike.refl _).bind ?_
    rintro v _ rfl
    refine (Alike.refl _).bind ?_
    rintro a _ rfl
    refine ih _ _ (fun l hl => hj l (by simp [hl])) ?_
    have h0 := hj j (by simp)
    have := put_same h (off + j) (x := o (off + j) i +. a) (x' := o' (off + j) i +. a) (by rw [h.2 _ h0])
    exact ⟨this.1, fun j' hj' => this.2 j' (Or.inl hj')⟩

theorem sensRows_same (yvar pvar : List Var) (yS : List (List R)) (ns m : Nat) (hm : m ≤ ns) (par : Bool) :
    ∀ (fvs : List Var) (i : Nat) (o o' : Nat → Nat → R), Same ns i o o' →
    Alike (W := W) (Same ns (i + fvs.length)) (sensRows yvar pvar yS ns m par i fvs o)
      (sensRows yvar pvar yS ns m par i fvs o') := by
  intro fvs
  induction fvs with
  | nil => intro i o o' h; exact Alike.pure h
  | cons fv fvs ih =>
    intro i o o' h
    unfold sensRows
    refine (Alike.refl _).bind fun _ _ _ => ?_
    refine (sensDots_same yvar yS ns i (List.range ns) (fun _ => False) o o' ⟨h, by simp⟩).bind ?_
    intro o1 o1' h1
    have h1' : SameUpTo ns i (fun j => j < ns) o1 o1' := ⟨h1.1, fun j hj => h1.2 j (by simpa using hj)⟩
    have h2 : Alike (W := W) (SameUpTo ns i fun j => j < ns)
        (if par then sensPars pvar (ns - m) i (List.range m) o1 else pure o1)
        (if par then sensPars pvar (ns - m) i (List.range m) o1' else pure o1') := by
      cases par with
      | false => exact Alike.pure h1'
      | true =>
        exact sensPars_same pvar _ ns i _ _ _ (fun j hj => by
          have := List.mem_range.mp hj
          omega) h1'
    refine h2.bind fun o2 o2' h3 => ?_
    refine (Alike.refl _).bind fun _ _ _ => ?_
    have := ih (i + 1) o2 o2' (fun j hj k hk => by
      by_cases hki : k = i
      · subst hki; exact h3.2 j hj
      · exact h3.1 j hj k (by omega))
    rw [List.length_cons, show i + (fvs.length + 1) = i + 1 + fvs.length by omega]
    exact this

theorem setSensRhs_same (ode : CvsRhs W R) (t : R) (y : List R) (yS : List (List R)) (o o' : Nat → Nat → R) :
    Alike (W := W) (Same ode.ns y.length) (setSensRhs ode t y yS o) (setSensRhs ode t y yS o') := by
  unfold setSensRhs
  refine (Alike.refl _).bind fun _ _ _ => ?_
  refine (Alike.refl _).bind ?_
  rintro yv _ rfl
  refine (Alike.refl _).bind ?_
  rintro fv _ rfl
  refine (Alike.refl _).bind ?_
  rintro ⟨pv, fv'⟩ _ rfl
  intro s
  by_cases hl : fv'.length = y.length
  · have hc : (confN y.length fv' : M W (List Var)) = pure fv' := by unfold confN; rw [if_pos hl]
    simp only [hc, pure_bind]
    refine Alike.bind (sensRows_same yv pv yS ode.ns _ (by split <;> omega) _ fv' 0 o o'
      (fun _ _ _ h => by omega)) ?_ s
    intro o1 o1' h1
    refine (Alike.refl _).bind fun _ _ _ => Alike.pure ?_
    rw [Nat.zero_add, hl] at h1
    exact h1
  · refine Or.inl ⟨.nonconf, ?_, ?_⟩
    · exact bind_err (by unfold confN; rw [if_neg hl]; rfl)
    · exact bind_err (by unfold confN; rw [if_neg hl]; rfl)

end generic

variable {W : Type} [Rep W ℝ] [LawfulRep W ℝ] {lf : Prop}
variable {s s' t t' : St W} {g g' : Graph ℝ} {val adj val' adj' : Nat → ℝ}
variable {x ys : List ℝ} {p : Prog} {D' ε' : Nat → (Fin x.length → ℝ) →L[ℝ] ℝ} {xv outs : List Var}

section rows
variable {yvar pvar : List Var} {yS : List (List ℝ)}

theorem sensDots_total (h : Inv t g' val' adj') (hy : ∀ v ∈ yvar, g'.Has v) (i : Nat) :
    ∀ (js : List Nat) (out : Nat → Nat → ℝ), (∀ j ∈ js, ∃ v, yS[j]? = some v ∧ v.length = yvar.length) →
    ∃ out', (sensDots yvar yS i js out : M W (Nat → Nat → ℝ)) t = .ok (out', t) := by
  intro js
  induction js with
  | nil => intro out _; exact ⟨out, rfl⟩
  | cons j js ih =>
    intro out hS
    obtain ⟨v, hv, hl⟩ := hS j (by simp)
    have e1 : (deref yS[j]? : M W (List ℝ)) t = .ok (v, t) := by rw [hv]; rfl
    have e2 : (confN (yvar.map fun v => adj' (g'.pos v)).length v : M W (List ℝ)) t = .ok (v, t) := by
      unfold confN; rw [if_pos (by simpa using hl)]; rfl
    obtain ⟨out', e⟩ := ih (put out j i (fdot (yvar.map fun v => adj' (g'.pos v)) v)) fun l hl => hS l (by simp [hl])
    refine ⟨out', ?_⟩
    unfold sensDots
    rw [bind_ok e1, bind_ok (h.varAdjs hy), bind_ok e2, e]

theorem sensPars_total (h : Inv t g' val' adj') (hp : ∀ v ∈ pvar, g'.Has v) (off i : Nat) :
    ∀ (js : List Nat) (out : Nat → Nat → ℝ), (∀ j ∈ js, j < pvar.length) →
    ∃ out', (sensPars pvar off i js out : M W (Nat → Nat → ℝ)) t = .ok (out', t) := by
  intro js
  induction js with
  | nil => intro out _; exact ⟨out, rfl⟩
  | cons j js ih =>
    intro out hS
    have hj := hS j (by simp)
    have e1 : (deref pvar[j]? : M W Var) t = .ok (pvar[j], t) := by rw [List.getElem?_eq_getElem hj]; rfl
    obtain ⟨out', e⟩ := ih (put out (off + j) i (out (off + j) i +. adj' (g'.pos pvar[j]))) fun l hl => hS l (by simp [hl])
    refine ⟨out', ?_⟩
    unfold sensPars
    rw [bind_ok e1, bind_ok (h.varAdj (hp _ (List.getElem_mem hj))), e]

theorem sensRows_total (hle : g.nodes.length ≤ g'.nodes.length)
    (hsep : ∀ nd ∈ g.nodes, ∀ nd' ∈ g'.nodes.drop g.nodes.length, nd'.pos ≠ nd.pos)
    (hf : ∀ nd ∈ g'.nodes, nd.Fits val') (hy : ∀ v ∈ yvar, g'.Has v) (hp : ∀ v ∈ pvar, g'.Has v)
    {ns m : Nat} (hS : ∀ j < ns, ∃ v, yS[j]? = some v ∧ v.length = yvar.length) {par : Bool}
    (hm : par = true → m ≤ pvar.length) :
    ∀ (fvs : List Var) (i : Nat) {t : St W} {a : Nat → ℝ} (out : Nat → Nat → ℝ), (∀ v ∈ fvs, g'.Has v) →
    Inv t g' val' a → InRegion t g →
    ∃ out' mem a', (sensRows yvar pvar yS ns m par i fvs out : M W (Nat → Nat → ℝ)) t = .ok (out', t.withMem mem) ∧
      Inv (t.withMem mem) g' val' a' := by
  intro fvs
  induction fvs with
  | nil => intro i t a out _ h _; exact ⟨out, t.tape.mem, a, rfl, h⟩
  | cons fv fvs ih =>
    intro i t a out hfv h hr
    have hv := hfv fv (by simp)
    have hf' : ∀ nd ∈ g'.nodes.drop g.nodes.length, nd.Fits val' := fun nd hn => hf nd (List.mem_of_mem_drop hn)
    obtain ⟨m1, e1⟩ := gradNested_total h hv hr.pos hr.le hr.start hle hf'
    obtain ⟨-, m1', e1', i1⟩ := gradNested_run h (fun nd hn => Or.inr (hf nd hn)) hv hr.pos hr.le hr.start hle e1
    obtain ⟨o1, e2⟩ := sensDots_total (yS := yS) i1 hy i (List.range ns) out fun j hj => hS j (List.mem_range.mp hj)
    obtain ⟨o2, e3⟩ : ∃ o2, (if par then sensPars pvar (ns - m) i (List.range m) o1 else pure o1 : M W _)
        (t.withMem m1) = .ok (o2, t.withMem m1) := by
      cases par with
      | false => exact ⟨o1, rfl⟩
      | true => exact sensPars_total i1 hp _ i _ o1 fun j hj => lt_of_lt_of_le (List.mem_range.mp hj) (hm rfl)
    obtain ⟨m2, a2, e4, i2, -, -⟩ := zeroRegion_ok i1 hr.withMem hle hsep
    obtain ⟨out', mem, a', e5, i5⟩ := ih (i + 1) o2 (fun v hv => hfv v (by simp [hv])) i2 hr.withMem.withMem
    refine ⟨out', mem, a', ?_, i5⟩
    unfold sensRows
    rw [bind_ok e1, bind_ok e2, bind_ok e3, bind_ok e4, e5]
    rfl

end rows

theorem confN_ok {α : Type} {n : Nat} {l : List α} (h : l.length = n) (s : St W) :
    (confN n l : M W (List α)) s = .ok (l, s) := by
  unfold confN; rw [if_pos h]; rfl

theorem newVars_split {a b : List ℝ} {xv : List Var} (h : (newVars (a ++ b) : M W (List Var)) s = .ok (xv, s')) :
    ∃ va vb s1, xv = va ++ vb ∧ (newVars a : M W (List Var)) s = .ok (va, s1) ∧
      (newVars b : M W (List Var)) s1 = .ok (vb, s') := by
  rw [newVars_append] at h
  obtain ⟨va, s1, e1, k1⟩ := bind_inv h
  obtain ⟨vb, s2, e2, k2⟩ := bind_inv k1
  cases k2
  exact ⟨va, vb, s1, rfl, e1, e2⟩

theorem setSens_y_total {env : List Var} {P : ℝ → Prog} {u : ℝ} {y : List ℝ}
    (h : Fine s g val adj (2 * y.length) (P u).hasConst) (hl : s.level < maxNestedStack)
    (he : ∀ v ∈ env, g.Has v) (hys : ys = env.map fun v => val (g.pos v)) (f : ℝ → List ℝ → List ℝ)
    (hok : (P u).Ok (y ++ List.replicate y.length 0 ++ ys))
    (hroom : Room s (P u) (y ++ List.replicate y.length 0) ys)
    (hlen : ((P u).sem (y ++ List.replicate y.length 0 ++ ys)).length = y.length)
    (hn : NotFull s (6 * (2 * y.length) + (P u).cost (y ++ List.replicate y.length 0 ++ ys)))
    {S : List (List ℝ)} (hS : S.length = y.length) (hS' : ∀ v ∈ S, v.length = y.length) (out : Nat → Nat → ℝ) :
    ∃ out' t val' a, setSensRhs (newCvsRhsYvar true y.length f (odeY P env)) u y S out s = .ok (out', t) ∧
      Fine t g val' a (2 * y.length) False ∧ (∀ q < s.tape.head, val' q = val q) ∧
      ∀ k ≤ s.level, t.nestTape k = s.nestTape k ∧ t.nestVari k = s.nestVari k := by
  have hxl : (y ++ List.replicate y.length (0 : ℝ)).length = 2 * y.length := by simp; omega
  have h' : Fine s g val adj (y ++ List.replicate y.length (0 : ℝ)).length (P u).hasConst := hxl ▸ h
  obtain ⟨xv, outs, s1, s', f1, f2, g', val', adj', D', ε', r⟩ := ranC h.inv.begun he hys hok hroom
  obtain ⟨yv, fv, s0, rfl, e1, e2⟩ := newVars_split f1
  have hyl := newVars_len _ e1
  have hf := r.fine h'.begun
  have hx : ∀ v ∈ yv ++ fv, g'.Has v := fun v hv => by
    obtain ⟨k, hk, rfl⟩ := List.getElem_of_mem hv
    exact (r.xs k hk).1
  have hsep : ∀ nd ∈ g.nodes, ∀ nd' ∈ g'.nodes.drop g.nodes.length, nd'.pos ≠ nd.pos := fun nd hn nd' hn' => by
    have := (r.zero nd' hn').1
    have := h.inv.node_lt hn
    simp only [St.begun] at *
    omega
  obtain ⟨out', mem, a, e5, i5⟩ := sensRows_total (yvar := yv) (pvar := []) (yS := S) (ns := y.length) (m := 0)
    (par := false) r.pre.nodes.length_le hsep hf (fun v hv => hx v (by simp [hv])) (by simp) (fun j hj => by
      refine ⟨S[j]'(by omega), List.getElem?_eq_getElem (by omega), ?_⟩
      rw [hS' _ (List.getElem_mem _), hyl]) (fun h => nomatch h) outs 0 out
    (fun v hv => by
      obtain ⟨k, hk, rfl⟩ := List.getElem_of_mem hv
      exact (r.os k hk).has) r.sim.inv (sens_begun h.inv hl r.keep)
  obtain ⟨t, e6, hfine, -, -, -, hnest⟩ := r.endNested h' hl (by rw [hxl]; exact hn) i5
  refine ⟨out', t, val', a, ?_, hxl ▸ hfine, r.val, hnest⟩
  have e2' : (newVars (List.replicate y.length zero) : M W (List Var)) s0 = .ok (fv, s1) := e2
  have e3' : (odeY P env u yv fv : M W (List Var)) s1 = .ok (outs, s') := f2
  rw [setSensRhs_y _ _ _ _ _ _ _ rfl, bind_ok (begin_ok hl), bind_ok e1, bind_ok e2', bind_ok e3',
    bind_ok (confN_ok (by rw [r.len]; exact hlen) _), bind_ok e5, bind_ok e6]
  rfl

theorem setSens_p_total {env : List Var} {P : ℝ → Prog} {u : ℝ} {y q : List ℝ} (hq : q.length = 3)
    (h : Fine s g val adj (2 * y.length + 3) (P u).hasConst) (hl : s.level < maxNestedStack)
    (he : ∀ v ∈ env, g.Has v) (hys : ys = env.map fun v => val (g.pos v)) (f : ℝ → List ℝ → List ℝ)
    (hok : (P u).Ok (y ++ List.replicate y.length 0 ++ q ++ ys))
    (hroom : Room s (P u) (y ++ List.replicate y.length 0 ++ q) ys)
    (hlen : ((P u).sem (y ++ List.replicate y.length 0 ++ q ++ ys)).length = y.length)
    (hn : NotFull s (6 * (2 * y.length + 3) + (P u).cost (y ++ List.replicate y.length 0 ++ q ++ ys)))
    {b : Bool} {ns : Nat} (hns : ns = (if b then y.length else 0) + 3)
    {S : List (List ℝ)} (hS : S.length = ns) (hS' : ∀ v ∈ S, v.length = y.length) (out : Nat → Nat → ℝ) :
    ∃ out' t val' a, setSensRhs (newCvsRhsPvar b ns q f (odeP P env)) u y S out s = .ok (out', t) ∧
      Fine t g val' a (2 * y.length + 3) False ∧ (∀ q < s.tape.head, val' q = val q) ∧
      ∀ k ≤ s.level, t.nestTape k = s.nestTape k ∧ t.nestVari k = s.nestVari k := by
  have hxl : (y ++ List.replicate y.length (0 : ℝ) ++ q).length = 2 * y.length + 3 := by simp; omega
  have h' : Fine s g val adj (y ++ List.replicate y.length (0 : ℝ) ++ q).length (P u).hasConst := hxl ▸ h
  obtain ⟨xv, outs, s1, s', f1, f2, g', val', adj', D', ε', r⟩ := ranC h.inv.begun he hys hok hroom
  obtain ⟨xv', qv, s0', rfl, e12, e2q⟩ := newVars_split f1
  obtain ⟨yv, fv, s0, rfl, e1, e2⟩ := newVars_split e12
  have hyl := newVars_len _ e1
  have hql := newVars_len _ e2q
  have hf := r.fine h'.begun
  have hx : ∀ v ∈ yv ++ fv ++ qv, g'.Has v := fun v hv => by
    obtain ⟨k, hk, rfl⟩ := List.getElem_of_mem hv
    exact (r.xs k hk).1
  have hsep : ∀ nd ∈ g.nodes, ∀ nd' ∈ g'.nodes.drop g.nodes.length, nd'.pos ≠ nd.pos := fun nd hn nd' hn' => by
    have := (r.zero nd' hn').1
    have := h.inv.node_lt hn
    simp only [St.begun] at *
    omega
  obtain ⟨out', mem, a, e5, i5⟩ := sensRows_total (yvar := yv) (pvar := qv) (yS := S) (ns := ns)
    (m := if b then ns - y.length else ns)
    (par := true) r.pre.nodes.length_le hsep hf (fun v hv => hx v (by simp [hv])) (fun v hv => hx v (by simp [hv]))
    (fun j hj => by
      refine ⟨S[j]'(by omega), List.getElem?_eq_getElem (by omega), ?_⟩
      rw [hS' _ (List.getElem_mem _), hyl]) (fun _ => by cases b <;> simp_all) outs 0 out
    (fun v hv => by
      obtain ⟨k, hk, rfl⟩ := List.getElem_of_mem hv
      exact (r.os k hk).has) r.sim.inv (sens_begun h.inv hl r.keep)
  obtain ⟨t, e6, hfine, -, -, -, hnest⟩ := r.endNested h' hl (by rw [hxl]; exact hn) i5
  refine ⟨out', t, val', a, ?_, hxl ▸ hfine, r.val, hnest⟩
  have e2' : (newVars (List.replicate y.length zero) : M W (List Var)) s0 = .ok (fv, s0') := e2
  have e3' : (odeP P env u yv fv qv : M W (List Var)) s1 = .ok (outs, s') := f2
  have hb : ¬ (b = true ∧ ns = y.length) := by
    rintro ⟨rfl, h2⟩
    simp at hns
    omega
  rw [setSensRhs_p _ _ _ _ _ _ _ _ _ _ rfl hb, bind_ok (begin_ok hl), bind_ok e1, bind_ok e2', bind_ok e2q,
    bind_ok (confN_ok (by omega) _), bind_ok e3',
    bind_ok (confN_ok (by rw [r.len]; exact hlen) _), bind_ok e5, bind_ok e6]
  rfl

/-- with a number of parameters other than 3 the call never completes -/
theorem setSens_p_stuck {q : List ℝ} (hq : q.length ≠ 3) {f : ℝ → List ℝ → List ℝ}
    {fp : ℝ → List Var → List Var → List Var → M W (List Var)} {u : ℝ} {y : List ℝ} {b : Bool} {ns : Nat}
    (hb : ¬ (b = true ∧ ns = y.length)) {S : List (List ℝ)} {out : Nat → Nat → ℝ} :
    ∃ e, setSensRhs (newCvsRhsPvar b ns q f fp) u y S out s = .error e := by
  cases e : setSensRhs (newCvsRhsPvar b ns q f fp) u y S out s with
  | error e' => exact ⟨e', rfl⟩
  | ok r =>
    rw [setSensRhs_p _ _ _ _ _ _ _ _ _ _ rfl hb] at e
    obtain ⟨⟨⟩, s0, e0, k0⟩ := bind_inv e
    obtain ⟨yv, s1, e1, k1⟩ := bind_inv k0
    obtain ⟨fv, s2, e2, k2⟩ := bind_inv k1
    obtain ⟨qv, s2', e2', k3⟩ := bind_inv k2
    obtain ⟨qv', s2'', e2'', k4⟩ := bind_inv k3
    have := newVars_len _ e2'
    have := (confN_inv e2'').1
    omega

end Fz
