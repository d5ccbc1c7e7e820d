import Verif.Proof.OdeBook
import Verif.Proof.DeepLenient
import Verif.Spec.Plan

/-!
# Calls of `cvodes_sol` by the book
-/

set_option linter.unusedSectionVars false

namespace Fz
open Arith Spec

variable {W R : Type} [Arith R] [Rep W R] [LawfulRep W R]
variable {s s' t t' : St W} {g g' : Graph R} {val adj val' adj' : Nat → R} {c d : Client W} {e ops : List Var}
variable {T T' : Nat → Prop}

/-! ## the two models show the same -/

theorem Akin.seenG (hA : Akin T s t) (hi : Inv t g val adj) {v : Var} (hv : g.Has v) :
    Spec.seen (R := R) s v = Spec.seen t v := by
  obtain ⟨nd, h1, -⟩ := hv.at
  have h := hi.seen h1
  rw [h]
  unfold Spec.seen at h ⊢
  split at h
  · rename_i w t1 e
    cases h
    obtain ⟨s1, f1, -⟩ := blind_query _ _ _ _ _ hA e
    rw [f1]
  · cases h

theorem Akin.existingG (hA : Akin T s t) : Spec.existing s = Spec.existing t := by
  unfold Spec.existing
  rw [hA.vhead]

theorem Kept.akin (K : Kept R e t t') (hA : Akin T s t) (hA' : Akin T' s' t') (hi : Inv t g val adj)
    (hi' : Inv t' g' val' adj') : Kept R e s s' := by
  refine ⟨fun v hv => ?_, fun v hv => ?_⟩
  · rw [hA.existingG] at hv
    obtain ⟨h1, h2⟩ := K.keeps v hv
    rw [hA.seenG hi ((mem_existing hi).mp hv), hA'.seenG hi' ((mem_existing hi').mp h1), hA'.existingG]
    exact ⟨h1, h2⟩
  · rw [hA.existingG] at hv
    rw [hA.idx, hA'.idx, K.place v hv]

theorem Kept.same (hA : Akin T s t) (hi : Inv t g val adj) : Kept R e s s := by
  refine ⟨fun v hv => ⟨hv, ?_⟩, fun _ _ => rfl⟩
  rw [hA.existingG] at hv
  have hh := (mem_existing hi).mp hv
  obtain ⟨nd, h1, -⟩ := hh.at
  rw [hA.seenG hi hh, hi.seen h1]
  exact ⟨_, _, rfl, rfl, rfl, rfl, rfl, fun _ => rfl⟩

theorem record_akin (hA : Akin T s t) (hi : Inv t g val adj) {v : Var} (hv : v ∈ existing t) {x : R} {ds : List R}
    (h : IsRecord t ops v x ds) : IsRecord s ops v x ds := by
  unfold IsRecord at h ⊢
  rw [hA.seenG hi ((mem_existing hi).mp hv), h]
  simp only [hA.idx]

/-! ## the sensitivity right-hand side -/

/-- `set_sens_rhs` for a right-hand side given as a `Code` -/
def sensAll (f : Code R) (e : List Var) (y q : List R) (S : List (List R)) (ns m : Nat) (par : Bool)
    (out : Nat → Nat → R) : M W (Nat → Nat → R) := do
  beginNested
  let yv ← newVars y
  let fv ← newVars (List.replicate y.length zero)
  let pv ← newVars q
  let fv ← f.run (yv ++ fv ++ pv ++ e)
  let fv ← confN y.length fv
  let out ← sensRows yv pv S ns m par 0 fv out
  endNested
  pure out

/-- the same without checks -/
def sensAllL (J : Junk W R) (f : Code R) (e : List Var) (y q : List R) (S : List (List R)) (ns m : Nat) (par : Bool)
    (out : Nat → Nat → R) : M W (Nat → Nat → R) := do
  beginNested
  let yv ← newVars y
  let fv ← newVars (List.replicate y.length zero)
  let pv ← newVars q
  let fv ← f.run (yv ++ fv ++ pv ++ e)
  let fv ← confN y.length fv
  let out ← sensRowsL J yv pv S ns m par 0 fv out
  endNested
  pure out

theorem sensAll_y (F : R → Code R) (e : List Var) (f : R → List R → List R) (t : R) (y : List R) (S : List (List R))
    (out : Nat → Nat → R) : setSensRhs (newCvsRhsYvar true y.length f (Code.odeY F e)) t y S out =
      (sensAll (F t) e y [] S y.length 0 false out : M W _) := by
  rw [setSensRhs_y _ _ _ _ _ _ _ rfl]
  unfold sensAll Code.odeY
  simp only [newVars_nil, pure_bind, List.append_nil]

theorem sensAllL_y (J : Junk W R) (F : R → Code R) (e : List Var) (f : R → List R → List R) (t : R) (y : List R)
    (S : List (List R)) (out : Nat → Nat → R) : setSensRhsL J (newCvsRhsYvar true y.length f (Code.odeY F e)) t y S out =
      (sensAllL J (F t) e y [] S y.length 0 false out : M W _) := by
  rw [setSensRhsL_y _ _ _ _ _ _ _ _ rfl]
  unfold sensAllL Code.odeY
  simp only [newVars_nil, pure_bind, List.append_nil]

theorem confN_okG {α : Type} {n : Nat} {l : List α} (h : l.length = n) (s : St W) :
    (confN n l : M W (List α)) s = .ok (l, s) := by
  unfold confN; rw [if_pos h]; rfl

theorem newVars_conf {α : Type} {q : List R} {n : Nat} (h : q.length = n) (k : List Var → M W α) :
    (do let qv ← newVars q; let qv ← confN n qv; k qv : M W α) = (do let qv ← newVars q; k qv) := by
  funext s
  cases hq : (newVars q : M W (List Var)) s with
  | error e => rw [bind_err hq, bind_err hq]
  | ok r =>
    obtain ⟨qv, s1⟩ := r
    rw [bind_ok hq, bind_ok hq, bind_ok (confN_okG ((newVars_len q hq).trans h) s1)]

theorem sensAll_p (F : R → Code R) (e : List Var) (f : R → List R → List R) (t : R) (y q : List R) (hq : q.length = 3)
    (S : List (List R)) (out : Nat → Nat → R) : setSensRhs (newCvsRhsPvar false 3 q f (Code.odeP F e)) t y S out =
      (sensAll (F t) e y q S 3 3 true out : M W _) := by
  rw [setSensRhs_p _ _ _ _ _ _ _ _ _ _ rfl (by simp)]
  unfold sensAll Code.odeP
  simp only [newVars_conf hq]
  rfl

theorem sensAllL_p (J : Junk W R) (F : R → Code R) (e : List Var) (f : R → List R → List R) (t : R) (y q : List R)
    (hq : q.length = 3) (S : List (List R)) (out : Nat → Nat → R) :
    setSensRhsL J (newCvsRhsPvar false 3 q f (Code.odeP F e)) t y S out =
      (sensAllL J (F t) e y q S 3 3 true out : M W _) := by
  rw [setSensRhsL_p _ _ _ _ _ _ _ _ _ _ _ rfl (by simp)]
  unfold sensAllL Code.odeP
  simp only [newVars_conf hq]
  rfl

/-- inputs made in two steps -/
theorem newVars_parts {a b : List R} {xv : List Var} (h : (newVars (a ++ b) : M W (List Var)) s = .ok (xv, s')) :
    ∃ s1, (newVars a : M W (List Var)) s = .ok (xv.take a.length, s1) ∧
      (newVars b : M W (List Var)) s1 = .ok (xv.drop a.length, s') := by
  rw [newVars_append] at h
  obtain ⟨va, s1, e1, k1⟩ := bind_inv h
  obtain ⟨vb, s2, e2, k2⟩ := bind_inv k1
  cases k2
  have hl := newVars_len a e1
  exact ⟨s1, by rw [← hl, List.take_left]; exact e1, by rw [← hl, List.drop_left]; exact e2⟩

theorem Began.nonempty {x ys : List R} {e xv outs : List Var} {words : Nat}
    (b : Began c g val adj x.length xv outs words s' g' val' adj') (hy : ValL ys e g val) (hx : x ++ ys ≠ []) :
    g'.nodes ≠ [] := by
  intro h0
  cases x with
  | cons x0 x =>
    obtain ⟨nd, h1, -⟩ := b.leaves 0 (by simp)
    rw [h0] at h1
    simp at h1
  | nil =>
    cases hy with
    | nil => exact hx rfl
    | cons h1 _ =>
      have h2 := b.pre.length_le
      rw [h0] at h2
      have h3 := h1.has.1
      have h4 := h1.has.2
      simp at h2
      rw [h2] at h4
      simp at h4
      omega

/-- one evaluation -/
theorem Shadow.sens (hc : Commutes R) (h : Shadow c d g val adj) (hl : d.st.level < maxNestedStack) {ys : List R}
    (hy : ValL ys e g val) {f : Code R} {y q : List R} {S : List (List R)} {n ns m : Nat} {par : Bool}
    (hok : f.Callable ys q n ns d.st.tape.head y S) (hm : par = true → m = ns ∧ m ≤ q.length) (out : Nat → Nat → R) :
    ∃ out' s' t' g' val' adj', (∀ J : Junk W R, (sensAllL J f e y q S ns m par out : M W _) c.st = .ok (out', s')) ∧
      (sensAll f e y q S ns m par out : M W _) d.st = .ok (out', t') ∧
      vecs ns y.length out' = ((List.range ns).map fun j => (f.rows ys y q).map fun row => entryOf par y.length S row j) ∧
      Akin (fun k => base d ≤ k) s' t' ∧
      Back d g val (rhsInputs y q).length (6 * (rhsInputs y q).length + f.words (rhsInputs y q ++ ys)) t' g' val' adj' := by
  obtain ⟨rfl, rfl, hS, ⟨hs, hp, hr, hmt, hx, hn, hroom, hfull⟩, hnp⟩ := hok
  have G := h.sound.good
  obtain ⟨s0, t0, xv, s1, t1, outs, s2, t2, g2, val2, adj2, ⟨e0, e0'⟩, ⟨e1, e1'⟩, ⟨e2, e2'⟩, e3, b, A2⟩ :=
    h.began hc hl hy hs hp hr hmt hnp hroom
  obtain ⟨b1, ht⟩ := booked_start (Z := True) G e0'
  obtain ⟨g3, val3, adj3, ext, b2, ho, xs, hxs, hrf⟩ := writes_steps hc hs hp hr b1 (env_nums hy) e1' e2'
  have hlx := newVars_len _ e1
  have hlx' : xv.length = y.length + y.length + q.length := by rw [hlx]; simp [rhsInputs]; omega
  unfold rhsInputs at e1 e1'
  obtain ⟨s01, f12, f3⟩ := newVars_parts e1
  obtain ⟨s02, f1, f2⟩ := newVars_parts f12
  obtain ⟨t01, f12', f3'⟩ := newVars_parts e1'
  obtain ⟨t02, f1', f2'⟩ := newVars_parts f12'
  simp only [List.length_append, List.length_replicate] at f1 f2 f3 f1' f2' f3'
  generalize hyv : (xv.take (y.length + y.length)).take y.length = yv at f1 f1'
  generalize hfv : (xv.take (y.length + y.length)).drop y.length = fv at f2 f2'
  generalize hpv : xv.drop (y.length + y.length) = pv at f3 f3'
  have hxe : xv = yv ++ fv ++ pv := by rw [← hyv, ← hfv, ← hpv, List.take_append_drop, List.take_append_drop]
  have hyl : yv.length = y.length := by rw [← hyv]; simp; omega
  have hfl : fv.length = y.length := by rw [← hfv]; simp; omega
  have hpl : pv.length = q.length := by rw [← hpv]; simp; omega
  have hov : outs.length = y.length := by
    have ho : ∀ v ∈ outs, g2.Has v := fun v hv => b.good.has v (by simp [hv])
    rw [hn]
    have h1 := b.good.inv.varVals ho
    obtain ⟨s9, h2, -⟩ := blind_vals _ _ _ _ _ A2 h1
    rw [e3] at h2
    injection h2 with h2
    injection h2 with h2
    rw [h2]
    simp
  have hS' : ∀ j < S.length, ∃ v, S[j]? = some v ∧ v.length = yv.length := fun j hj =>
    ⟨S[j], List.getElem?_eq_getElem hj, by rw [hyl]; exact hS _ (List.getElem_mem hj)⟩
  have hm' : par = true → m = S.length ∧ m ≤ pv.length := by rw [hpl]; exact hm
  have hhas : ∀ v ∈ xv, g2.Has v := fun v hv => b.good.has v (by simp [hv])
  obtain ⟨out', mem, a, s3, p4, q4, A3, i3⟩ := sensRowsL_any b.fits (yv := yv) (pv := pv)
    (fun v hv => hhas v (by simp [hxe, hv])) (fun v hv => hhas v (by simp [hxe, hv])) b.pre.length_le hS' hm' outs 0 out A2
    b.good.inv (by rw [b.lvl]; omega) (by rw [b.lvl]; omega) b.nv (fun v hv => b.good.has v (by simp [hv]))
  rw [hxe] at hxs
  have hbk := book_sensRows b2 hxs hrf (by omega) hS' hm' ho b2.inv (ht.keep ext.keep) (b2.zero trivial) q4
  have h1 : 1 < d.st.tape.head + (6 * (rhsInputs y q).length + f.words (rhsInputs y q ++ ys)) := by
    rw [← b.head]
    exact b.good.inv.head_gt (b.nonempty hy hx)
  obtain ⟨t4, g4, q5, B⟩ := b.done i3 hfull h1
  obtain ⟨s4, p5, A4⟩ := blind_end _ _ _ _ A3 q5
  refine ⟨out', s4, t4, g4, val2, a, fun J => ?_, ?_, ?_, A4, B⟩
  · unfold sensAllL
    rw [bind_ok e0, bind_ok f1, bind_ok f2, bind_ok f3, ← hxe, bind_ok e2, bind_ok (confN_okG hov _), bind_ok (p4 J),
      bind_ok p5]
    rfl
  · unfold sensAll
    rw [bind_ok e0', bind_ok f1', bind_ok f2', bind_ok f3', ← hxe, bind_ok e2', bind_ok (confN_okG hov _), bind_ok q4,
      bind_ok q5]
    rfl
  · have hlo : ((f.steps ys (rhsInputs y q) []).1).length = y.length := by rw [← hov]; exact ho.length_eq
    unfold vecs Code.rows Code.bookJacobian
    refine List.map_congr_left fun j hj => ?_
    have hj' := List.mem_range.mp hj
    apply List.ext_getElem
    · simp [hlo]
    · intro i h2 h3
      have hi : i < (f.steps ys (rhsInputs y q) []).1.length := by simp at h2; omega
      have := hbk.2.1 j hj' i hi
      rw [Nat.zero_add] at this
      simp only [List.getElem_map, List.getElem_range]
      rw [this, hyl]

/-- the records of the caller are still there after an evaluation -/
theorem sensAll_left (hc : Commutes R) (G : Good c g val adj) {ys : List R} (hy : ValL ys e g val) {f : Code R}
    (hs : f.Sane) (hp : f.Plain) (hr : f.Regular) {y q : List R} {S : List (List R)} {ns m : Nat} {par : Bool}
    (hSl : S.length = ns) (hS : ∀ v ∈ S, v.length = y.length) (hm : par = true → m = ns ∧ m ≤ q.length)
    {out out' : Nat → Nat → R} (h : (sensAll f e y q S ns m par out : M W _) c.st = .ok (out', s')) :
    ∃ g' val' adj', Left c g val s' g' val' adj' := by
  unfold sensAll at h
  obtain ⟨_, s1, e1, h1⟩ := bind_inv h
  obtain ⟨yv, s2, e2, h2⟩ := bind_inv h1
  obtain ⟨fv, s3, e3, h3⟩ := bind_inv h2
  obtain ⟨pv, s4, e4, h4⟩ := bind_inv h3
  obtain ⟨ov, s5, e5, h5⟩ := bind_inv h4
  obtain ⟨ov', s6, e6, h6⟩ := bind_inv h5
  obtain ⟨out1, s7, e7, h7⟩ := bind_inv h6
  obtain ⟨_, s8, e8, h8⟩ := bind_inv h7
  cases h8
  have : ov' = ov ∧ s6 = s5 := by
    unfold confN at e6
    split at e6
    · cases e6; exact ⟨rfl, rfl⟩
    · cases e6
  obtain ⟨rfl, rfl⟩ := this
  have hx : (newVars (rhsInputs y q) : M W (List Var)) s1 = .ok (yv ++ fv ++ pv, s4) := by
    unfold rhsInputs
    rw [newVars_append, newVars_append]
    have : (do let va ← newVars y; let vb ← newVars (List.replicate y.length (zero : R)); pure (va ++ vb) : M W (List Var)) s1 =
        .ok (yv ++ fv, s3) := by rw [bind_ok e2, bind_ok e3]; rfl
    rw [bind_ok this, bind_ok e4]
    rfl
  obtain ⟨G1, ht, hta, hl, hn, ho⟩ := G.opened e1
  obtain ⟨b1, -⟩ := booked_start (Z := True) G e1
  obtain ⟨g2, val2, adj2, x2, b2, q2, xs, hxs, hrf⟩ := writes_steps hc hs hp hr b1 (env_nums hy) hx e5
  have hyl := newVars_len _ e2
  have hfl := newVars_len _ e3
  have hpl := newVars_len _ e4
  rw [List.length_replicate] at hfl
  have hS' : ∀ j < ns, ∃ v, S[j]? = some v ∧ v.length = yv.length := fun j hj =>
    ⟨S[j]'(by omega), List.getElem?_eq_getElem (by omega), by rw [hyl]; exact hS _ (List.getElem_mem _)⟩
  have ht2 := ht.keep x2.keep
  obtain ⟨-, -, mem, adj3, rfl, i3⟩ := book_sensRows b2 hxs hrf (by omega) hS' (by rw [hpl]; exact hm) q2 b2.inv ht2
    (b2.zero trivial) e7
  have G2 := (G1.ofExt x2 b2.inv b2.cok (vs := []) (by simp)).upd i3
  have A := x2.adds
  obtain ⟨g6, L⟩ := left_of (c := c) A.nodes (fun p hp => A.val p (by rw [hta]; exact hp)) G2 (ht2.mem mem)
    (by show s6.level = _; rw [A.steady.level, hl]) (by
      show s6.nestTape s6.level = _
      rw [A.steady.level, A.steady.nt _ (Nat.le_refl _), hn]) (fun k hk => by
      show s6.nestVari k = _ ∧ s6.nestTape k = _
      rw [A.steady.nv k (by omega), A.steady.nt k (by omega)]
      exact ho k hk) e8
  exact ⟨g6, _, _, L⟩

/-- From `d` to `d'` no record is added or lost, and no value changed; nor an adjoint, if `e` is empty. -/
def Passes (R : Type) [Arith R] [Rep W R] [LawfulRep W R] (e : List Var) (d d' : Client W) : Prop :=
  d'.env = d.env ∧ d'.marks = d.marks ∧ ∀ ⦃g : Graph R⦄ ⦃val adj : Nat → R⦄, Good d g val adj →
    ∃ (g' : Graph R) (val' adj' : Nat → R), Left d g val d'.st g' val' adj' ∧ (e = [] → ∀ nd ∈ g.nodes, adj' nd.pos = adj nd.pos)

theorem Passes.refl : Passes R e d d :=
  ⟨rfl, rfl, fun g val adj G => ⟨g, val, adj, ⟨G, rfl, Adds.refl⟩, fun _ _ _ => rfl⟩⟩

theorem Passes.trans {d1 d2 : Client W} (a : Passes R e d d1) (b : Passes R e d1 d2) : Passes R e d d2 := by
  refine ⟨b.1.trans a.1, b.2.1.trans a.2.1, fun g val adj G => ?_⟩
  obtain ⟨g1, val1, adj1, L1, z1⟩ := a.2.2 G
  have hd : d1 = ⟨d1.st, d.env, d.marks⟩ := by rw [← a.1, ← a.2.1]
  obtain ⟨g2, val2, adj2, L2, z2⟩ := b.2.2 (by rw [hd]; exact L1.good)
  refine ⟨g2, val2, adj2, ⟨by rw [← a.1, ← a.2.1]; exact L2.good, L2.nodes.trans L1.nodes, L1.adds.trans L2.adds⟩, fun h nd hn => ?_⟩
  rw [z2 h nd (by rw [L1.nodes]; exact hn), z1 h nd hn]

/-- adjoints are kept when nothing is used -/
theorem Kept.adjoints (K : Kept R [] s s') (hi : Inv s g val adj) (hi' : Inv s' g' val' adj') (hn : g'.nodes = g.nodes) :
    ∀ nd ∈ g.nodes, adj' nd.pos = adj nd.pos := by
  intro nd hm
  obtain ⟨k, hk, rfl⟩ := List.getElem_of_mem hm
  have h1 : g.At ⟨k + 1⟩ g.nodes[k] := ⟨by simp, by simp [hk]⟩
  have h2 : g'.At ⟨k + 1⟩ g.nodes[k] := ⟨by simp, by simp [hn, hk]⟩
  have hh : g.Has ⟨k + 1⟩ := ⟨by simp, by simp only; omega⟩
  obtain ⟨-, w, w', a1, a2, -, -, -, a3⟩ := K.keeps ⟨k + 1⟩ ((mem_existing hi).mpr hh)
  rw [hi.seen h1] at a1
  rw [hi'.seen h2] at a2
  cases a1
  cases a2
  exact a3 (by simp)

/-- The library's answers to questions about the sensitivities: where `ok` holds, the numbers `sens`. -/
def Serves (e : List Var) (ys : List R) (ode : CvsRhs W R) (sens : R → List R → List (List R) → List (List R))
    (ok : Nat → R → List R → List (List R) → Prop) : Prop :=
  ∀ ⦃c d : Client W⦄ ⦃g : Graph R⦄ ⦃val adj : Nat → R⦄ ⦃t : R⦄ ⦃y : List R⦄ ⦃S : List (List R)⦄, Shadow c d g val adj →
    c.marks.length < 10 → (∀ v ∈ e, v ∈ c.env) → ValL ys e g val → ok c.st.tape.head t y S →
    ∃ out' s', (∀ J : Junk W R, setSensRhsL J ode t y S (fun _ _ => zero) c.st = .ok (out', s')) ∧
      vecs ode.ns y.length out' = sens t y S ∧ Kept R e c.st s' ∧ s'.tape.head = c.st.tape.head ∧
      ∃ (d' : Client W) (g' : Graph R) (val' adj' : Nat → R), Shadow ⟨s', c.env, c.marks⟩ d' g' val' adj' ∧
        ValL ys e g' val' ∧ Passes R e d d'

theorem serves {ys : List R} {F : R → Code R} {ode : CvsRhs W R} (hc : Commutes R) {q : List R}
    {n m : Nat} {par : Bool}
    (hm : par = true → m = ode.ns ∧ m ≤ q.length) {sens : R → List R → List (List R) → List (List R)}
    (h1 : ∀ t, (F t).Sane → ∃ ode' : CvsRhs W R, Replays e ode' ∧
      ∀ y S out, y.length = n → setSensRhs ode' t y S out = sensAll (F t) e y q S ode.ns m par out)
    (h2 : ∀ (J : Junk W R) t y S out, y.length = n → setSensRhsL J ode t y S out = sensAllL J (F t) e y q S ode.ns m par out)
    (h3 : ∀ t y S, S.length = ode.ns → sens t y S =
      (List.range ode.ns).map fun j => ((F t).rows ys y q).map fun row => entryOf par y.length S row j) :
    Serves e ys ode sens fun hd t => (F t).Callable ys q n ode.ns hd := by
  intro c d g val adj t y S hS hl he hy hok
  have G := hS.sound.good
  have hl' : d.st.level < maxNestedStack := by rw [G.lvl, hS.marks]; exact hl
  rw [hS.alike.tape] at hok
  obtain ⟨out', s', t', g', val', adj', a1, a2, a3, a4, a5⟩ := hS.sens hc hl' hy hok hm fun _ _ => zero
  obtain ⟨ode', hrep, h1⟩ := h1 t hok.2.2.2.1.1
  have a2' := a2
  rw [← h1 _ _ _ hok.1] at a2
  obtain ⟨-, -, -, K⟩ := sens_run G hrep (by rw [hS.env]; exact he) a2
  refine ⟨out', s', fun J => by rw [h2 J _ _ _ _ hok.1, a1 J], ?_, K.akin hS.alike a4 G.inv a5.good.inv, ?_, _, _, _, _,
    hS.back a5 a4, a5.valL G.inv hy, rfl, rfl, fun gb vb ab Gb => ?_⟩
  · rw [a3, h3 _ _ _ hok.2.1]
  · rw [a4.tape, a5.head, hS.alike.tape]
  · have hyb : ValL ys e gb vb :=
      ValL.ofRead Gb.inv (fun v hv => Gb.has v (by rw [hS.env]; exact he v hv)) (hy.read G.inv)
    have hs := hok.2.2.2.1
    obtain ⟨g1, val1, adj1, L⟩ := sensAll_left hc Gb hyb hs.1 hs.2.1 hs.2.2.1 hok.2.1
      (by rw [hok.1]; exact hok.2.2.1) hm a2'
    refine ⟨g1, val1, adj1, L.scrub, fun h0 => ?_⟩
    rw [h0] at K
    exact K.adjoints Gb.inv L.good.inv L.nodes

theorem serves_y (hc : Commutes R) (F : R → Code R) (e : List Var) (f : R → List R → List R)
    (n : Nat) (ys : List R) :
    Serves e ys (newCvsRhsYvar true n f (Code.odeY F e) : CvsRhs W R) (fun t => (F t).sensY ys)
      fun hd t => (F t).Callable ys [] n n hd := by
  refine serves (F := F) (q := []) (n := n) (m := 0) (par := false) hc (by simp) ?_ ?_ ?_
  · intro t ht
    refine ⟨newCvsRhsYvar true n f (Code.odeY (fun _ => F t) e), replays_y (fun _ => ht) e f n, ?_⟩
    rintro y S out rfl
    exact sensAll_y (fun _ => F t) e f t y S out
  · rintro J t y S out rfl
    exact sensAllL_y J F e f t y S out
  · intro t y S hl
    unfold Code.sensY
    apply List.ext_getElem
    · simpa using hl
    · intro j h1 h2
      have : j < S.length := by simpa using h1
      simp [entryOf, List.getD_eq_getElem?_getD, this]

theorem serves_p (hc : Commutes R) (F : R → Code R) (e : List Var) (f : R → List R → List R)
    (n : Nat) (ys : List R) {q : List R} (hq : q.length = 3) :
    Serves e ys (newCvsRhsPvar false 3 q f (Code.odeP F e) : CvsRhs W R) (fun t => (F t).sensP ys q)
      fun hd t => (F t).Callable ys q n 3 hd := by
  refine serves (F := F) (q := q) (n := n) (m := 3) (par := true) hc (fun _ => ⟨rfl, by omega⟩) ?_ ?_ ?_
  · intro t ht
    refine ⟨newCvsRhsPvar false 3 q f (Code.odeP (fun _ => F t) e), replays_p (fun _ => ht) e f 3 q, ?_⟩
    rintro y S out rfl
    exact sensAll_p (fun _ => F t) e f t y q hq S out
  · rintro J t y S out rfl
    exact sensAllL_p J F e f t y q hq S out
  · intro t y S hl
    unfold Code.sensP
    apply List.ext_getElem
    · simpa using hl
    · intro j h1 h2
      have : j < S.length := by simpa using h1
      simp [entryOf, List.getD_eq_getElem?_getD, this]

/-! ## one call of the solver -/

variable {ys : List R} {ode : CvsRhs W R} {sens : R → List R → List (List R) → List (List R)}
variable {ok : Nat → R → List R → List (List R) → Prop} {σ : Type}

theorem answer_book (hs : Serves e ys ode sens ok) : ∀ (call : Solving R σ) {c d : Client W} {g : Graph R}
    {val adj : Nat → R}, Shadow c d g val adj → c.marks.length < 10 → (∀ v ∈ e, v ∈ c.env) → ValL ys e g val →
    AsksBook ode.f sens (ok c.st.tape.head) call →
    ∃ s', (∀ J : Junk W R, answerL J ode call c.st = .ok (solveBook ode.f sens call, s')) ∧ Kept R e c.st s' ∧
      s'.tape.head = c.st.tape.head ∧ ∃ (d' : Client W) (g' : Graph R) (val' adj' : Nat → R),
        Shadow ⟨s', c.env, c.marks⟩ d' g' val' adj' ∧ ValL ys e g' val' ∧ Passes R e d d' := by
  intro call
  induction call with
  | done i y S m =>
    intro c d g val adj hS _ _ hy _
    exact ⟨c.st, fun _ => rfl, Kept.same hS.alike hS.sound.good.inv, rfl, d, g, val, adj, hS, hy, Passes.refl⟩
  | rhs t y k ih =>
    intro c d g val adj hS hl he hy ha
    unfold AsksBook at ha
    obtain ⟨s', h1, h2⟩ := ih _ hS hl he hy ha
    exact ⟨s', fun J => by unfold answerL solveBook; exact h1 J, h2⟩
  | sens t y S k ih =>
    intro c d g val adj hS hl he hy ha
    unfold AsksBook at ha
    obtain ⟨out, s1, a1, a2, a3, a4, d1, g1, val1, adj1, S1, hy1, P1⟩ := hs hS hl he hy ha.1
    obtain ⟨s2, b1, b2, b3, d2, g2, val2, adj2, S2, hy2, P2⟩ := ih _ (c := ⟨s1, c.env, c.marks⟩) S1 hl he hy1 (by
      show AsksBook _ _ (ok s1.tape.head) _
      rw [a4]
      exact ha.2)
    refine ⟨s2, fun J => ?_, a3.trans b2, b3.trans a4, d2, g2, val2, adj2, S2, hy2, P1.trans P2⟩
    unfold answerL solveBook
    rw [bind_ok (a1 J), a2]
    exact b1 J

theorem gather_live (yS : List (List R)) (i : Nat) (s : St W) : ∀ (l : List Nat) (g0 : List R),
    (∀ k ∈ l, k < g0.length ∧ k < yS.length) → (∀ v ∈ yS, i < v.length) →
    ∃ g1, (gather yS i l g0 : M W (List R)) s = .ok (g1, s) := by
  intro l
  induction l with
  | nil => intro g0 _ _; exact ⟨g0, rfl⟩
  | cons j l ih =>
    intro g0 h1 h2
    obtain ⟨hj, hj'⟩ := h1 j (by simp)
    have hi := h2 yS[j] (List.getElem_mem hj')
    have e1 : (deref yS[j]? : M W (List R)) s = .ok (yS[j], s) := by rw [List.getElem?_eq_getElem hj']; rfl
    have e2 : (deref yS[j][i]? : M W R) s = .ok (yS[j][i], s) := by rw [List.getElem?_eq_getElem hi]; rfl
    obtain ⟨g1, e3⟩ := ih (g0.set j yS[j][i]) (fun k hk => by
      have := h1 k (by simp [hk])
      simpa using this) h2
    refine ⟨g1, ?_⟩
    unfold gather
    rw [bind_ok e1, bind_ok e2, if_pos hj, e3]

/-! ## the variables of one output time -/

/-- From `d` to `d'` the steps of the components `l` with the operands `ops` are written: the variables `vs`. -/
def Wrote (e ops vs : List Var) (d d' : Client W) (l : List (R × List R)) : Prop :=
  d'.env = d.env ++ vs ∧ d'.marks = d.marks ∧ ∀ ⦃Z : Prop⦄ ⦃n0 : Nat⦄ ⦃T : List (Step R)⦄ ⦃xs : List (Num R)⦄ ⦃g : Graph R⦄
    ⦃val adj : Nat → R⦄, (Z → e = []) → Good d g val adj → Booked Z n0 T d.st g val adj → NumsAt n0 xs ops g val →
    ∃ (g' : Graph R) (val' adj' : Nat → R), Adds d.st g val d'.st g' val' ∧ Good d' g' val' adj' ∧
      Booked Z n0 (solSteps xs l T).2 d'.st g' val' adj' ∧ NumsAt n0 (solSteps xs l T).1 vs g' val'

theorem Wrote.nil : Wrote (R := R) e ops [] d d [] :=
  ⟨by simp, rfl, fun _ _ _ _ g val adj _ G b _ => ⟨g, val, adj, Adds.refl, G, b, .nil⟩⟩

theorem Passes.wrote {d1 d2 : Client W} {vs : List Var} {l : List (R × List R)} (a : Passes R e d d1)
    (b : Wrote e ops vs d1 d2 l) : Wrote e ops vs d d2 l := by
  refine ⟨by rw [b.1, a.1], b.2.1.trans a.2.1, fun Z n0 T xs g val adj hz G bk hx => ?_⟩
  obtain ⟨g1, val1, adj1, L, z1⟩ := a.2.2 G
  have bk1 := bk.again L.good.inv L.nodes L.adds.val fun z k nd he => by
    rw [L.nodes] at he
    rw [z1 (hz z) nd (List.mem_of_getElem? he)]
    exact bk.zero z k nd he
  have hd : d1 = ⟨d1.st, d.env, d.marks⟩ := by rw [← a.1, ← a.2.1]
  obtain ⟨g2, val2, adj2, A2, G2, b2, q2⟩ := b.2.2 hz (by rw [hd]; exact L.good) bk1 (NumsAt.adds hx bk.inv L.adds)
  exact ⟨g2, val2, adj2, L.adds.trans A2, G2, b2, q2⟩

theorem solSteps_append (xs : List (Num R)) : ∀ (a b : List (R × List R)) (T : List (Step R)),
    solSteps xs (a ++ b) T =
      ((solSteps xs a T).1 ++ (solSteps xs b (solSteps xs a T).2).1, (solSteps xs b (solSteps xs a T).2).2) := by
  intro a
  induction a with
  | nil => intro b T; rfl
  | cons p a ih =>
    intro b T
    have h : ∀ (l : List (R × List R)) (U : List (Step R)), solSteps xs (p :: l) U =
        ((step p.1 xs (fun a => p.2.map fun d => a *. d) U).1 :: (solSteps xs l (step p.1 xs (fun a => p.2.map fun d => a *. d) U).2).1,
          (solSteps xs l (step p.1 xs (fun a => p.2.map fun d => a *. d) U).2).2) := fun _ _ => rfl
    rw [List.cons_append, h, h, ih]
    rfl

theorem Wrote.append {d1 d2 : Client W} {vs ws : List Var} {l m : List (R × List R)} (a : Wrote e ops vs d d1 l)
    (b : Wrote e ops ws d1 d2 m) : Wrote e ops (vs ++ ws) d d2 (l ++ m) := by
  refine ⟨by rw [b.1, a.1, List.append_assoc], b.2.1.trans a.2.1, fun Z n0 T xs g val adj hz G bk hx => ?_⟩
  obtain ⟨g1, val1, adj1, A1, G1, b1, q1⟩ := a.2.2 hz G bk hx
  obtain ⟨g2, val2, adj2, A2, G2, b2, q2⟩ := b.2.2 hz G1 b1 (NumsAt.adds hx bk.inv A1)
  rw [solSteps_append]
  exact ⟨g2, val2, adj2, A1.trans A2, G2, b2, List.rel_append (NumsAt.adds q1 b1.inv A2) q2⟩

theorem Shadow.partials (h : Shadow c d g val adj) (ho : ∀ v ∈ ops, v ∈ c.env) {x : R} {ds : List R}
    (hl : ds.length = ops.length) (hroom : c.st.tape.head + (6 + 3 * ops.length) ≤ tapeLimit) (hy : ValL ys e g val) :
    ∃ v s', (varWithPartials x ops ds : M W Var) c.st = .ok (v, s') ∧ Kept R [] c.st s' ∧
      v ∉ existing c.st ∧ v ∈ existing s' ∧ IsRecord s' ops v x ds ∧ s'.tape.head = c.st.tape.head + (6 + 3 * ops.length) ∧
      ∃ (d' : Client W) (g' : Graph R) (val' adj' : Nat → R), Shadow ⟨s', c.env ++ [v], c.marks⟩ d' g' val' adj' ∧
        ValL ys e g' val' ∧ Wrote e ops [v] d d' [(x, ds)] := by
  have G := h.sound.good
  obtain ⟨is, hi, hn⟩ := Props.names_of ho
  have hvd := G.inv.varVals (vs := d.env) G.has
  obtain ⟨s9, hvc, -⟩ := blind_vals _ _ _ _ _ h.alike hvd
  obtain rfl := vals_st hvc
  have hlen : ops.length = is.length := by rw [hn]; simp
  have hk : (Call.make (.partials x is ds)).ProperL c := by
    refine ⟨⟨hi, trivial, trivial, _, by rw [← h.env]; exact hvc, ?_, ?_⟩, fun h => by cases h⟩
    · show is.length ≤ ds.length
      omega
    · show c.st.tape.head + (6 + 3 * is.length) ≤ tapeLimit
      omega
  obtain ⟨r, s', t', g', val', adj', e1, e2, ev, -, hw, S⟩ := h.make hk
  have hw := hw _ hvd
  simp only [Make.call, single] at e1 e2
  obtain ⟨v, s1, k1, k1'⟩ := bind_inv e1
  cases k1'
  obtain ⟨v', t1, k2, k2'⟩ := bind_inv e2
  cases k2'
  rw [← hn] at k1
  rw [h.env, ← hn] at k2
  obtain ⟨-, -, -, K, q1, q2, q3⟩ := partials_run G (by rw [h.env]; exact ho) hl k2
  have A := S.alike
  have I := S.sound.good.inv
  refine ⟨v, s', k1, K.akin h.alike A G.inv I, by rw [h.alike.existingG]; exact q1, by rw [A.existingG]; exact q2,
    record_akin A I q2 q3, ?_, _, _, _, _, S, ev.valL G.inv hy, rfl, rfl, ?_⟩
  · rw [A.tape, h.alike.tape]
    show t'.tape.head = _
    rw [hw]
    simp only [Make.words, hlen]
  · intro Z n0 T xs gb vb ab _ Gb b hx
    obtain ⟨g1, val1, adj1, x1, b1, q1⟩ := writes_varWithPartials b hx x ds (fun _ => rfl) v t' k2
    have hds : ds.take xs.length = ds := by
      rw [List.Forall₂.length_eq hx, ← hl, List.take_length]
    rw [hds] at b1 q1
    exact ⟨g1, val1, adj1, x1.adds, Gb.ofExt x1 b1.inv b1.cok (by simpa using q1.valR.has), b1, .cons q1 .nil⟩

theorem solVars_book {y : List R} {yS : List (List R)} {n : Nat} (hyl : y.length = n) (hSl : yS.length = ops.length)
    (hSn : ∀ v ∈ yS, v.length = n) : ∀ (idx : List Nat) {c d : Client W} {g : Graph R}
    {val adj : Nat → R}, (∀ i ∈ idx, i < n) → Shadow c d g val adj → (∀ v ∈ ops, v ∈ c.env) → ValL ys e g val →
    c.st.tape.head + idx.length * (6 + 3 * ops.length) ≤ tapeLimit →
    ∃ vs s', (solVars ops ops.length y yS idx : M W (List Var)) c.st = .ok (vs, s') ∧ Kept R [] c.st s' ∧
      s'.tape.head = c.st.tape.head + idx.length * (6 + 3 * ops.length) ∧
      (vs.length = idx.length ∧ ∀ k (_ : k < idx.length) (_ : k < vs.length), vs[k] ∉ existing c.st ∧
        vs[k] ∈ existing s' ∧ idx[k] < y.length ∧ IsRecord s' ops vs[k] (y.getD idx[k] zero)
          ((List.range ops.length).map fun j => (yS.getD j []).getD idx[k] zero)) ∧
      ∃ (d' : Client W) (g' : Graph R) (val' adj' : Nat → R), Shadow ⟨s', c.env ++ vs, c.marks⟩ d' g' val' adj' ∧
        ValL ys e g' val' ∧ Wrote e ops vs d d' (idx.map fun i => (y.getD i zero,
          (List.range ops.length).map fun j => (yS.getD j []).getD i zero)) := by
  intro idx
  induction idx with
  | nil =>
    intro c d g val adj _ hS _ hy _
    refine ⟨[], c.st, rfl, Kept.same hS.alike hS.sound.good.inv, by simp, ⟨rfl, fun k h1 => by simp at h1⟩, d, g, val, adj, ?_, hy, Wrote.nil⟩
    rw [List.append_nil]
    exact hS
  | cons i idx ih =>
    intro c d g val adj hi hS ho hy hroom
    have hin := hi i (by simp)
    obtain ⟨gr, e1⟩ := gather_live yS i c.st (List.range ops.length) (List.replicate ops.length (zero : R)) (fun k hk => by
      have := List.mem_range.mp hk
      simp
      omega) (fun v hv => by rw [hSn v hv]; exact hin)
    obtain ⟨-, rfl⟩ := gather_list e1
    have e2 : (deref y[i]? : M W R) c.st = .ok (y.getD i zero, c.st) := by
      rw [List.getD_eq_getElem?_getD, List.getElem?_eq_getElem (by omega)]; rfl
    rw [List.length_cons, Nat.add_mul] at hroom
    obtain ⟨v, s1, e3, h3, h4, h5, h6, h7, d1, g1, val1, adj1, S1, hy1, W1⟩ := hS.partials ho (x := y.getD i zero)
      (ds := (List.range ops.length).map fun j => (yS.getD j []).getD i zero) (by simp) (by omega) hy
    obtain ⟨vs, s2, e4, a3, a6, ⟨a4, a5⟩, d2, g2, val2, adj2, S2, hy2, W2⟩ := ih (c := ⟨s1, c.env ++ [v], c.marks⟩) (fun j hj => hi j (by simp [hj])) S1
      (fun v hv => List.mem_append_left _ (ho v hv)) hy1 (by
        show s1.tape.head + _ ≤ _
        omega)
    have hoe : ∀ u ∈ ops, u ∈ existing s1 := fun u hu => by
      rw [S1.alike.existingG]
      exact (mem_existing S1.sound.good.inv).mpr (S1.sound.good.has u (by rw [S1.env]; exact List.mem_append_left _ (ho u hu)))
    refine ⟨v :: vs, s2, ?_, h3.trans a3, ?_, ⟨by simp [a4], fun k p1 p2 => ?_⟩, ?_⟩
    · unfold solVars
      rw [bind_ok e1, bind_ok e2, bind_ok e3, bind_ok e4]
      rfl
    · have a6' : s2.tape.head = s1.tape.head + idx.length * (6 + 3 * ops.length) := a6
      rw [a6', h7, List.length_cons, Nat.add_mul]
      omega
    · cases k with
      | zero =>
        obtain ⟨b1, b2⟩ := a3.record h5 (by simp) hoe h6
        refine ⟨h4, b1, by simpa [hyl] using hin, ?_⟩
        simp only [List.getElem_cons_zero]
        exact b2
      | succ k =>
        obtain ⟨b1, b2, b3, b4⟩ := a5 k (by simpa using p1) (by simpa using p2)
        exact ⟨fun hm => b1 (h3.keeps _ hm).1, b2, b3, b4⟩
    · rw [List.append_assoc] at S2
      exact ⟨d2, g2, val2, adj2, S2, hy2, W1.append W2⟩

/-! ## all output times -/

theorem solLoop_book (hs : Serves e ys ode sens ok) (hns : ode.ns = ops.length) (sv : Solver R σ) (n : Nat) :
    ∀ (ts : List R) (mem : σ) (y0 : List R) {c d : Client W} {g : Graph R} {val adj : Nat → R},
    Shadow c d g val adj → c.marks.length < 10 → (∀ v ∈ ops, v ∈ c.env) → (∀ v ∈ e, v ∈ c.env) → ValL ys e g val →
    SucceedsBook sv ode.f sens ok n ops.length ts mem c.st.tape.head →
    ∃ yt s', (∀ J : Junk W R, solLoopL J sv ode ops n ts mem y0 c.st =
        .ok ((yt, ((solsBook sv ode.f sens ts mem).map Prod.fst).getLastD y0), s')) ∧
      Kept R e c.st s' ∧ Carries s' ops n yt (solsBook sv ode.f sens ts mem) ∧ (∀ v ∈ yt.flatten, v ∉ existing c.st) ∧
      ∃ (d' : Client W) (g' : Graph R) (val' adj' : Nat → R), Shadow ⟨s', c.env ++ yt.flatten, c.marks⟩ d' g' val' adj' ∧
        Wrote e ops yt.flatten d d' (components n ops.length (solsBook sv ode.f sens ts mem)) ∧
        s'.tape.head = c.st.tape.head + ts.length * (n * (6 + 3 * ops.length)) := by
  intro ts
  induction ts with
  | nil =>
    intro mem y0 c d g val adj hS _ _ _ _ _
    refine ⟨[], c.st, fun _ => rfl, Kept.same hS.alike hS.sound.good.inv, ⟨rfl, fun k h1 => by simp at h1⟩, by simp, d, g, val, adj, ?_, Wrote.nil, by simp⟩
    simp only [List.flatten_nil]
    rw [List.append_nil]
    exact hS
  | cons t ts ih =>
    intro mem y0 c d g val adj hS hl ho he hy hk
    unfold SucceedsBook at hk
    obtain ⟨k1, k2, k3, k4, k5, k6, k7⟩ := hk
    obtain ⟨s1, a1, a2, a3, d1, g1, val1, adj1, S1, hy1, P1⟩ := answer_book hs (sv.step mem t) hS hl he hy k1
    unfold solsBook
    generalize solveBook ode.f sens (sv.step mem t) = r at k2 k3 k4 k5 k7 a1 ⊢
    obtain ⟨ierr, y, yS, mem'⟩ := r
    simp only at k2 k3 k4 k5 k7 ⊢
    subst k2
    obtain ⟨vs, s2, b1, b2, b3, ⟨b4, b5⟩, d2, g2, val2, adj2, S2, hy2, W2⟩ := solVars_book k3 k4 k5 (List.range n)
      (c := ⟨s1, c.env, c.marks⟩) (fun i hi => List.mem_range.mp hi) S1 ho hy1 (by
        show s1.tape.head + _ ≤ _
        rw [a3, List.length_range]
        exact k6)
    have b3' : s2.tape.head = c.st.tape.head + n * (6 + 3 * ops.length) := by
      have : s2.tape.head = s1.tape.head + _ := b3
      rw [this, a3, List.length_range]
    obtain ⟨yt, s3, e1, e2, ⟨e3, e3'⟩, e4, d3, g3, val3, adj3, S3, W3, hh3⟩ := ih mem' y (c := ⟨s2, c.env ++ vs, c.marks⟩) S2 hl
      (fun v hv => List.mem_append_left _ (ho v hv)) (fun v hv => List.mem_append_left _ (he v hv)) hy2 (by
        show SucceedsBook _ _ _ _ _ _ _ _ s2.tape.head
        rw [b3']
        exact k7)
    have hoe : ∀ u ∈ ops, u ∈ existing s2 := fun u hu => by
      rw [S2.alike.existingG]
      exact (mem_existing S2.sound.good.inv).mpr (S2.sound.good.has u (by rw [S2.env]; exact List.mem_append_left _ (ho u hu)))
    have hee : ∀ u ∈ e, u ∈ existing s1 := fun u hu => by
      rw [S1.alike.existingG]
      exact (mem_existing S1.sound.good.inv).mpr (S1.sound.good.has u (by rw [S1.env]; exact he u hu))
    refine ⟨vs :: yt, s3, fun J => ?_, a2.trans (b2.weaken.trans e2), ⟨by simp [e3], fun k h1 h2 => ?_⟩, fun v hv hx => ?_, ?_⟩
    · unfold solLoopL
      rw [bind_ok (a1 J)]
      simp only [ne_eq, not_true, if_false]
      rw [hns, bind_ok b1, bind_ok (e1 J)]
      simp only [List.map_cons, List.getLastD_cons]
      rfl
    · cases k with
      | zero =>
        simp only [List.getElem_cons_zero]
        refine ⟨by rw [b4, List.length_range], fun i hi => ?_⟩
        have hin : i < n := by rw [b4, List.length_range] at hi; exact hi
        obtain ⟨c1, c2, c3, c4⟩ := b5 i (by simpa using hin) hi
        simp only [List.getElem_range] at c3 c4
        obtain ⟨f1, f2⟩ := e2.record c2 (fun hm => c1 (hee _ hm)) hoe c4
        exact ⟨f1, c3, f2⟩
      | succ k => exact e3' k (by simpa using h1) (by simpa using h2)
    · rw [List.flatten_cons] at hv
      rcases List.mem_append.mp hv with hv | hv
      · obtain ⟨k, hk, rfl⟩ := List.getElem_of_mem hv
        exact (b5 k (by omega) hk).1 (a2.keeps _ hx).1
      · exact e4 v hv (b2.keeps _ (a2.keeps _ hx).1).1
    · rw [List.append_assoc, ← List.flatten_cons] at S3
      have hh3' : s3.tape.head = s2.tape.head + _ := hh3
      refine ⟨d3, g3, val3, adj3, S3, P1.wrote (W2.append W3), ?_⟩
      rw [hh3', b3', List.length_cons, Nat.add_mul]
      omega

variable {σ : Type}

theorem sensInitB_y (n : Nat) (f : R → List R → List R) (fy : R → List Var → List Var → M W (List Var)) :
    sensInit (newCvsRhsYvar true n f fy) n =
      (List.range n).map fun j => (List.range n).map fun i => if i = j then (Arith.one : R) else zero := by
  unfold sensInit newCvsRhsYvar
  refine List.map_congr_left fun j hj => ?_
  rw [if_pos (by simpa using List.mem_range.mp hj)]
  apply List.ext_getElem (by simp)
  intro i h1 h2
  rw [List.getElem_set]
  simp only [List.getElem_replicate, List.getElem_map, List.getElem_range, eq_comm]

theorem sensInitB_p (n : Nat) (q : List R) (f : R → List R → List R)
    (fp : R → List Var → List Var → List Var → M W (List Var)) :
    sensInit (newCvsRhsPvar false 3 q f fp) n = List.replicate 3 (List.replicate n zero) := by
  simp [sensInit, newCvsRhsPvar, List.map_const']

theorem mem_named {env : List Var} {is : List Nat} (h : ∀ i ∈ is, i < env.length) : ∀ v ∈ is.map (nth env), v ∈ env := by
  intro v hv
  obtain ⟨i, hi, rfl⟩ := List.mem_map.mp hv
  exact nth_mem (h i hi)

theorem Shadow.read (S : Shadow c d g val adj) {is : List Nat} (hi : ∀ i ∈ is, i < c.env.length) {ys : List R}
    (e : (Fz.vals (is.map (nth c.env)) : M W (List R)) c.st = .ok (ys, c.st)) : ValL ys (is.map (nth c.env)) g val :=
  ValL.ofRead S.sound.good.inv (fun v hv => S.sound.good.has v (by rw [S.env]; exact mem_named hi v hv))
    (S.vals (mem_named hi) e)

theorem Shadow.taskY (hc : Commutes R) (S : Shadow c d g val adj) {p : Ode R σ} {is es : List Nat} {z ys : List R}
    (hp : p.ProperY c is es z ys) :
    ∃ yt s', (∀ J : Junk W R, p.callY J (is.map (nth c.env)) (es.map (nth c.env)) c.st = .ok (yt, s')) ∧
      Kept R (es.map (nth c.env)) c.st s' ∧ Carries s' (is.map (nth c.env)) z.length yt (p.solY ys z) ∧
      (∀ v ∈ yt.flatten, v ∉ existing c.st) ∧
      ∃ (d' : Client W) (g' : Graph R) (val' adj' : Nat → R), Shadow ⟨s', c.env ++ yt.flatten, c.marks⟩ d' g' val' adj' ∧
        Wrote (es.map (nth c.env)) (is.map (nth c.env)) yt.flatten d d' (p.compsY ys z) ∧
        s'.tape.head = c.st.tape.head + p.ts.length * (z.length * (6 + 3 * z.length)) := by
  obtain ⟨hl, hi, he, hz, hy, hs⟩ := hp
  have hzl := (S.read hi hz).length_eq
  obtain ⟨yt, s', h1, h2, h3, h4, h5⟩ := solLoop_book (ops := is.map (nth c.env))
    (serves_y hc p.F (es.map (nth c.env)) p.f z.length ys) hzl p.sv z.length p.ts (p.startY z) z S hl (mem_named hi)
    (mem_named he) (S.read he hy) (by rw [← hzl]; exact hs)
  rw [← hzl] at h5
  refine ⟨yt, s', fun J => ?_, h2, h3, h4, h5⟩
  unfold Ode.callY cvodesSolY0L
  rw [bind_ok hz, ← hzl, sensInitB_y]
  have := h1 J
  unfold Ode.startY at this
  rw [bind_ok this]
  rfl

theorem Shadow.taskP (hc : Commutes R) (S : Shadow c d g val adj) {p : Ode R σ} {y : List R} {is es : List Nat}
    {q ys : List R} (hp : p.ProperP c y is es q ys) :
    ∃ yt s', (∀ J : Junk W R, p.callP J y (is.map (nth c.env)) (es.map (nth c.env)) c.st =
        .ok ((yt, ((p.solP ys q y).map Prod.fst).getLastD y), s')) ∧
      Kept R (es.map (nth c.env)) c.st s' ∧ Carries s' (is.map (nth c.env)) y.length yt (p.solP ys q y) ∧
      (∀ v ∈ yt.flatten, v ∉ existing c.st) ∧
      ∃ (d' : Client W) (g' : Graph R) (val' adj' : Nat → R), Shadow ⟨s', c.env ++ yt.flatten, c.marks⟩ d' g' val' adj' ∧
        Wrote (es.map (nth c.env)) (is.map (nth c.env)) yt.flatten d d' (p.compsP ys q y) ∧
        s'.tape.head = c.st.tape.head + p.ts.length * (y.length * (6 + 3 * 3)) := by
  obtain ⟨hl, hi, he, hi3, hq, hy, hs⟩ := hp
  have hil : (is.map (nth c.env)).length = 3 := by simpa using hi3
  have hql : q.length = 3 := (S.read hi hq).length_eq.trans hil
  obtain ⟨yt, s', h1, h2, h3, h4, h5⟩ := solLoop_book (ops := is.map (nth c.env))
    (serves_p hc p.F (es.map (nth c.env)) p.f y.length ys hql) hil.symm p.sv y.length p.ts (p.startP y) y S hl (mem_named hi)
    (mem_named he) (S.read he hy) (by rw [hil]; exact hs)
  rw [hil] at h5
  refine ⟨yt, s', fun J => ?_, h2, h3, h4, h5⟩
  unfold Ode.callP cvodesSolParL
  rw [bind_ok hq, hil, sensInitB_p]
  exact h1 J

end Fz
