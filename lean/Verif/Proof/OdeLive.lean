import Verif.Proof.OdeBookRun

/-!
# The sensitivity right-hand side completes again and again, with checks of array shapes

For right-hand sides that make no plain variables; in any arithmetic.
-/

set_option linter.unusedSectionVars false

namespace Fz
variable {W R : Type} [Arith R] [Rep W R] [LawfulRep W R]
open Arith Spec
variable {s s' : St W} {g g' : Graph R} {val adj val' adj' : Nat → R} {c : Client W} {e : List Var}

/-- one evaluation -/
theorem sens_live (hc : Commutes R) (G : Good c g val adj) (hf : ∀ nd ∈ g.nodes, nd.FitsAll)
    (hl : c.st.level < maxNestedStack) {ys : List R} (hy : ValL ys e g val) {f : Code R} {y q : List R}
    {S : List (List R)} {n ns m : Nat} {par : Bool} (hcl : CleanN R (2 * n + q.length) c.st)
    (hok : f.Callable ys q n ns c.st.tape.head y S) (hmt : f.Meets true (rhsInputs y q ++ ys))
    (hm : par = true → m = ns ∧ m ≤ q.length) (out : Nat → Nat → R) :
    ∃ out' s' g' val' adj' w, (sensAll f e y q S ns m par out : M W _) c.st = .ok (out', s') ∧
      vecs ns y.length out' = ((List.range ns).map fun j => (f.rows ys y q).map fun row => entryOf par y.length S row j) ∧
      Back c g val (2 * n + q.length) w s' g' val' adj' := by
  obtain ⟨rfl, rfl, hS, ⟨hs, hp, hr, -, hx, hn, hroom, hfull⟩, hnp⟩ := hok
  have hxl : (rhsInputs y q).length = 2 * y.length + q.length := by simp [rhsInputs]; omega
  obtain ⟨t0, xv, t1, outs, t2, g2, val2, adj2, e0, e1, e2, e3, b⟩ := began (closed := true) hc G hf
    (by rw [hxl]; exact hcl) (by simp) hl hy hs hp hr hmt hroom
  obtain ⟨b1, ht⟩ := booked_start (Z := True) G e0
  obtain ⟨g3, val3, adj3, ext, b2, ho, xs, hxs, hrf⟩ := writes_steps hc hs hp hr b1 (env_nums hy) e1 e2
  have hlx := newVars_len _ e1
  have hlx' : xv.length = y.length + y.length + q.length := by rw [hlx, hxl]; omega
  unfold rhsInputs at e1
  obtain ⟨s01, f12, f3⟩ := newVars_parts e1
  obtain ⟨s02, f1, f2⟩ := newVars_parts f12
  simp only [List.length_append, List.length_replicate] at f1 f2 f3
  generalize hyv : (xv.take (y.length + y.length)).take y.length = yv at f1
  generalize hfv : (xv.take (y.length + y.length)).drop y.length = fv at f2
  generalize hpv : xv.drop (y.length + y.length) = pv at f3
  have hxe : xv = yv ++ fv ++ pv := by rw [← hyv, ← hfv, ← hpv, List.take_append_drop, List.take_append_drop]
  have hyl : yv.length = y.length := by rw [← hyv]; simp; omega
  have hfl : fv.length = y.length := by rw [← hfv]; simp; omega
  have hpl : pv.length = q.length := by rw [← hpv]; simp; omega
  have hov : outs.length = y.length := by
    have ho : ∀ v ∈ outs, g2.Has v := fun v hv => b.good.has v (by simp [hv])
    rw [hn]
    have h1 := b.good.inv.varVals ho
    rw [e3] at h1
    injection h1 with h2
    injection h2 with h2
    rw [h2]
    simp
  have hS' : ∀ j < S.length, ∃ v, S[j]? = some v ∧ v.length = yv.length := fun j hj =>
    ⟨S[j], List.getElem?_eq_getElem hj, by rw [hyl]; exact hS _ (List.getElem_mem hj)⟩
  have hm' : par = true → m = S.length ∧ m ≤ pv.length := by rw [hpl]; exact hm
  have hhas : ∀ v ∈ xv, g2.Has v := fun v hv => b.good.has v (by simp [hv])
  obtain ⟨out', mem, a, s3, p4, q4, A3, i3⟩ := sensRowsL_any b.fits (yv := yv) (pv := pv)
    (fun v hv => hhas v (by simp [hxe, hv])) (fun v hv => hhas v (by simp [hxe, hv])) b.pre.length_le hS' hm' outs 0 out
    (Akin.same (T := fun _ => False) (fun _ h => h.elim)) b.good.inv (by rw [b.lvl]; omega) (by rw [b.lvl]; omega) b.nv
    (fun v hv => b.good.has v (by simp [hv]))
  rw [hxe] at hxs
  have hbk := book_sensRows b2 hxs hrf (by omega) hS' hm' ho b2.inv (ht.keep ext.keep) (b2.zero trivial) q4
  have h1 : 1 < c.st.tape.head + (6 * (rhsInputs y q).length + f.words (rhsInputs y q ++ ys)) := by
    rw [← b.head]
    exact b.good.inv.head_gt (b.nonempty hy hx)
  obtain ⟨t4, g4, q5, B⟩ := b.done i3 hfull h1
  rw [hxl] at B
  refine ⟨out', t4, g4, val2, a, _, ?_, ?_, B⟩
  · unfold sensAll
    rw [bind_ok e0, bind_ok f1, bind_ok f2, bind_ok f3, ← hxe, bind_ok e2, bind_ok (confN_okG hov _), bind_ok q4,
      bind_ok q5]
    rfl
  · have hlo : ((f.steps ys (rhsInputs y q) []).1).length = y.length := by rw [← hov]; exact ho.length_eq
    unfold vecs Code.rows Code.bookJacobian
    refine List.map_congr_left fun j hj => ?_
    have hj' := List.mem_range.mp hj
    apply List.ext_getElem
    · simp [hlo]
    · intro i h2 h3
      have hi : i < (f.steps ys (rhsInputs y q) []).1.length := by simp at h2; omega
      have := hbk.2.1 j hj' i hi
      rw [Nat.zero_add] at this
      simp only [List.getElem_map, List.getElem_range]
      rw [this, hyl]

/-- one call of the solver -/
theorem answer_live {σ : Type} (hc : Commutes R) {ys q : List R} {F : R → Code R} {ode : CvsRhs W R} {n m : Nat} {par : Bool}
    (hm : par = true → m = ode.ns ∧ m ≤ q.length) {sens : R → List R → List (List R) → List (List R)}
    (h1 : ∀ t y S out, y.length = n → setSensRhs ode t y S out = sensAll (F t) e y q S ode.ns m par out)
    (h3 : ∀ t y S, S.length = ode.ns → sens t y S =
      (List.range ode.ns).map fun j => ((F t).rows ys y q).map fun row => entryOf par y.length S row j) :
    ∀ (call : Solving R σ) {c : Client W} {g : Graph R} {val adj : Nat → R}, Good c g val adj →
    (∀ nd ∈ g.nodes, nd.FitsAll) → c.st.level < maxNestedStack → ValL ys e g val → CleanN R (2 * n + q.length) c.st →
    AsksBook ode.f sens (fun t => (F t).Callable ys q n ode.ns c.st.tape.head) call →
    AsksBook ode.f sens (fun t y _ => (F t).Meets true (rhsInputs y q ++ ys)) call →
    ∃ s', answer ode call c.st = .ok (solveBook ode.f sens call, s') ∧ s'.tape.head = c.st.tape.head ∧
      ∃ (g' : Graph R) (val' adj' : Nat → R), Sound true ⟨s', c.env, c.marks⟩ g' val' adj' ∧
        ∀ (us : List R) (vs : List Var), ValL us vs g val → ValL us vs g' val' := by
  intro call
  induction call with
  | done i y S m =>
    intro c g val adj G hf _ _ _ _ _
    exact ⟨c.st, rfl, rfl, g, val, adj, ⟨G, hf, by simp⟩, fun _ _ h => h⟩
  | rhs t y k ih =>
    intro c g val adj G hf hl hy hcl ha hb
    unfold AsksBook at ha hb
    obtain ⟨s', h⟩ := ih _ G hf hl hy hcl ha hb
    exact ⟨s', by unfold answer solveBook; exact h.1, h.2⟩
  | sens t y S k ih =>
    intro c g val adj G hf hl hy hcl ha hb
    unfold AsksBook at ha hb
    obtain ⟨out', s1, g1, val1, adj1, w, a1, a2, B⟩ := sens_live hc G hf hl hy hcl ha.1 hb.1 hm fun _ _ => zero
    rw [← h1 _ _ _ _ ha.1.1] at a1
    rw [← h3 _ _ _ ha.1.2.1] at a2
    obtain ⟨s2, b1, b2, g2, val2, adj2, b3, b4⟩ := ih (sens t y S) (c := ⟨s1, c.env, c.marks⟩) B.good (by rw [B.nodes]; exact hf)
      (by show s1.level < _; rw [B.lvl]; exact hl) (B.valL G.inv hy) B.clean
      (by show AsksBook _ _ (fun t => (F t).Callable ys q n ode.ns s1.tape.head) _; rw [B.head]; exact ha.2) hb.2
    refine ⟨s2, ?_, b2.trans B.head, g2, val2, adj2, b3, fun us vs h => b4 us vs (B.valL G.inv h)⟩
    unfold answer solveBook
    rw [bind_ok a1, a2]
    exact b1

/-- the variables of one output time -/
theorem solVars_sound (hc : Commutes R) {closed : Bool} {ops : List Var} {ns : Nat} (hns : ns = ops.length) {y : List R} {yS : List (List R)} :
    ∀ (idx : List Nat) {c : Client W} {g : Graph R} {val adj : Nat → R} {vs : List Var} {s' : St W}, Sound closed c g val adj →
    (∀ v ∈ ops, v ∈ c.env) → c.st.tape.head + idx.length * (6 + 3 * ops.length) ≤ tapeLimit →
    (solVars ops ns y yS idx : M W (List Var)) c.st = .ok (vs, s') →
    ∃ (g' : Graph R) (val' adj' : Nat → R), Sound closed ⟨s', c.env ++ vs, c.marks⟩ g' val' adj' ∧
      s'.tape.head = c.st.tape.head + idx.length * (6 + 3 * ops.length) ∧
      ∀ (us : List R) (ws : List Var), ValL us ws g val → ValL (us ++ idx.map fun i => y.getD i zero) (ws ++ vs) g' val' := by
  intro idx
  induction idx with
  | nil =>
    intro c g val adj vs s' S _ _ e
    cases e
    rw [List.append_nil]
    exact ⟨g, val, adj, S, by simp, fun us ws h => by simpa using h⟩
  | cons i idx ih =>
    intro c g val adj vs s' S ho hroom e
    unfold solVars at e
    obtain ⟨gr, s1, e1, k1⟩ := bind_inv e
    obtain ⟨x, s2, e2, k2⟩ := bind_inv k1
    obtain ⟨v, s3, e3, k3⟩ := bind_inv k2
    obtain ⟨vs, s4, e4, k4⟩ := bind_inv k3
    cases k4
    subst hns
    obtain ⟨rfl, hg⟩ := gather_list e1
    have hs2 : s2 = c.st ∧ y.getD i zero = x := by
      rw [List.getD_eq_getElem?_getD]
      cases h : y[i]? with
      | none => rw [h] at e2; cases e2
      | some a => rw [h] at e2; cases e2; exact ⟨rfl, rfl⟩
    obtain ⟨rfl, hyx⟩ := hs2
    rw [List.length_cons, Nat.add_mul] at hroom
    have G := S.good
    obtain ⟨is, hi, hn⟩ := Props.names_of ho
    have hlen : ops.length = is.length := by rw [hn]; simp
    have hgl : gr.length = ops.length := by rw [hg]; simp
    have hv0 := ValL.ofRead G.inv G.has (G.inv.varVals (vs := c.env) G.has)
    obtain ⟨r, s5, g1, val1, adj1, e5, ev, ⟨l, hl, hf⟩, hh, hq⟩ := make_live G.inv S.clean hv0 (.partials x is gr) hi trivial trivial
      (by show is.length ≤ gr.length; omega) (by
        show c.st.tape.head + (6 + 3 * is.length) ≤ tapeLimit
        omega)
    obtain ⟨g3, val3, adj3, ev3, hv3⟩ := make_gives hc G.inv hv0 (.partials x is gr) hi trivial trivial r s5 e5
    have hvr := ValL.ofRead ev.inv hq (hv3.read ev3.inv)
    simp only [Make.call, single] at e5
    rw [← hn, bind_ok e3] at e5
    cases e5
    have hh' : s3.tape.head = c.st.tape.head + (6 + 3 * is.length) := hh
    obtain ⟨g2, val2, adj2, S2, h2, w2⟩ := ih (c := ⟨s3, c.env ++ [v], c.marks⟩) (g := g1) (val := val1) (adj := adj1)
      ⟨G.ofEvo ev hq, fun nd hm => by
        rw [hl] at hm
        rcases List.mem_append.mp hm with hm | hm
        · exact S.fits nd hm
        · exact hf nd hm, fun h => ev.keep.clean (S.clean h)⟩ (fun v hv => List.mem_append_left _ (ho v hv)) (by
        show s3.tape.head + _ ≤ _
        omega) e4
    rw [List.append_assoc] at S2
    refine ⟨g2, val2, adj2, S2, ?_, fun us ws h => ?_⟩
    · have : s'.tape.head = s3.tape.head + idx.length * (6 + 3 * ops.length) := h2
      rw [List.length_cons, Nat.add_mul]
      omega
    · have := w2 (us ++ [x]) (ws ++ [v]) (List.rel_append (ev.valL G.inv h) hvr)
      rw [List.map_cons, hyx]
      simpa using this

end Fz
