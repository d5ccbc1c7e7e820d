import Verif.Proof.OdeSol

/-!
# Solutions with sensitivities: calls that complete
-/

set_option linter.unusedSectionVars false

namespace Fz
open Arith Spec

variable {W : Type} [Rep W ℝ] [LawfulRep W ℝ]
variable {s s' : St W} {g g' : Graph ℝ} {val adj val' adj' : Nat → ℝ} {σ : Type}

/-- calls for the sensitivity right-hand side complete, correctly, when the tape has `hd` words -/
def SensTotal (pr : Problem) (ok : ℝ → List ℝ → List (List ℝ) → Prop) (ode : CvsRhs W ℝ) (m hd lv : Nat) : Prop :=
  ∀ {g : Graph ℝ} {val adj : Nat → ℝ} {s : St W} {u : ℝ} {y : List ℝ} {S : List (List ℝ)}
    {out : Nat → Nat → ℝ}, Fine s g val adj m False → s.tape.head = hd → s.level = lv → ok u y S →
    ∃ out' t val' a, setSensRhs ode u y S out s = .ok (out', t) ∧ pr.sens u y S (vecs ode.ns y.length out') ∧
      Fine t g val' a m False ∧ t.tape.head = hd ∧ t.level = lv

theorem answer_total {pr : Problem} {ok : ℝ → List ℝ → List (List ℝ) → Prop} {ode : CvsRhs W ℝ} {m hd lv : Nat}
    (hf : pr.f = ode.f) (hs : SensTotal pr ok ode m hd lv) :
    ∀ (call : Solving ℝ σ) {s : St W} {val adj : Nat → ℝ}, Fine s g val adj m False →
    s.tape.head = hd → s.level = lv → Asks pr ok call →
    ∃ r s' val' a, answer ode call s = .ok (r, s') ∧ Solves pr call r ∧ Fine s' g val' a m False ∧
      s'.tape.head = hd ∧ s'.level = lv := by
  intro call
  induction call with
  | done e y yS mem =>
    intro s val adj hi h1 h2 _
    exact ⟨_, s, val, adj, rfl, .done, hi, h1, h2⟩
  | rhs u y k ih =>
    intro s val adj hi h1 h2 ha
    obtain ⟨r, s', val', a, e, h3⟩ := ih _ hi h1 h2 ha
    refine ⟨r, s', val', a, ?_, .rhs h3.1, h3.2⟩
    unfold answer
    rw [← hf]; exact e
  | sens u y yS k ih =>
    intro s val adj hi h1 h2 ha
    obtain ⟨out', t, val1, a1, e1, hp, hi1, h3, h4⟩ := hs (out := fun _ _ => zero) hi h1 h2 ha.1
    obtain ⟨r, s', val', a, e, h5⟩ := ih _ hi1 h3 h4 (ha.2 _ hp)
    refine ⟨r, s', val', a, ?_, .sens hp h5.1, h5.2⟩
    unfold answer
    rw [bind_ok e1]; exact e

theorem gather_total (yS : List (List ℝ)) (i : Nat) (s : St W) : ∀ (l : List Nat) (g0 : List ℝ),
    (∀ k ∈ l, k < g0.length ∧ k < yS.length) → (∀ v ∈ yS, i < v.length) →
    ∃ g1, (gather yS i l g0 : M W (List ℝ)) s = .ok (g1, s) ∧ g1.length = g0.length := by
  intro l
  induction l with
  | nil => intro g0 _ _; exact ⟨g0, rfl, rfl⟩
  | cons j l ih =>
    intro g0 hl hS
    obtain ⟨h1, h2⟩ := hl j (by simp)
    have h3 := hS _ (List.getElem_mem h2)
    have e1 : (deref yS[j]? : M W (List ℝ)) s = .ok (yS[j], s) := by rw [List.getElem?_eq_getElem h2]; rfl
    have e2 : (deref yS[j][i]? : M W ℝ) s = .ok (yS[j][i], s) := by rw [List.getElem?_eq_getElem h3]; rfl
    obtain ⟨g1, e3, h4⟩ := ih (g0.set j yS[j][i]) (fun k hk => by simpa using hl k (by simp [hk])) hS
    refine ⟨g1, ?_, by simpa using h4⟩
    unfold gather
    rw [bind_ok e1, bind_ok e2, if_pos h1, e3]

theorem solVars_total {y : List ℝ} {yS : List (List ℝ)} {ops : List Var} (hS : yS.length = ops.length)
    (hS' : ∀ v ∈ yS, v.length = y.length) : ∀ (is : List Nat) {s : St W}
    {g : Graph ℝ} {val adj : Nat → ℝ}, Inv s g val adj → (∀ v ∈ ops, g.Has v) → (∀ i ∈ is, i < y.length) →
    s.tape.head + is.length * (6 + 3 * ops.length) ≤ cap →
    ∃ vs s', solVars ops ops.length y yS is s = .ok (vs, s') ∧ s'.level = s.level := by
  intro is
  induction is with
  | nil => intro s g val adj _ _ _ _; exact ⟨[], s, rfl, rfl⟩
  | cons i is ih =>
    intro s g val adj h hops hi room
    have hlen : (i :: is).length * (6 + 3 * ops.length) = (6 + 3 * ops.length) + is.length * (6 + 3 * ops.length) := by
      simp [Nat.succ_mul, Nat.add_comm]
    rw [hlen] at room
    have hiy := hi i (by simp)
    obtain ⟨g1, e1, hl⟩ := gather_total yS i s (List.range ops.length) (List.replicate ops.length zero)
      (fun k hk => by
        have := List.mem_range.mp hk
        simp
        omega) (fun v hv => by rw [hS' v hv]; exact hiy)
    rw [List.length_replicate] at hl
    have e2 : (deref y[i]? : M W ℝ) s = .ok (y[i], s) := by rw [List.getElem?_eq_getElem hiy]; rfl
    obtain ⟨s1, e3, gr⟩ := h.varWithPartials_ok y[i] hops g1 (by omega) (by omega)
    have hh : s1.tape.head = s.tape.head + (6 + 3 * ops.length) := by
      rw [gr.head]
      simp [Node.len, hl]
      omega
    obtain ⟨vs, s2, e4, hl4⟩ := ih gr.inv (fun v hv => ((Graph.Prefix.refl g).push _).has (hops v hv))
      (fun k hk => hi k (by simp [hk])) (by omega)
    refine ⟨⟨s.vhead⟩ :: vs, s2, ?_, hl4.trans gr.keep.level⟩
    unfold solVars
    rw [bind_ok e1, bind_ok e2, bind_ok e3, bind_ok e4]
    rfl

/-- one output time -/
theorem solLoop_total {pr : Problem} {ok : ℝ → List ℝ → List (List ℝ) → Prop} {ode : CvsRhs W ℝ} {m n : Nat}
    (hf : pr.f = ode.f) (hs : SensTotal pr ok ode m s.tape.head s.level) (sv : Solver ℝ σ) {ops : List Var}
    (hns : ode.ns = ops.length) (t : ℝ) (mem : σ) (y0 : List ℝ) (hi : Fine s g val adj m False) (hops : ∀ v ∈ ops, g.Has v)
    (room : s.tape.head + n * (6 + 3 * ops.length) ≤ cap) (ha : Asks pr ok (sv.step mem t))
    (hgood : ∀ r, Solves pr (sv.step mem t) r → r.1 = 0 ∧ r.2.1.length = n ∧ r.2.2.1.length = ops.length ∧
      ∀ v ∈ r.2.2.1, v.length = n) :
    ∃ yt y1 s', solLoop sv ode ops n [t] mem y0 s = .ok ((yt, y1), s') := by
  obtain ⟨⟨ierr, y, yS, mem'⟩, s1, val1, a1, e1, hsol, hi1, h1, h2⟩ := answer_total hf hs (sv.step mem t) hi rfl rfl ha
  obtain ⟨rfl, rfl, hS, hS'⟩ := hgood _ hsol
  obtain ⟨vs, s2, e2, -⟩ := solVars_total hS hS' (List.range y.length) hi1.inv hops
    (fun i hi => List.mem_range.mp hi) (by rw [h1, List.length_range]; exact room)
  refine ⟨[vs], y, s2, ?_⟩
  unfold solLoop
  rw [bind_ok e1]
  have e2' : solVars ops ode.ns y yS (List.range y.length) s1 = .ok (vs, s2) := by rw [hns]; exact e2
  simp only [ne_eq, not_true_eq_false, if_false]
  rw [bind_ok e2']
  rfl

theorem sensTotal_y {f : ℝ → List ℝ → List ℝ} {P : ℝ → Prog} {n K hd lv : Nat} (hlv : lv < maxNestedStack)
    (hroom : hd + K ≤ cap) (hc : ∀ u, ¬ (P u).hasConst) :
    SensTotal (W := W) (initProblem f P) (fun u y S => Fair P [] n n K u y S ∧ (∀ v ∈ S, v.length = n) ∧
      ((P u).sem (y ++ List.replicate n 0)).length = n ∧ 0 < n ∧
      ∀ j, hd + (6 * (2 * n) + (P u).cost (y ++ List.replicate n 0)) ≠ 12288 * 2 ^ j + 1)
      (newCvsRhsYvar true n f (odeY P [])) (2 * n) hd lv := by
  intro g val adj s u y S out hi hhd hl hok
  obtain ⟨⟨rfl, hS, h1, h2⟩, hS', hlen, hn, hfull⟩ := hok
  simp only [List.append_nil] at h1 h2
  have hroom' : Room s (P u) (y ++ List.replicate y.length 0) [] := by
    have : cap = tapeLimit := rfl
    simp only [Room, List.append_nil, List.length_append, List.length_replicate, List.length_nil] at *
    omega
  obtain ⟨out', t, val', a, e, hf, -⟩ := setSens_y_total (ys := []) (env := []) (P := P) (u := u) (y := y)
    (hi.weak (Or.inl (le_refl _)) (fun h => (hc u h).elim)) (by omega) (by simp) rfl f (by simpa using h1) hroom'
    (by simpa using hlen) ⟨by omega, fun j => by
      rw [hhd]
      simpa using hfull j⟩ hS hS' out
  obtain ⟨b1, b2, b3, -⟩ := setSens_y (env := []) (ys := []) hi.inv (fun nd hn => Or.inr (hi.fits nd hn)) (by simp) rfl
    (by simpa using h1) hroom' hS e
  exact ⟨out', t, val', a, e, b1, hf, by omega, by omega⟩

theorem sensTotal_p {f : ℝ → List ℝ → List ℝ} {P : ℝ → Prog} {q : List ℝ} {n K hd lv : Nat}
    (hq : q.length = 3) (hlv : lv < maxNestedStack) (hroom : hd + K ≤ cap) (hc : ∀ u, ¬ (P u).hasConst) :
    SensTotal (W := W) (paramProblem f P q) (fun u y S => Fair P q n q.length K u y S ∧ (∀ v ∈ S, v.length = n) ∧
      ((P u).sem (y ++ List.replicate n 0 ++ q)).length = n ∧
      ∀ j, hd + (6 * (2 * n + q.length) + (P u).cost (y ++ List.replicate n 0 ++ q)) ≠ 12288 * 2 ^ j + 1)
      (newCvsRhsPvar false q.length q f (odeP P [])) (2 * n + 3) hd lv := by
  intro g val adj s u y S out hi hhd hl hok
  have hok' := hok.1
  obtain ⟨⟨rfl, hS, h1, h2⟩, hS', hlen, hfull⟩ := hok
  have hroom' : Room s (P u) (y ++ List.replicate y.length 0 ++ q) [] := by
    have : cap = tapeLimit := rfl
    simp only [Room, List.append_nil, List.length_append, List.length_replicate, List.length_nil] at *
    omega
  obtain ⟨out', t, val', a, e, hf, -⟩ := setSens_p_total (ys := []) (env := []) (P := P) (u := u) (y := y) hq
    (hi.weak (Or.inl (le_refl _)) (fun h => (hc u h).elim)) (by omega) (by simp) rfl f (by simpa using h1) hroom'
    (by simpa using hlen) ⟨by omega, fun j => by
      rw [hhd]
      have := hfull j
      rw [hq] at this
      simpa using this⟩ (b := false) (by simpa using hq) hS hS' out
  obtain ⟨-, -, b1, b2, -⟩ := setSens_p (env := []) (ys := []) hi.inv (fun nd hn => Or.inr (hi.fits nd hn)) (by simp) rfl
    (by simpa using h1) hroom' (by simp) hS e
  obtain ⟨c1, -, -⟩ := sensOk_p (W := W) (f := f) hi.inv hi.fits (by rw [hhd]; exact hroom) hok' e
  exact ⟨out', t, val', a, e, c1, hf, by omega, by omega⟩

end Fz
