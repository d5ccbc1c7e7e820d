import Verif.Proof.OdeTotal

/-!
# The Jacobian of the right-hand side
-/

set_option linter.unusedSectionVars false

namespace Fz
open Arith Spec

variable {W : Type} [Rep W ℝ] [LawfulRep W ℝ]
variable {s s' t t' : St W} {g g' : Graph ℝ} {val adj val' adj' : Nat → ℝ}
variable {x ys : List ℝ} {p : Prog} {D' ε' : Nat → (Fin x.length → ℝ) →L[ℝ] ℝ} {xv outs : List Var}

section rows
variable {yvar : List Var}

theorem jacCols_ok (h : Inv t g' val' adj') (hy : ∀ v ∈ yvar, g'.Has v) (n i : Nat) (hn : 0 < n) :
    ∀ (js : List Nat) (jac jac' : Nat → ℝ), js.Nodup →
    (jacCols n i yvar js jac : M W (Nat → ℝ)) t = .ok (jac', t') →
    t' = t ∧ (∀ k, (∀ j ∈ js, k ≠ i + j * n) → jac' k = jac k) ∧
      ∀ j ∈ js, jac' (i + j * n) = (yvar.map fun v => adj' (g'.pos v)).getD j 0 := by
  intro js
  induction js with
  | nil =>
    intro jac jac' _ e
    cases e
    exact ⟨rfl, fun _ _ => rfl, by simp⟩
  | cons j js ih =>
    intro jac jac' hnd e
    have hnd' := List.nodup_cons.mp hnd
    unfold jacCols at e
    obtain ⟨v, t1, e1, k1⟩ := bind_inv e
    obtain ⟨hv, rfl⟩ := deref_inv e1
    obtain ⟨hjl, hjv⟩ := List.getElem?_eq_some_iff.mp hv
    rw [bind_ok (h.varAdj (hy v (hjv ▸ List.getElem_mem _)))] at k1
    obtain ⟨rfl, h1, h2⟩ := ih _ _ hnd'.2 k1
    have hne : ∀ j' ∈ js, i + j * n ≠ i + j' * n := fun j' hj' he => hnd'.1 (by
      have : j = j' := Nat.eq_of_mul_eq_mul_right hn (by omega)
      exact this ▸ hj')
    refine ⟨rfl, ?_, ?_⟩
    · intro k hk
      rw [h1 k fun j' hj' => hk j' (by simp [hj']), if_neg (hk j (by simp))]
    · intro j' hj'
      rcases List.mem_cons.mp hj' with rfl | hj'
      · rw [h1 _ hne, if_pos rfl]
        simp [List.getD_eq_getElem?_getD, hv]
      · exact h2 j' hj'

theorem jacRows_ok (hle : g.nodes.length ≤ g'.nodes.length)
    (hsep : ∀ nd ∈ g.nodes, ∀ nd' ∈ g'.nodes.drop g.nodes.length, nd'.pos ≠ nd.pos)
    (hok : ∀ nd ∈ g'.nodes, nd.ChainOK ∨ nd.Fits val') (ho : ∀ v ∈ outs, g'.Has v)
    (hy : ∀ v ∈ yvar, g'.Has v) {P : (Nat → ℝ) → Prop} {G : Nat → (Nat → ℝ) → Prop}
    (hP : ∀ a a', (∀ nd ∈ g.nodes, a' nd.pos = a nd.pos) → P a → P a')
    (step : Sweeps g g' val' outs P G) {n : Nat} (hn : outs.length = n) :
    ∀ (l i : Nat) {t t' : St W} {a : Nat → ℝ} {jac jac' : Nat → ℝ}, i + l = outs.length →
    Inv t g' val' a → InRegion t g → P a →
    (jacRows n yvar i (outs.drop i) jac : M W (Nat → ℝ)) t = .ok (jac', t') →
    (∃ mem a', t' = t.withMem mem ∧ Inv t' g' val' a' ∧ P a') ∧
    (∀ k j, k < i → j < n → jac' (k + j * n) = jac (k + j * n)) ∧
    ∀ k, i ≤ k → k < outs.length → ∃ a', G k a' ∧ ∀ j < n,
      jac' (k + j * n) = (yvar.map fun v => a' (g'.pos v)).getD j 0 := by
  intro l
  induction l with
  | zero =>
    intro i t t' a jac jac' hi h hr hPa e
    rw [List.drop_of_length_le (by omega)] at e
    cases e
    exact ⟨⟨t.tape.mem, a, rfl, h, hPa⟩, fun _ _ _ _ => rfl, fun k h1 h2 => by omega⟩
  | succ l ih =>
    intro i t t' a jac jac' hi h hr hPa e
    have hio : i < outs.length := by omega
    rw [List.drop_eq_getElem_cons hio] at e
    unfold jacRows at e
    obtain ⟨m2, a2, e4, i2, hz2, hk2⟩ := zeroRegion_ok h hr hle hsep
    rw [bind_ok e4] at e
    obtain ⟨⟨⟩, t1, e1, k1⟩ := bind_inv e
    obtain ⟨hf, m1, rfl, i1⟩ := gradNested_run i2 hok (ho _ (List.getElem_mem hio)) hr.pos hr.le hr.start hle e1
    obtain ⟨hP1, hG1⟩ := step a2 i hio hz2 hf (hP _ _ hk2 hPa)
    generalize hS : Fz.sweep val' (g'.nodes.drop g.nodes.length) (upd a2 (g'.pos outs[i]) 1) = S at hP1 hG1
    have hS' : Fz.sweep val' (g'.nodes.drop g.nodes.length) (upd a2 (g'.pos outs[i]) one) = S := hS
    rw [hS'] at i1
    obtain ⟨o1, t2, e2, k2⟩ := bind_inv k1
    obtain ⟨rfl, d1, d2⟩ := jacCols_ok i1 hy n i (by omega) _ _ _ List.nodup_range e2
    obtain ⟨⟨mem, a', rfl, i3, hP3⟩, f1, f2⟩ := ih (i + 1) (by omega) i1 hr.withMem.withMem hP1 k2
    refine ⟨⟨mem, a', rfl, i3, hP3⟩, ?_, ?_⟩
    · intro k j hk hj
      rw [f1 k j (by omega) hj, d1]
      intro j' hj' he
      have hj' := List.mem_range.mp hj'
      have h1 : (k + j * n) % n = k := by rw [Nat.add_mul_mod_self_right, Nat.mod_eq_of_lt (by omega)]
      have h2 : (i + j' * n) % n = i := by rw [Nat.add_mul_mod_self_right, Nat.mod_eq_of_lt (by omega)]
      rw [he, h2] at h1
      omega
    · intro k hk hko
      by_cases hki : i = k
      · subst hki
        refine ⟨S, hG1, fun j hj => ?_⟩
        rw [f1 i j (by omega) hj, d2 j (List.mem_range.mpr hj)]
      · exact f2 k (by omega) hko

end rows

theorem calcJac_eq (f : ℝ → List ℝ → List ℝ) (fy : ℝ → List Var → List Var → M W (List Var)) (b : Bool) (ns : Nat)
    (u : ℝ) (y : List ℝ) (jac : Nat → ℝ) :
    calcJacYvar (newCvsRhsYvar b ns f fy) u y jac = (do
      beginNested
      let yv ← newVars y
      let fv ← newVars (List.replicate y.length 0)
      let fv ← fy u yv fv
      let fv ← confN y.length fv
      let jac ← jacRows y.length yv 0 fv jac
      endNested
      pure jac) := by
  simp [calcJacYvar, newCvsRhsYvar, deref]

/-- the Jacobian of the right-hand side, column by column -/
theorem calcJac_ok (h : Inv s g val adj) (hcok : ∀ nd ∈ g.nodes, nd.ChainOK ∨ nd.Fits val) {env : List Var}
    (he : ∀ v ∈ env, g.Has v) (hys : ys = env.map fun v => val (g.pos v)) {f : ℝ → List ℝ → List ℝ} {P : ℝ → Prog}
    {u : ℝ} {y : List ℝ} (hok : (P u).Ok (y ++ List.replicate y.length 0 ++ ys))
    (hroom : Room s (P u) (y ++ List.replicate y.length 0) ys) {b : Bool} {ns : Nat}
    {jac jac' : Nat → ℝ} {t : St W}
    (e : calcJacYvar (newCvsRhsYvar b ns f (odeY P env)) u y jac s = .ok (jac', t)) :
    (∀ i < y.length, IsGradAt (odeFn (P u) y.length ys i) y ((List.range y.length).map fun j => jac' (i + j * y.length))) ∧
    t.level = s.level ∧ t.tape.head = s.tape.head ∧ t.vhead = s.vhead ∧ ∃ a, Inv t g val a := by
  rw [calcJac_eq] at e
  obtain ⟨⟨⟩, s0, e0, k0⟩ := bind_inv e
  obtain ⟨hl, rfl⟩ := begin_run e0
  obtain ⟨yv, s1, e1, k1⟩ := bind_inv k0
  obtain ⟨fv, s2, e2, k2⟩ := bind_inv k1
  obtain ⟨o, s3, e3, k3⟩ := bind_inv k2
  obtain ⟨o', s4, e4, k4⟩ := bind_inv k3
  obtain ⟨hlen, rfl, rfl⟩ := confN_inv e4
  obtain ⟨ou, s5, e5, k5⟩ := bind_inv k4
  obtain ⟨⟨⟩, s6, e6, k6⟩ := bind_inv k5
  cases k6
  have hnew : (newVars (y ++ List.replicate y.length 0) : M W (List Var)) s.begun = .ok (yv ++ fv, s2) := by
    rw [newVars_append, bind_ok e1, bind_ok e2]; rfl
  have hyl := newVars_len _ e1
  obtain ⟨xv, outs, s1', s', f1, f2, g', val', adj', D', ε', r⟩ := ranC h.begun he hys hok hroom
  rw [hnew] at f1
  cases f1
  change (P u).run (yv ++ fv ++ env) s2 = _ at e3
  rw [e3] at f2
  cases f2
  have hx : ∀ v ∈ yv ++ fv, g'.Has v := fun v hv => by
    obtain ⟨k, hk, rfl⟩ := List.getElem_of_mem hv
    exact (r.xs k hk).1
  have hsep : ∀ nd ∈ g.nodes, ∀ nd' ∈ g'.nodes.drop g.nodes.length, nd'.pos ≠ nd.pos := fun nd hn nd' hn' => by
    have := (r.zero nd' hn').1
    have := h.node_lt hn
    simp only [St.begun] at *
    omega
  obtain ⟨⟨mem, a, rfl, i1, -⟩, -, h2⟩ := jacRows_ok (g := g) (yvar := yv) (P := fun _ => True)
    (G := fun k a => IsGradAt ((P u).out ys k) (y ++ List.replicate y.length 0) ((yv ++ fv).map fun v => a (g'.pos v)))
    r.pre.nodes.length_le hsep (r.ok hcok)
    (fun v hv => by
      obtain ⟨k, hk, rfl⟩ := List.getElem_of_mem hv
      exact (r.os k hk).has)
    (fun v hv => hx v (by simp [hv]))
    (fun _ _ _ h => h) (fun a k hk hz hf _ => ⟨trivial, r.gradN hz hf hk⟩) hlen o'.length 0 (by omega) r.sim.inv
    (sens_begun h hl r.keep) trivial (by simpa using e5)
  obtain ⟨j, a1, a2, a3⟩ := Ran.close r hl i1 e6
  refine ⟨?_, a1, a2, a3, ⟨_, j.congr (fun nd hn => (r.val _ (h.node_lt hn)).symm) fun _ _ => rfl⟩⟩
  intro i hi
  obtain ⟨a', b1, b2⟩ := h2 i (Nat.zero_le _) (by omega)
  have b1' : IsGradAt ((P u).out ys i) (y ++ List.replicate y.length 0 ++ []) ((yv ++ fv).map fun v => a' (g'.pos v)) := by
    rw [List.append_nil]; exact b1
  have b3 := isGradAt_dropMid b1'
  rw [List.append_nil, List.drop_of_length_le (by simp [hyl, newVars_len _ e2]), List.append_nil, List.map_append,
    List.take_left' (by simpa using hyl)] at b3
  have : (yv.map fun v => a' (g'.pos v)) = (List.range y.length).map fun j => jac' (i + j * y.length) := by
    apply List.ext_getElem (by simp [hyl])
    intro k h1 h2
    simp only [List.length_map] at h1
    have := b2 k (by omega)
    simp only [List.getElem_map, List.getElem_range, this]
    simp [List.getD_eq_getElem?_getD, h1]
  rw [this] at b3
  exact b3

/-! ## calls that complete -/

theorem jacCols_total {yvar : List Var} (h : Inv t g' val' adj') (hy : ∀ v ∈ yvar, g'.Has v) (n i : Nat) :
    ∀ (js : List Nat) (jac : Nat → ℝ), (∀ j ∈ js, j < yvar.length) →
    ∃ jac', (jacCols n i yvar js jac : M W (Nat → ℝ)) t = .ok (jac', t) := by
  intro js
  induction js with
  | nil => intro jac _; exact ⟨jac, rfl⟩
  | cons j js ih =>
    intro jac hS
    have hj := hS j (by simp)
    have e1 : (deref yvar[j]? : M W Var) t = .ok (yvar[j], t) := by rw [List.getElem?_eq_getElem hj]; rfl
    obtain ⟨jac', e⟩ := ih (fun k => if k = i + j * n then adj' (g'.pos yvar[j]) else jac k) fun l hl => hS l (by simp [hl])
    refine ⟨jac', ?_⟩
    unfold jacCols
    rw [bind_ok e1, bind_ok (h.varAdj (hy _ (List.getElem_mem hj))), e]

theorem jacRows_total {yvar : List Var} (hle : g.nodes.length ≤ g'.nodes.length)
    (hsep : ∀ nd ∈ g.nodes, ∀ nd' ∈ g'.nodes.drop g.nodes.length, nd'.pos ≠ nd.pos)
    (hf : ∀ nd ∈ g'.nodes, nd.Fits val') (hy : ∀ v ∈ yvar, g'.Has v) {n : Nat} (hn : n = yvar.length) :
    ∀ (fvs : List Var) (i : Nat) {t : St W} {a : Nat → ℝ} (jac : Nat → ℝ), (∀ v ∈ fvs, g'.Has v) →
    Inv t g' val' a → InRegion t g →
    ∃ jac' mem a', (jacRows n yvar i fvs jac : M W (Nat → ℝ)) t = .ok (jac', t.withMem mem) ∧
      Inv (t.withMem mem) g' val' a' := by
  intro fvs
  induction fvs with
  | nil => intro i t a jac _ h _; exact ⟨jac, t.tape.mem, a, rfl, h⟩
  | cons fv fvs ih =>
    intro i t a jac hfv h hr
    have hv := hfv fv (by simp)
    have hf' : ∀ nd ∈ g'.nodes.drop g.nodes.length, nd.Fits val' := fun nd hn => hf nd (List.mem_of_mem_drop hn)
    obtain ⟨m2, a2, e4, i2, -, -⟩ := zeroRegion_ok h hr hle hsep
    have hr2 : InRegion (t.withMem m2) g := hr.withMem
    obtain ⟨m1, e1⟩ := gradNested_total i2 hv hr2.pos hr2.le hr2.start hle hf'
    obtain ⟨-, m1', e1', i1⟩ := gradNested_run i2 (fun nd hn => Or.inr (hf nd hn)) hv hr2.pos hr2.le hr2.start hle e1
    obtain ⟨o1, e2⟩ := jacCols_total i1 hy n i (List.range n) jac fun j hj => hn ▸ List.mem_range.mp hj
    obtain ⟨jac', mem, a', e5, i5⟩ := ih (i + 1) o1 (fun v hv => hfv v (by simp [hv])) i1 hr2.withMem
    refine ⟨jac', mem, a', ?_, i5⟩
    unfold jacRows
    rw [bind_ok e4, bind_ok e1, bind_ok e2, e5]
    rfl

theorem calcJac_total {env : List Var} {P : ℝ → Prog} {u : ℝ} {y : List ℝ}
    (h : Fine s g val adj (2 * y.length) (P u).hasConst) (hl : s.level < maxNestedStack)
    (he : ∀ v ∈ env, g.Has v) (hys : ys = env.map fun v => val (g.pos v)) (f : ℝ → List ℝ → List ℝ)
    (hok : (P u).Ok (y ++ List.replicate y.length 0 ++ ys))
    (hroom : Room s (P u) (y ++ List.replicate y.length 0) ys)
    (hlen : ((P u).sem (y ++ List.replicate y.length 0 ++ ys)).length = y.length)
    (hn : NotFull s (6 * (2 * y.length) + (P u).cost (y ++ List.replicate y.length 0 ++ ys)))
    (b : Bool) (ns : Nat) (jac : Nat → ℝ) :
    ∃ jac' t, calcJacYvar (newCvsRhsYvar b ns f (odeY P env)) u y jac s = .ok (jac', t) := by
  have hxl : (y ++ List.replicate y.length (0 : ℝ)).length = 2 * y.length := by simp; omega
  have h' : Fine s g val adj (y ++ List.replicate y.length (0 : ℝ)).length (P u).hasConst := hxl ▸ h
  obtain ⟨xv, outs, s1, s', f1, f2, g', val', adj', D', ε', r⟩ := ranC h.inv.begun he hys hok hroom
  obtain ⟨yv, fv, s0, rfl, e1, e2⟩ := newVars_split f1
  have hyl := newVars_len _ e1
  have hf := r.fine h'.begun
  have hx : ∀ v ∈ yv ++ fv, g'.Has v := fun v hv => by
    obtain ⟨k, hk, rfl⟩ := List.getElem_of_mem hv
    exact (r.xs k hk).1
  have hsep : ∀ nd ∈ g.nodes, ∀ nd' ∈ g'.nodes.drop g.nodes.length, nd'.pos ≠ nd.pos := fun nd hn nd' hn' => by
    have := (r.zero nd' hn').1
    have := h.inv.node_lt hn
    simp only [St.begun] at *
    omega
  obtain ⟨jac', mem, a, e5, i5⟩ := jacRows_total (yvar := yv) (n := y.length) r.pre.nodes.length_le hsep hf
    (fun v hv => hx v (by simp [hv])) hyl.symm outs 0 jac
    (fun v hv => by
      obtain ⟨k, hk, rfl⟩ := List.getElem_of_mem hv
      exact (r.os k hk).has) r.sim.inv (sens_begun h.inv hl r.keep)
  obtain ⟨t, e6, -⟩ := r.endNested h' hl (by rw [hxl]; exact hn) i5
  refine ⟨jac', t, ?_⟩
  have e3' : (odeY P env u yv fv : M W (List Var)) s1 = .ok (outs, s') := f2
  rw [calcJac_eq, bind_ok (begin_ok hl), bind_ok e1, bind_ok e2, bind_ok e3',
    bind_ok (confN_ok (by rw [r.len]; exact hlen) _), bind_ok e5, bind_ok e6]
  rfl

end Fz
