import Verif.Proof.Rules

/-!
# Several instructions on the same existing variables, one after the other
-/

set_option linter.unusedSectionVars false

namespace Fz
open Spec
variable {W : Type} [Rep W ℝ] [LawfulRep W ℝ]

theorem one_ok {m : M W Var} {s s' : St W} {outs : List Var} (e : (Spec.one m : M W (List Var)) s = .ok (outs, s')) :
    ∃ r, m s = .ok (r, s') ∧ outs = [r] := by
  cases em : m s with
  | error x =>
    have : (Spec.one m : M W (List Var)) s = .error x := by
      unfold Spec.one
      exact bind_err em
    rw [this] at e
    cases e
  | ok rs =>
    obtain ⟨r, s1⟩ := rs
    have : (Spec.one m : M W (List Var)) s = .ok ([r], s1) := by
      unfold Spec.one
      rw [bind_ok em]
      rfl
    rw [this] at e
    cases e
    exact ⟨r, rfl, rfl⟩

theorem Rated.each {ι : Type} {m : ι → M W Var} {i : ι → Instr} {env : ι → List Var} {u : Var} {K : Nat}
    (hrun : ∀ j, (i j).run (env j) = Spec.one (m j)) (hnc : ∀ j, ¬ isConst (i j)) :
    ∀ (l : List ι) {s : St W} {g : Graph ℝ} {val adj : Nat → ℝ} {D ε : Nat → ℝ →L[ℝ] ℝ}, Rated s g val adj D ε u →
    (∀ j ∈ l, ∀ v ∈ env j, g.Has v) → (∀ j ∈ l, (i j).Ok ((env j).map fun v => val (g.pos v))) →
    (∀ j ∈ l, (i j).cost ((env j).map fun v => val (g.pos v)) ≤ K) → s.tape.head + l.length * K ≤ cap →
    ∃ rs s', (l.mapM m : M W (List Var)) s = .ok (rs, s') ∧
      ∃ g' val' adj' D' ε', Rated s' g' val' adj' D' ε' u ∧ g.Prefix g' ∧ (∀ q < s.tape.head, D' q = D q) ∧
      (∀ q < s.tape.head, val' q = val q) ∧ (∀ q < s.tape.head, adj' q = adj q) ∧
      rs.length = l.length ∧
      ∀ k (hk : k < l.length) (hk' : k < rs.length), g'.Has rs[k] ∧
        val' (g'.pos rs[k]) = ((i l[k]).sem ((env l[k]).map fun v => val (g.pos v))).getD 0 0 ∧
        HasDerivAt (fun t => ((i l[k]).sem (along ((env l[k]).map fun v => val (g.pos v))
          ((env l[k]).map fun v => D (g.pos v) 1) t)).getD 0 0) (D' (g'.pos rs[k]) 1) 0 := by
  intro l
  induction l with
  | nil =>
    intro s g val adj D ε H _ _ _ _
    exact ⟨[], s, rfl, g, val, adj, D, ε, H, ⟨⟨[], by simp⟩, ⟨[], by simp⟩⟩, fun _ _ => rfl, fun _ _ => rfl, fun _ _ => rfl, rfl,
      fun k hk => by simp at hk⟩
  | cons j l ih =>
    intro s g val adj D ε H hh hok hcost hroom
    have hl : (j :: l).length * K = K + l.length * K := by simp [Nat.succ_mul, Nat.add_comm]
    have hcj := hcost j (by simp)
    obtain ⟨outs, s1, e, g1, val1, adj1, D1, ε1, H1, pre, d1, d2, d3, hd, ol, out⟩ := H.instr (env := env j) (i := i j)
      (hh j (by simp)) (hok j (by simp)) (hnc j) (by omega)
    rw [hrun] at e
    obtain ⟨r, em, rfl⟩ := one_ok e
    have same : ∀ j' ∈ l, ((env j').map fun v => val1 (g1.pos v)) = (env j').map fun v => val (g.pos v) := by
      intro j' hj'
      refine List.map_congr_left fun v hv => ?_
      have hv' := hh j' (by simp [hj']) v hv
      rw [pre.pos hv', d2 _ (H.sim.inv.has_lt hv')]
    have sameD : ∀ j' ∈ l, ((env j').map fun v => D1 (g1.pos v) 1) = (env j').map fun v => D (g.pos v) 1 := by
      intro j' hj'
      refine List.map_congr_left fun v hv => ?_
      have hv' := hh j' (by simp [hj']) v hv
      rw [pre.pos hv', d1 _ (H.sim.inv.has_lt hv')]
    obtain ⟨rs, s2, e2, g2, val2, adj2, D2, ε2, H2, pre2, d1', d2', d3', ol2, out2⟩ := ih H1
      (fun j' hj' v hv => pre.has (hh j' (by simp [hj']) v hv))
      (fun j' hj' => by rw [same j' hj']; exact hok j' (by simp [hj']))
      (fun j' hj' => by rw [same j' hj']; exact hcost j' (by simp [hj'])) (by omega)
    refine ⟨r :: rs, s2, ?_, g2, val2, adj2, D2, ε2, H2, pre.trans pre2, fun q hq => ?_, fun q hq => ?_, fun q hq => ?_,
      by simp [ol2], ?_⟩
    · rw [List.mapM_cons, bind_ok em, bind_ok e2]
      rfl
    · rw [d1' q (by omega), d1 q hq]
    · rw [d2' q (by omega), d2 q hq]
    · rw [d3' q (by omega), d3 q hq]
    · intro k hk hk'
      cases k with
      | zero =>
        obtain ⟨o1, o2, o3⟩ := out 0 (by simp)
        have hlt := H1.sim.inv.has_lt o1
        simp only [List.getElem_cons_zero] at o1 o2 o3 hlt ⊢
        refine ⟨pre2.has o1, ?_, ?_⟩
        · rw [pre2.pos o1, d2' _ hlt, o2]
        · rw [pre2.pos o1, d1' _ hlt]
          exact o3
      | succ k =>
        have hk1 : k < l.length := by simpa using hk
        obtain ⟨o1, o2, o3⟩ := out2 k hk1 (by simpa using hk')
        have hm : l[k] ∈ l := List.getElem_mem hk1
        simp only [List.getElem_cons_succ]
        refine ⟨o1, ?_, ?_⟩
        · rw [o2, same _ hm]
        · rw [same _ hm, sameD _ hm] at o3
          exact o3

variable {h : List (Call ℝ)} {c : Client W} {u : Var} {b : Var → ℝ}

/-- the same, as observed -/
theorem each_gives {ι : Type} (hr : Reach h c) {l : List ι} {m : ι → M W Var} {i : ι → Instr} {env : ι → List Var}
    {ys : ι → List ℝ} {a : ι → ℝ} {K : Nat} (hrun : ∀ j, (i j).run (env j) = Spec.one (m j))
    (hnc : ∀ j, ¬ isConst (i j)) (henv : ∀ j ∈ l, ∀ v ∈ env j, v ∈ existing c.st)
    (hys : ∀ j ∈ l, (vals (env j) : M W (List ℝ)) c.st = .ok (ys j, c.st)) (hok : ∀ j ∈ l, (i j).Ok (ys j))
    (hcost : ∀ j ∈ l, (i j).cost (ys j) ≤ K) (room : c.st.tape.head + l.length * K ≤ tapeLimit)
    (hu : u ∈ existing c.st) (hb : Rates c.st u b)
    (hd : ∀ j ∈ l, HasDerivAt (fun t => ((i j).sem (along (ys j) ((env j).map b) t)).getD 0 0) (a j) 0) :
    ∃ rs s', (l.mapM m : M W (List Var)) c.st = .ok (rs, s') ∧ rs.length = l.length ∧
      ∀ k (hk : k < l.length) (hk' : k < rs.length),
        Gives c.st s' rs[k] (((i l[k]).sem (ys l[k])).getD 0 0) u (a l[k]) := by
  obtain ⟨g, val, adj, D, ε, G, H, hD⟩ := rated hr hu hb
  have hh : ∀ j ∈ l, ∀ v ∈ env j, g.Has v := fun j hj v hv => (mem_existing G.inv).mp (henv j hj v hv)
  have hy : ∀ j ∈ l, ys j = (env j).map fun v => val (g.pos v) := fun j hj => vals_eq G.inv (hh j hj) (hys j hj)
  obtain ⟨rs, s', e, g', val', adj', D', ε', H', pre, d1, d2, d3, ol, out⟩ := Rated.each (K := K) hrun hnc l H hh
    (fun j hj => by rw [← hy j hj]; exact hok j hj) (fun j hj => by rw [← hy j hj]; exact hcost j hj) room
  refine ⟨rs, s', e, ol, fun k hk hk' => ?_⟩
  have hm : l[k] ∈ l := List.getElem_mem hk
  have hbD : (env l[k]).map (fun v => D (g.pos v) 1) = (env l[k]).map b :=
    List.map_congr_left fun v hv => hD v (henv _ hm v hv)
  obtain ⟨o1, o2, o3⟩ := out k hk hk'
  rw [← hy _ hm] at o2
  rw [← hy _ hm, hbD] at o3
  exact H.gives H' pre d1 d2 d3 o1 o2 (o3.unique (hd _ hm))

end Fz
