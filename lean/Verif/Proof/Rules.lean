import Verif.Proof.Local
import Verif.Proof.Ground

/-!
# What calls give: value and derivatives of the result
-/

set_option linter.unusedSectionVars false

namespace Fz
open Arith Spec

variable {W : Type} [Rep W ℝ] [LawfulRep W ℝ]
variable {s s' : St W} {g g' : Graph ℝ} {val adj val' adj' : Nat → ℝ}
variable {h : List (Call ℝ)} {c : Client W} {u : Var} {b : Var → ℝ} {vs : List Var} {ys : List ℝ}

/-- reachable states with known derivatives -/
theorem rated (hr : Reach h c) (hu : u ∈ existing c.st) (hb : Rates c.st u b) :
    ∃ g val adj D ε, Good c g val adj ∧ Rated c.st g val adj D ε u ∧
      (∀ v ∈ existing c.st, D (g.pos v) 1 = b v) := by
  obtain ⟨g, val, adj, G⟩ := hr.good
  have hu' := (mem_existing G.inv).mp hu
  obtain ⟨D, ε, H⟩ := Rated.of G.inv G.okf hu' hu' (hb u hu)
  refine ⟨g, val, adj, D, ε, G, H, fun v hv => ?_⟩
  have := hb v hv
  rw [H.rate ((mem_existing G.inv).mp hv)] at this
  exact Except.ok.inj this

theorem vals_eq (hi : Inv s g val adj) (hvs : ∀ v ∈ vs, g.Has v) (hys : (vals vs : M W (List ℝ)) s = .ok (ys, s)) :
    ys = vs.map fun v => val (g.pos v) := by
  rw [hi.varVals hvs] at hys
  cases hys
  rfl

/-- from ghost data to observations -/
theorem Rated.gives {D ε D' ε' : Nat → ℝ →L[ℝ] ℝ} (H : Rated s g val adj D ε u) (H' : Rated s' g' val' adj' D' ε' u)
    (pre : g.Prefix g') (hD : ∀ q < s.tape.head, D' q = D q) (hv : ∀ q < s.tape.head, val' q = val q)
    (ha : ∀ q < s.tape.head, adj' q = adj q) {r : Var} (hr : g'.Has r) {x a : ℝ} (hx : val' (g'.pos r) = x)
    (hd : D' (g'.pos r) 1 = a) : Gives s s' r x u a := by
  have hi := H.sim.inv
  have hi' := H'.sim.inv
  refine ⟨(mem_existing hi').mpr hr, by rw [hi'.varVal hr, hx], by rw [H'.rate hr, hd], fun v hv' => ?_⟩
  have hh := (mem_existing hi).mp hv'
  obtain ⟨nd, h1, h2⟩ := hh.at
  have hlt := hi.node_lt h1.mem
  refine ⟨(mem_existing hi').mpr (pre.has hh), ?_, ?_⟩
  · have h3 : g'.At v nd := by
      obtain ⟨l, hl⟩ := pre.nodes
      refine ⟨h1.1, ?_⟩
      rw [← hl]
      exact List.getElem?_append_left (List.getElem?_eq_some_iff.mp h1.2).1 ▸ h1.2
    rw [hi.seen h1, hi'.seen h3]
    simp [Node.view, hv _ hlt, ha _ hlt]
  · rw [H.rate hh, H'.rate (pre.has hh), pre.pos hh, hD _ (hi.has_lt hh)]

/-- a single instruction with one result -/
theorem instr_gives (hr : Reach h c) (hvs : ∀ v ∈ vs, v ∈ existing c.st)
    (hys : (vals vs : M W (List ℝ)) c.st = .ok (ys, c.st)) {i : Instr} {m : M W Var} {f : List ℝ → ℝ}
    (hm : i.run vs = Spec.one m) (hf : ∀ z, i.sem z = [f z]) (hok : i.Ok ys) (hc : ¬ isConst i)
    (room : c.st.tape.head + i.cost ys ≤ tapeLimit) (hu : u ∈ existing c.st) (hb : Rates c.st u b) {a : ℝ}
    (hd : HasDerivAt (fun t => f (along ys (vs.map b) t)) a 0) :
    ∃ r s', m c.st = .ok (r, s') ∧ Gives c.st s' r (f ys) u a := by
  obtain ⟨g, val, adj, D, ε, G, H, hD⟩ := rated hr hu hb
  have hh : ∀ v ∈ vs, g.Has v := fun v hv => (mem_existing G.inv).mp (hvs v hv)
  have hy := vals_eq G.inv hh hys
  have hl : ys.length = vs.length := by rw [hy]; simp
  have hp : ¬ (Prog.op i (.ret [ys.length])).hasConst := by
    intro h
    cases i <;> simp_all [Prog.hasConst, isConst]
  obtain ⟨outs, s', e, g', val', adj', D', ε', H', pre, d1, d2, d3, ol, out⟩ := H.prog (env := vs)
    (p := .op i (.ret [ys.length])) hh (by rw [← hy]; exact ⟨hok, by simp [hf, Prog.Ok]⟩) hp
    (by rw [← hy]; exact room)
  rw [← hy] at ol out
  have ho : outs.length = 1 := by rw [ol]; simp [Prog.sem]
  simp only [Prog.run, hm] at e
  cases em : m c.st with
  | error x =>
      have : (Spec.one m : M W (List Var)) c.st = .error x := by
        unfold Spec.one
        show Except.bind (m c.st) _ = _
        rw [em]; rfl
      change Except.bind ((Spec.one m : M W (List Var)) c.st) _ = _ at e
      rw [this] at e
      cases e
  | ok rs =>
      obtain ⟨r, s1⟩ := rs
      have : (Spec.one m : M W (List Var)) c.st = .ok ([r], s1) := by
        unfold Spec.one
        rw [bind_ok em]; rfl
      rw [bind_ok this] at e
      have e' : ([lookV (vs ++ [r]) ys.length], s1) = (outs, s') := Except.ok.inj e
      have hlk : lookV (vs ++ [r]) ys.length = r := by
        simp [lookV, List.getD_eq_getElem?_getD, hl]
      rw [hlk] at e'
      cases e'
      obtain ⟨o1, o2, o3⟩ := out 0 (by simp)
      have hfun : ∀ z : List ℝ, z.length = ys.length →
          ((Prog.op i (.ret [ys.length])).sem z).getD 0 0 = f z := by
        intro z hz
        simp [Prog.sem, hf, look, List.getD_eq_getElem?_getD, ← hz]
      refine ⟨r, _, rfl, H.gives H' pre d1 d2 d3 o1 (by rw [o2]; exact hfun ys rfl) ?_⟩
      refine o3.unique ?_
      have hbD : vs.map (fun v => D (g.pos v) 1) = vs.map b :=
        List.map_congr_left fun v hv => hD v (hvs v hv)
      rw [hbD]
      refine hd.congr_of_eventuallyEq (Filter.Eventually.of_forall fun t => ?_)
      exact hfun _ (by simp [along, hl])

/-- a single record with known contributions -/
theorem record_gives (hr : Reach h c) (hvs : ∀ v ∈ vs, v ∈ existing c.st)
    (hys : (vals vs : M W (List ℝ)) c.st = .ok (ys, c.st)) {m : M W Var} {x : ℝ} {ds coefs : List ℝ} {ch : Chain}
    (hm : ∀ g val adj, Inv c.st g val adj → (∀ v ∈ vs, g.Has v) → (vs.map fun v => val (g.pos v)) = ys →
      ∃ s', m c.st = .ok (⟨c.st.vhead⟩, s') ∧
        Inv.Grown c.st g val adj ⟨c.st.tape.head, vs.map g.pos, ds, ch, .plain⟩ x s')
    (hl : Local ch x ys ds coefs) (hu : u ∈ existing c.st) (hb : Rates c.st u b) :
    ∃ r s', m c.st = .ok (r, s') ∧ Gives c.st s' r x u (List.zipWith (fun k v => k * b v) coefs vs).sum := by
  obtain ⟨g, val, adj, D, ε, G, H, hD⟩ := rated hr hu hb
  have hh : ∀ v ∈ vs, g.Has v := fun v hv => (mem_existing G.inv).mp (hvs v hv)
  have hy := vals_eq G.inv hh hys
  obtain ⟨s', e, gr⟩ := hm g val adj G.inv hh hy.symm
  obtain ⟨D', ε', H', hd, hn⟩ := H.op hh gr (by rw [← hy]; exact hl)
  have hp : (g.push ⟨c.st.tape.head, vs.map g.pos, ds, ch, .plain⟩).pos ⟨c.st.vhead⟩ = c.st.tape.head := by
    rw [G.inv.vhead]
    exact g.pos_last _
  refine ⟨_, s', e, H.gives H' ((Graph.Prefix.refl g).push _) hd (fun q hq => upd_ne _ _ (by omega))
    (fun q hq => upd_ne _ _ (by omega)) ?_ ?_ ?_⟩
  · rw [G.inv.vhead]
    exact g.has_last _
  · rw [hp, upd_self]
  · rw [hp, hn]
    congr 1
    have : ∀ (l : List Var) (ks : List ℝ), (∀ v ∈ l, v ∈ existing c.st) →
        List.zipWith (fun k v => k * D (g.pos v) 1) ks l = List.zipWith (fun k v => k * b v) ks l := by
      intro l
      induction l with
      | nil => intro ks _; simp
      | cons v l ih =>
        intro ks hl
        cases ks with
        | nil => rfl
        | cons k ks =>
          simp only [List.zipWith_cons_cons]
          rw [ih ks fun w hw => hl w (by simp [hw]), hD v (hl v (by simp))]
    exact this vs coefs hvs

/-- the derivatives with respect to the first variable after `demo` -/
noncomputable def demoB (v : Var) : ℝ := if v.vi = 1 then 1 else if v.vi = 3 then 3 else 0

theorem demo_rates : ∃ c : Client W, Reach demo c ∧ c.st.tape.head = 21 ∧ existing c.st = [⟨1⟩, ⟨2⟩, ⟨3⟩] ∧
    ((⟨1⟩ : Var).val : M W ℝ) c.st = .ok (2, c.st) ∧ ((⟨2⟩ : Var).val : M W ℝ) c.st = .ok (3, c.st) ∧
    ((⟨3⟩ : Var).val : M W ℝ) c.st = .ok (6, c.st) ∧ Rates c.st ⟨1⟩ demoB := by
  obtain ⟨c, hr, -, -, H⟩ := demo_here (W := W)
  have hex : existing c.st = [⟨1⟩, ⟨2⟩, ⟨3⟩] := by simp [existing, H.inv.vhead, demoG, List.range_succ]
  have hh : ∀ k, k < 3 → demoG.Has ⟨k + 1⟩ := fun k hk => by simp [Graph.Has, demoG]; omega
  refine ⟨c, hr, H.head, hex, ?_, ?_, ?_, ?_⟩
  · rw [H.inv.varVal (hh 0 (by omega))]; simp [Graph.pos, demoG, demoV]
  · rw [H.inv.varVal (hh 1 (by omega))]; simp [Graph.pos, demoG, demoV]
  · rw [H.inv.varVal (hh 2 (by omega))]; simp [Graph.pos, demoG, demoV]
  · intro v hv
    obtain ⟨s1, e1, h1⟩ := H.zeroAll
    have hv' := (mem_existing H.inv).mp hv
    obtain ⟨s2, e2, h2⟩ := h1.grad hv' demoFits
    unfold rate partialOf
    rw [bind_ok e1, bind_ok e2, h2.inv.varAdj (hh 0 (by omega)), demoSweep]
    rw [hex] at hv
    simp only [List.mem_cons, List.not_mem_nil, or_false] at hv
    rcases hv with rfl | rfl | rfl <;> simp [Graph.pos, demoG, demoB, upd, Arith.one, Arith.zero]

end Fz
