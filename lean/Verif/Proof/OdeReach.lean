import Verif.Proof.OdeReplay
import Verif.Props.Reproduce
import Verif.Props.Storage

/-!
# Calls of `cvodes_sol` in a program that goes on
-/

set_option linter.unusedSectionVars false

namespace Fz
open Arith Spec Props

variable {W R : Type} [Arith R] [Rep W R] [LawfulRep W R]
variable {c : Client W} {g : Graph R} {val adj : Nat → R} {e ops : List Var} {ode : CvsRhs W R} {σ : Type}

theorem NestOK.zeros {nv nt : Nat → Nat} {ms : List Nat} : ∀ {g : Graph R} {hd : Nat} {env : List Var} (e : List Var),
    NestOK nv nt ms g hd env → NestOK nv nt (List.replicate ms.length 0) g hd e := by
  induction ms with
  | nil => intro g hd env e _; trivial
  | cons m ms ih =>
    intro g hd env e h
    obtain ⟨n, b, h1, h2, h3, h4, h5, h6, h7, h8, h9⟩ := h
    refine ⟨n, b, by simpa using h1, h2, h3, by simpa using h4, by simpa using h5, by simpa using h6, by simp, by simp, ?_⟩
    have := ih (e.take 0) h9
    simpa using this

/-- the same state with other variables to use -/
theorem Good.only (G : Good c g val adj) (he : ∀ v ∈ e, g.Has v) :
    Good ⟨c.st, e, List.replicate c.marks.length 0⟩ g val adj :=
  ⟨G.inv, G.cok, he, by simpa using G.lvl, G.max, G.nest.zeros e⟩

theorem map_nth_range (e : List Var) : (List.range e.length).map (nth e) = e := by
  apply List.ext_getElem (by simp)
  intro k h1 h2
  simp [nth, h2]

/-- what calls leave of the variables there were -/
structure Kept (R : Type) [Arith R] [Rep W R] (e : List Var) (s s' : St W) : Prop where
  keeps : Keeps R e s s'
  place : ∀ v ∈ existing s, (s'.varis v.vi).i = (s.varis v.vi).i

theorem Kept.refl (G : Good c g val adj) : Kept R e c.st c.st := by
  refine ⟨fun v hv => ⟨hv, ?_⟩, fun _ _ => rfl⟩
  obtain ⟨nd, h1, -⟩ := ((mem_existing G.inv).mp hv).at
  exact ⟨_, _, G.inv.seen h1, G.inv.seen h1, rfl, rfl, rfl, fun _ => rfl⟩

theorem Kept.trans {s1 s2 s3 : St W} (h1 : Kept R e s1 s2) (h2 : Kept R e s2 s3) : Kept R e s1 s3 := by
  refine ⟨fun v hv => ?_, fun v hv => ?_⟩
  · obtain ⟨m1, w1, w2, a1, a2, a3, a4, a5, a6⟩ := h1.keeps v hv
    obtain ⟨m2, u2, w3, b1, b2, b3, b4, b5, b6⟩ := h2.keeps v m1
    rw [a2] at b1
    cases b1
    exact ⟨m2, w1, w3, a1, b2, b3.trans a3, b4.trans a4, b5.trans a5, fun hn => (b6 hn).trans (a6 hn)⟩
  · rw [h2.place v (h1.keeps v hv).1, h1.place v hv]

theorem Kept.weaken {s1 s2 : St W} (h1 : Kept R [] s1 s2) : Kept R e s1 s2 := by
  refine ⟨fun v hv => ?_, h1.place⟩
  obtain ⟨m1, w1, w2, a1, a2, a3, a4, a5, a6⟩ := h1.keeps v hv
  exact ⟨m1, w1, w2, a1, a2, a3, a4, a5, fun _ => a6 (by simp)⟩

theorem Kept.record {s1 s2 : St W} (h : Kept R e s1 s2) {v : Var} (hv : v ∈ existing s1) (hn : v ∉ e)
    (ho : ∀ u ∈ ops, u ∈ existing s1) {x : R} {ds : List R} (hr : IsRecord s1 ops v x ds) :
    v ∈ existing s2 ∧ IsRecord s2 ops v x ds := by
  obtain ⟨m1, w1, w2, a1, a2, a3, a4, a5, a6⟩ := h.keeps v hv
  refine ⟨m1, ?_⟩
  unfold IsRecord at hr ⊢
  rw [hr] at a1
  cases a1
  have hp : (ops.map fun u => (s2.varis u.vi).i) = ops.map fun u => (s1.varis u.vi).i :=
    List.map_congr_left fun u hu => h.place u (ho u hu)
  rw [a2, hp]
  cases w2
  simp only at a3 a4 a5 a6
  rw [a3, a4, a5, a6 hn]

theorem Kept.vals {c' : Client W} {g' : Graph R} {val' adj' : Nat → R} (G : Good c g val adj)
    (G' : Good c' g' val' adj') {e' : List Var} (h : Kept R e c.st c'.st) (he : ∀ v ∈ e', g.Has v) {ys : List R}
    (hy : Fz.vals e' c.st = .ok (ys, c.st)) : Fz.vals e' c'.st = .ok (ys, c'.st) := by
  have he' : ∀ v ∈ e', g'.Has v := fun v hv =>
    (mem_existing G'.inv).mp (h.keeps v ((mem_existing G.inv).mpr (he v hv))).1
  rw [G.inv.varVals he] at hy
  rw [G'.inv.varVals he']
  injection hy with hy
  injection hy with hy
  have hq : e'.map (fun v => val (g.pos v)) = e'.map fun v => val' (g'.pos v) := by
    refine List.map_congr_left fun v hv => ?_
    obtain ⟨-, w, w', a1, a2, a3, -⟩ := h.keeps v ((mem_existing G.inv).mpr (he v hv))
    obtain ⟨nd, n1, n2⟩ := (he v hv).at
    obtain ⟨nd', n1', n2'⟩ := (he' v hv).at
    rw [G.inv.seen n1] at a1
    rw [G'.inv.seen n1'] at a2
    cases a1
    cases a2
    simpa [Node.view, n2, n2'] using a3.symm
  rw [← hq, hy]

/-- calls without assignment that close the regions they open -/
def Plainly (l : List (Call R)) : Prop := (∀ k ∈ l, k.Sane ∧ k.assigns = false) ∧ ∀ d, inside d l = some d

theorem inside_append : ∀ (l l' : List (Call R)) (d : Nat),
    inside d (l ++ l') = (inside d l).bind fun d' => inside d' l'
  | [], l', d => rfl
  | k :: l, l', d => by
    rw [List.cons_append, inside_cons, inside_cons]
    cases stepIn d k with
    | none => rfl
    | some d' => exact inside_append l l' d'

theorem Plainly.nil : Plainly ([] : List (Call R)) := ⟨by simp, fun _ => rfl⟩

theorem Plainly.append {l l' : List (Call R)} (h : Plainly l) (h' : Plainly l') : Plainly (l ++ l') := by
  refine ⟨fun k hk => ?_, fun d => ?_⟩
  · rcases List.mem_append.mp hk with hk | hk
    · exact h.1 k hk
    · exact h'.1 k hk
  · rw [inside_append, h.2]
    exact h'.2 d

theorem Plainly.region {l : List (Call R)} (h : ∀ k ∈ l, IsNested k) : Plainly (Call.begin :: l ++ [Call.done]) := by
  refine ⟨fun k hk => ?_, fun d => ?_⟩
  · simp only [List.mem_append, List.mem_cons, List.mem_singleton, List.not_mem_nil, or_false] at hk
    rcases hk with (rfl | hk) | rfl
    · exact ⟨trivial, rfl⟩
    · exact ⟨(h k hk).sane, (h k hk).noAssign⟩
    · exact ⟨trivial, rfl⟩
  · rw [inside_append]
    show (inside (d + 1) l).bind _ = _
    rw [inside_nested h]
    rfl

/-- one evaluation of the sensitivity right-hand side -/
theorem sens_run (G : Good c g val adj) (hrep : Replays e ode) (he : ∀ v ∈ e, v ∈ c.env) {t : R} {y : List R}
    {S : List (List R)} {out out' : Nat → Nat → R} {s' : St W}
    (h : setSensRhs ode t y S out c.st = .ok (out', s')) :
    ∃ l : List (Call R), Plainly l ∧ Spec.run l c = .ok ⟨s', c.env, c.marks⟩ ∧ Kept R e c.st s' := by
  obtain ⟨is, hi, hn⟩ := names_of he
  obtain ⟨l, h1, h2⟩ := hrep hi hn h
  refine ⟨_, Plainly.region h1, h2, ?_⟩
  obtain ⟨l, h1, h2⟩ := hrep (c := ⟨c.st, e, List.replicate c.marks.length 0⟩) (is := List.range e.length)
    (by simp) (map_nth_range e).symm h
  have G0 := G.only (e := e) fun v hv => G.has v (he v hv)
  have key : ∀ v, g.Has v → ∃ (g' : Graph R) (val' adj' : Nat → R),
      Closed v True (v ∉ e) False ⟨c.st, e, List.replicate c.marks.length 0⟩ g val adj
        ⟨s', e, List.replicate c.marks.length 0⟩ g' val' adj' := by
    intro v hv
    refine closed G0 (fun _ => hv) (inside_nested h1 0) (fun k hk => (h1 k hk).sane) (fun k hk => ⟨fun _ => (h1 k hk).noAssign,
      fun hne => ⟨(h1 k hk).local, fun i _ hi hv => hne ?_⟩, False.elim⟩) h2
    rw [← hv]
    exact nth_mem hi
  refine ⟨fun v hv => ?_, fun v hv => ?_⟩
  · have hv' := (mem_existing G.inv).mp hv
    obtain ⟨g', val', adj', cl⟩ := key v hv'
    obtain ⟨w, w', a1, a2, a3, a4, a5, a6, a7, a8⟩ := closed_seen G0 hv' cl
    refine ⟨?_, w, w', a1, a2, by rw [a6, a5, cl.valV trivial], a3, a4, fun hn => by rw [a8, a7, cl.adjA hn]⟩
    have := cl.vhead
    simp only at this
    unfold existing at hv ⊢
    rw [this]
    exact hv
  · have hv' := (mem_existing G.inv).mp hv
    obtain ⟨g', val', adj', cl⟩ := key v hv'
    obtain ⟨nd, h1, h2⟩ := hv'.at
    obtain ⟨ch, hch⟩ := erase_nodes_get (g := g) (g' := g') (by rw [cl.pre]) h1.2
    have t1 := G.inv.tab _ _ h1.2
    have t2 := cl.good.inv.tab _ _ hch
    rw [Nat.sub_add_cancel h1.1] at t1 t2
    simp only at t2
    rw [t1, t2]

theorem answer_run (hrep : Replays e ode) : ∀ (call : Solving R σ) {c : Client W} {g : Graph R} {val adj : Nat → R}
    {r : Int × List R × List (List R) × σ} {s' : St W}, Good c g val adj → (∀ v ∈ e, v ∈ c.env) →
    answer ode call c.st = .ok (r, s') →
    ∃ l : List (Call R), Plainly l ∧ Spec.run l c = .ok ⟨s', c.env, c.marks⟩ ∧ Kept R e c.st s' := by
  intro call
  induction call with
  | done i y yS m =>
    intro c g val adj r s' G _ h
    cases h
    exact ⟨[], Plainly.nil, rfl, Kept.refl G⟩
  | rhs t y k ih =>
    intro c g val adj r s' G he h
    unfold answer at h
    exact ih _ G he h
  | sens t y yS k ih =>
    intro c g val adj r s' G he h
    unfold answer at h
    obtain ⟨out, s1, e1, k1⟩ := bind_inv h
    obtain ⟨l, h1, h2, h3⟩ := sens_run G hrep he e1
    obtain ⟨g1, val1, adj1, G1⟩ := Good.run l G (fun k hk => (h1.1 k hk).1) h2
    obtain ⟨l', h4, h5, h6⟩ := ih _ (c := ⟨s1, c.env, c.marks⟩) G1 he k1
    refine ⟨l ++ l', h1.append h4, ?_, h3.trans h6⟩
    rw [run_append, h2]
    exact h5

theorem gather_runs (yS : List (List R)) (i : Nat) : ∀ (l : List Nat) (g0 : List R) {g1 : List R} {s s' : St W},
    (gather yS i l g0 : M W (List R)) s = .ok (g1, s') →
    s' = s ∧ g1.length = g0.length ∧ (∀ k, k ∉ l → g1.getD k zero = g0.getD k zero) ∧
      ∀ k ∈ l, k < g0.length ∧ g1.getD k zero = (yS.getD k []).getD i zero := by
  intro l
  induction l with
  | nil =>
    intro g0 g1 s s' e
    cases e
    exact ⟨rfl, rfl, fun _ _ => rfl, by simp⟩
  | cons j l ih =>
    intro g0 g1 s s' e
    unfold gather at e
    obtain ⟨v, s1, e1, k1⟩ := bind_inv e
    obtain ⟨hv, rfl⟩ := deref_inv e1
    obtain ⟨x, s2, e2, k2⟩ := bind_inv k1
    obtain ⟨hx, rfl⟩ := deref_inv e2
    split at k2
    · rename_i hj
      obtain ⟨h1, h2, h3, h4⟩ := ih _ k2
      refine ⟨h1, by simpa using h2, fun k hk => ?_, fun k hk => ?_⟩
      · have hkj : j ≠ k := fun h => hk (by simp [h])
        rw [h3 k fun h => hk (by simp [h])]
        simp [List.getD_eq_getElem?_getD, List.getElem?_set_ne hkj]
      · by_cases hkl : k ∈ l
        · have := h4 k hkl
          simpa using this
        · have hkj : k = j := by simpa [hkl] using hk
          subst hkj
          refine ⟨hj, ?_⟩
          rw [h3 k hkl]
          simp [List.getD_eq_getElem?_getD, hj, hv, hx]
    · cases k2

theorem gather_list {yS : List (List R)} {i ns : Nat} {g1 : List R} {s s' : St W}
    (e : (gather yS i (List.range ns) (List.replicate ns zero) : M W (List R)) s = .ok (g1, s')) :
    s' = s ∧ g1 = (List.range ns).map fun j => (yS.getD j []).getD i zero := by
  obtain ⟨h1, h2, h3, h4⟩ := gather_runs yS i _ _ e
  refine ⟨h1, List.ext_getElem (by simp [h2]) fun k hk hk' => ?_⟩
  have hk'' : k < ns := by simpa using hk'
  have := (h4 k (List.mem_range.mpr hk'')).2
  rw [List.getD_eq_getElem?_getD, List.getElem?_eq_getElem hk, Option.getD_some] at this
  simpa using this

/-- one variable of the solution -/
theorem partials_run (G : Good c g val adj) (ho : ∀ v ∈ ops, v ∈ c.env) {x : R} {ds : List R}
    (hl : ds.length = ops.length) {v : Var} {s' : St W} (h : (varWithPartials x ops ds : M W Var) c.st = .ok (v, s')) :
    ∃ l : List (Call R), Plainly l ∧ Spec.run l c = .ok ⟨s', c.env ++ [v], c.marks⟩ ∧ Kept R [] c.st s' ∧
      v ∉ existing c.st ∧ v ∈ existing s' ∧ IsRecord s' ops v x ds := by
  obtain ⟨is, hi, rfl⟩ := names_of ho
  have hh : ∀ v ∈ is.map (nth c.env), g.Has v := fun v hv => G.has v (ho v hv)
  have hex : (Call.make (.partials x is ds)).exec c = .ok ⟨s', c.env ++ [v], c.marks⟩ := by
    unfold Call.exec
    rw [if_pos (show ∀ i ∈ (Call.make (.partials x is ds)).args, i < c.env.length from hi)]
    simp only [Call.step, Make.call, single]
    rw [bind_ok h]
    rfl
  refine ⟨[.make (.partials x is ds)], ⟨by simp [Call.Sane, Make.Sane, Call.assigns], fun _ => rfl⟩, ?_, ?_⟩
  · rw [run_cons, hex]
    rfl
  · unfold varWithPartials at h
    rw [if_neg (by simp at hl ⊢; omega), List.take_of_length_le (by omega)] at h
    obtain ⟨rfl, gr⟩ := newOpDop_inv G.inv hh x ds .eager v s' h
    have hvh := G.inv.vhead
    have hat := g.at_last ⟨c.st.tape.head, (is.map (nth c.env)).map g.pos, ds, .eager, .plain⟩
    rw [← hvh] at hat
    have hpl : ∀ u, g.Has u → (s'.varis u.vi).i = (c.st.varis u.vi).i := by
      intro u hu
      obtain ⟨nd, n1, n2⟩ := hu.at
      have := (n1.push ⟨c.st.tape.head, (is.map (nth c.env)).map g.pos, ds, .eager, .plain⟩)
      have t1 := G.inv.tab _ _ n1.2
      have t2 := gr.inv.tab _ _ this.2
      rw [Nat.sub_add_cancel n1.1] at t1 t2
      rw [t1, t2]
    refine ⟨⟨fun u hu => ?_, fun u hu => hpl u ((mem_existing G.inv).mp hu)⟩, ?_, ?_, ?_⟩
    · have hu' := (mem_existing G.inv).mp hu
      obtain ⟨nd, n1, n2⟩ := hu'.at
      refine ⟨(mem_existing gr.inv).mpr (hu'.push _), _, _, G.inv.seen n1, ?_, rfl, rfl, rfl, fun _ => rfl⟩
      rw [grown_seen G.inv gr rfl hu', G.inv.seen n1]
    · rw [mem_existing G.inv]
      simp only [Graph.Has]
      omega
    · rw [mem_existing gr.inv, hvh]
      exact g.has_last _
    · unfold IsRecord
      rw [gr.inv.seen hat]
      have : ((is.map (nth c.env)).map fun u => (s'.varis u.vi).i) = (is.map (nth c.env)).map g.pos :=
        List.map_congr_left fun u hu => by rw [hpl u (hh u hu), seen_pos G.inv (hh u hu)]
      rw [this]
      simp [Node.view]

theorem solVars_run (y : List R) (yS : List (List R)) : ∀ (idx : List Nat) {c : Client W} {g : Graph R}
    {val adj : Nat → R} {vs : List Var} {s' : St W}, Good c g val adj → (∀ v ∈ ops, v ∈ c.env) →
    solVars ops ops.length y yS idx c.st = .ok (vs, s') →
    ∃ l : List (Call R), Plainly l ∧ Spec.run l c = .ok ⟨s', c.env ++ vs, c.marks⟩ ∧ Kept R [] c.st s' ∧
      vs.length = idx.length ∧ ∀ k (_ : k < idx.length) (_ : k < vs.length), vs[k] ∉ existing c.st ∧
        vs[k] ∈ existing s' ∧ idx[k] < y.length ∧ IsRecord s' ops vs[k] (y.getD idx[k] zero)
          ((List.range ops.length).map fun j => (yS.getD j []).getD idx[k] zero) := by
  intro idx
  induction idx with
  | nil =>
    intro c g val adj vs s' G _ h
    cases h
    refine ⟨[], Plainly.nil, ?_, Kept.refl G, rfl, fun k h1 => by simp at h1⟩
    rw [List.append_nil]
    rfl
  | cons i idx ih =>
    intro c g val adj vs s' G ho h
    unfold solVars at h
    obtain ⟨gr, s1, e1, k1⟩ := bind_inv h
    obtain ⟨rfl, rfl⟩ := gather_list e1
    obtain ⟨x, s2, e2, k2⟩ := bind_inv k1
    obtain ⟨hx, rfl⟩ := deref_inv e2
    obtain ⟨v, s3, e3, k3⟩ := bind_inv k2
    obtain ⟨vs', s4, e4, k4⟩ := bind_inv k3
    cases k4
    obtain ⟨l, h1, h2, h3, h4, h5, h6⟩ := partials_run G ho (by simp) e3
    obtain ⟨g1, val1, adj1, G1⟩ := Good.run l G (fun k hk => (h1.1 k hk).1) h2
    obtain ⟨l', a1, a2, a3, a4, a5⟩ := ih (c := ⟨s3, c.env ++ [v], c.marks⟩) G1
      (fun v hv => List.mem_append_left _ (ho v hv)) e4
    have hoe : ∀ u ∈ ops, u ∈ existing s3 := fun u hu =>
      (mem_existing G1.inv).mpr (G1.has u (List.mem_append_left _ (ho u hu)))
    refine ⟨l ++ l', h1.append a1, ?_, h3.trans a3, by simp [a4], fun k p1 p2 => ?_⟩
    · rw [run_append, h2]
      show Spec.run l' _ = _
      rw [a2, List.append_assoc]
      rfl
    · cases k with
      | zero =>
        obtain ⟨hi', hxe⟩ := List.getElem?_eq_some_iff.mp hx
        have hy : y.getD i zero = x := by simp [List.getD_eq_getElem?_getD, hx]
        obtain ⟨b1, b2⟩ := a3.record h5 (by simp) hoe h6
        refine ⟨h4, b1, hi', ?_⟩
        simp only [List.getElem_cons_zero, hy]
        exact b2
      | succ k =>
        obtain ⟨b1, b2, b3, b4⟩ := a5 k (by simpa using p1) (by simpa using p2)
        exact ⟨fun hm => b1 (h3.keeps _ hm).1, b2, b3, b4⟩

theorem solLoop_run (hrep : Replays e ode) (hns : ode.ns = ops.length) (sv : Solver R σ) (n : Nat) : ∀ (ts : List R)
    (mem : σ) (y0 : List R) {c : Client W} {g : Graph R} {val adj : Nat → R} {r : List (List Var) × List R} {s' : St W},
    Good c g val adj → (∀ v ∈ ops, v ∈ c.env) → (∀ v ∈ e, v ∈ c.env) →
    solLoop sv ode ops n ts mem y0 c.st = .ok (r, s') →
    ∃ l : List (Call R), Plainly l ∧ Spec.run l c = .ok ⟨s', c.env ++ r.1.flatten, c.marks⟩ ∧ Kept R e c.st s' ∧
      ∀ v ∈ r.1.flatten, v ∉ existing c.st := by
  intro ts
  induction ts with
  | nil =>
    intro mem y0 c g val adj r s' G _ _ h
    cases h
    refine ⟨[], Plainly.nil, ?_, Kept.refl G, by simp⟩
    simp only [List.flatten_nil]
    rw [List.append_nil]
    rfl
  | cons t ts ih =>
    intro mem y0 c g val adj r s' G ho he h
    unfold solLoop at h
    obtain ⟨⟨ierr, y, yS, mem'⟩, s1, e1, k1⟩ := bind_inv h
    obtain ⟨l1, a1, a2, a3⟩ := answer_run hrep (sv.step mem t) G he e1
    obtain ⟨g1, val1, adj1, G1⟩ := Good.run l1 G (fun k hk => (a1.1 k hk).1) a2
    simp only at k1
    split at k1
    · cases k1
    · obtain ⟨vs, s2, e2, k2⟩ := bind_inv k1
      rw [hns] at e2
      obtain ⟨l2, b1, b2, b3, b4, b5⟩ := solVars_run y yS _ (c := ⟨s1, c.env, c.marks⟩) G1 ho e2
      obtain ⟨g2, val2, adj2, G2⟩ := Good.run l2 G1 (fun k hk => (b1.1 k hk).1) b2
      obtain ⟨⟨rest, y2⟩, s3, e3, k3⟩ := bind_inv k2
      cases k3
      obtain ⟨l3, d1, d2, d3, d4⟩ := ih mem' y (c := ⟨s2, c.env ++ vs, c.marks⟩) G2
        (fun v hv => List.mem_append_left _ (ho v hv)) (fun v hv => List.mem_append_left _ (he v hv)) e3
      refine ⟨l1 ++ (l2 ++ l3), a1.append (b1.append d1), ?_, a3.trans (b3.weaken.trans d3), fun v hv hx => ?_⟩
      · rw [run_append, a2]
        show Spec.run (l2 ++ l3) _ = _
        rw [run_append, b2]
        show Spec.run l3 _ = _
        rw [d2, List.flatten_cons, List.append_assoc]
      · rw [List.flatten_cons] at hv
        rcases List.mem_append.mp hv with hv | hv
        · obtain ⟨k, hk, rfl⟩ := List.getElem_of_mem hv
          exact (b5 k (by omega) hk).1 (a3.keeps _ hx).1
        · exact d4 v hv (b3.keeps _ (a3.keeps _ hx).1).1

/-! ## Two runs -/

section two
variable {W1 W2 : Type} [Rep W1 R] [LawfulRep W1 R] [Rep W2 R] [LawfulRep W2 R]
variable {e1 e2 ops1 ops2 : List Var} {ode1 : CvsRhs W1 R} {ode2 : CvsRhs W2 R} {ys : List R}

/-- two sensitivity right-hand sides agree when the outer variables have the same values -/
def Agrees (ys : List R) (e1 e2 : List Var) (ode1 : CvsRhs W1 R) (ode2 : CvsRhs W2 R) : Prop :=
  ∀ {c1 : Client W1} {c2 : Client W2} {g1 g2 : Graph R} {v1 a1 v2 a2 : Nat → R} {t : R} {y : List R}
    {S : List (List R)} {out o1 o2 : Nat → Nat → R} {s1 : St W1} {s2 : St W2}, Good c1 g1 v1 a1 → Good c2 g2 v2 a2 →
    (∀ v ∈ e1, v ∈ c1.env) → (∀ v ∈ e2, v ∈ c2.env) → vals e1 c1.st = .ok (ys, c1.st) → vals e2 c2.st = .ok (ys, c2.st) →
    setSensRhs ode1 t y S out c1.st = .ok (o1, s1) → setSensRhs ode2 t y S out c2.st = .ok (o2, s2) → o1 = o2

theorem body_same {c1 : Client W1} {c2 : Client W2} {g1 g2 : Graph R} {v1 a1 v2 a2 : Nat → R} (G1 : Good c1 g1 v1 a1)
    (G2 : Good c2 g2 v2 a2) (m1 : ∀ v ∈ e1, v ∈ c1.env) (m2 : ∀ v ∈ e2, v ∈ c2.env)
    (q1 : vals e1 c1.st = .ok (ys, c1.st)) (q2 : vals e2 c2.st = .ok (ys, c2.st)) {f : Code R} (hf : f.Sane)
    {y q : List R} {S : List (List R)} {ns m : Nat} {par : Bool} {out o1 o2 : Nat → Nat → R} {s1 t1 : St W1} {s2 t2 : St W2}
    (b1 : (beginNested : M W1 Unit) c1.st = .ok ((), s1)) (b2 : (beginNested : M W2 Unit) c2.st = .ok ((), s2))
    (d1 : sensBody f e1 y q S ns m par out s1 = .ok (o1, t1)) (d2 : sensBody f e2 y q S ns m par out s2 = .ok (o2, t2)) :
    o1 = o2 := by
  replace m1 : ∀ v ∈ e1, _ := fun v hv => G1.has v (m1 v hv)
  replace m2 : ∀ v ∈ e2, _ := fun v hv => G2.has v (m2 v hv)
  obtain ⟨k1, rfl, K1, T1⟩ := begun G1 b1
  obtain ⟨k2, rfl, K2, T2⟩ := begun G2 b2
  obtain ⟨B, a, b, hn, -, p1, p2, t, he⟩ := twin_start K1 K2 m1 m2 (same_vals G1 K1 m1 q1) (same_vals G2 K2 m2 q2) True
    (fun _ => T1) (fun _ => T2)
  rw [← p1] at d1
  rw [← p2] at d2
  obtain ⟨_, _, _, _, _, _, _, hz⟩ := tt_sensBody t (by rw [hn]; trivial) f hf he y q S ns m par out _ _ _ _ d1 d2
  exact hz

theorem agrees_y {F : R → Code R} (hF : ∀ t, (F t).Sane) (f : R → List R → List R) (n : Nat) :
    Agrees ys e1 e2 (newCvsRhsYvar true n f (Code.odeY F e1) : CvsRhs W1 R)
      (newCvsRhsYvar true n f (Code.odeY F e2) : CvsRhs W2 R) := by
  intro c1 c2 g1 g2 v1 a1 v2 a2 t y S out o1 o2 s1 s2 G1 G2 m1 m2 q1 q2 h1 h2
  obtain ⟨x1, x2, b1, d1, -⟩ := setSens_body_y h1
  obtain ⟨x3, x4, b2, d2, -⟩ := setSens_body_y h2
  exact body_same G1 G2 m1 m2 q1 q2 (hF t) b1 b2 d1 d2

theorem agrees_p {F : R → Code R} (hF : ∀ t, (F t).Sane) (f : R → List R → List R) (n : Nat) (q : List R) :
    Agrees ys e1 e2 (newCvsRhsPvar false n q f (Code.odeP F e1) : CvsRhs W1 R)
      (newCvsRhsPvar false n q f (Code.odeP F e2) : CvsRhs W2 R) := by
  intro c1 c2 g1 g2 v1 a1 v2 a2 t y S out o1 o2 s1 s2 G1 G2 m1 m2 q1 q2 h1 h2
  obtain ⟨x1, x2, b1, d1, -⟩ := setSens_body_p h1
  obtain ⟨x3, x4, b2, d2, -⟩ := setSens_body_p h2
  exact body_same G1 G2 m1 m2 q1 q2 (hF t) b1 b2 d1 d2

theorem answer_same (hag : Agrees ys e1 e2 ode1 ode2) (r1 : Replays e1 ode1) (r2 : Replays e2 ode2)
    (hf : ode1.f = ode2.f) (hns : ode1.ns = ode2.ns) : ∀ (call : Solving R σ) {c1 : Client W1} {c2 : Client W2}
    {g1 g2 : Graph R} {v1 a1 v2 a2 : Nat → R} {z1 z2 : Int × List R × List (List R) × σ} {s1 : St W1} {s2 : St W2},
    Good c1 g1 v1 a1 → Good c2 g2 v2 a2 → (∀ v ∈ e1, v ∈ c1.env) → (∀ v ∈ e2, v ∈ c2.env) →
    vals e1 c1.st = .ok (ys, c1.st) → vals e2 c2.st = .ok (ys, c2.st) →
    answer ode1 call c1.st = .ok (z1, s1) → answer ode2 call c2.st = .ok (z2, s2) → z1 = z2 := by
  intro call
  induction call with
  | done i y yS m =>
    intro c1 c2 g1 g2 v1 a1 v2 a2 z1 z2 s1 s2 G1 G2 m1 m2 q1 q2 h1 h2
    cases h1
    cases h2
    rfl
  | rhs t y k ih =>
    intro c1 c2 g1 g2 v1 a1 v2 a2 z1 z2 s1 s2 G1 G2 m1 m2 q1 q2 h1 h2
    unfold answer at h1 h2
    rw [← hf] at h2
    exact ih _ G1 G2 m1 m2 q1 q2 h1 h2
  | sens t y yS k ih =>
    intro c1 c2 g1 g2 v1 a1 v2 a2 z1 z2 s1 s2 G1 G2 m1 m2 q1 q2 h1 h2
    unfold answer at h1 h2
    obtain ⟨o1, t1, x1, k1⟩ := bind_inv h1
    obtain ⟨o2, t2, x2, k2⟩ := bind_inv h2
    have ho := hag G1 G2 m1 m2 q1 q2 x1 x2
    subst ho
    obtain ⟨l1, p1, p2, p3⟩ := sens_run G1 r1 m1 x1
    obtain ⟨l2, p4, p5, p6⟩ := sens_run G2 r2 m2 x2
    obtain ⟨g3, v3, a3, G3⟩ := Good.run l1 G1 (fun k hk => (p1.1 k hk).1) p2
    obtain ⟨g4, v4, a4, G4⟩ := Good.run l2 G2 (fun k hk => (p4.1 k hk).1) p5
    rw [← hns] at k2
    exact ih _ (c1 := ⟨t1, c1.env, c1.marks⟩) (c2 := ⟨t2, c2.env, c2.marks⟩) G3 G4 m1 m2
      (Kept.vals G1 G3 p3 (fun v hv => G1.has v (m1 v hv)) q1) (Kept.vals G2 G4 p6 (fun v hv => G2.has v (m2 v hv)) q2) k1 k2

theorem solLoop_same (hag : Agrees ys e1 e2 ode1 ode2) (r1 : Replays e1 ode1) (r2 : Replays e2 ode2)
    (hf : ode1.f = ode2.f) (hns1 : ode1.ns = ops1.length) (hns2 : ode2.ns = ops2.length)
    (hl : ops1.length = ops2.length) (sv : Solver R σ) (n : Nat) : ∀ (ts : List R) (mem : σ) (y0 : List R)
    {c1 : Client W1} {c2 : Client W2} {g1 g2 : Graph R} {v1 a1 v2 a2 : Nat → R} {z1 z2 : List (List Var) × List R}
    {s1 : St W1} {s2 : St W2}, Good c1 g1 v1 a1 → Good c2 g2 v2 a2 →
    (∀ v ∈ ops1, v ∈ c1.env) → (∀ v ∈ ops2, v ∈ c2.env) → (∀ v ∈ e1, v ∈ c1.env) → (∀ v ∈ e2, v ∈ c2.env) →
    vals e1 c1.st = .ok (ys, c1.st) → vals e2 c2.st = .ok (ys, c2.st) →
    solLoop sv ode1 ops1 n ts mem y0 c1.st = .ok (z1, s1) → solLoop sv ode2 ops2 n ts mem y0 c2.st = .ok (z2, s2) →
    z1.2 = z2.2 ∧ ∃ sol : List (List R × List (List R)), z1.2 = (sol.map Prod.fst).getLastD y0 ∧ sol.length = ts.length ∧
      Carries s1 ops1 n z1.1 sol ∧ Carries s2 ops2 n z2.1 sol := by
  intro ts
  induction ts with
  | nil =>
    intro mem y0 c1 c2 g1 g2 v1 a1 v2 a2 z1 z2 s1 s2 _ _ _ _ _ _ _ _ h1 h2
    cases h1
    cases h2
    exact ⟨rfl, [], rfl, rfl, ⟨rfl, fun k h1 => by simp at h1⟩, ⟨rfl, fun k h1 => by simp at h1⟩⟩
  | cons t ts ih =>
    intro mem y0 c1 c2 g1 g2 v1 a1 v2 a2 z1 z2 s1 s2 G1 G2 o1 o2 m1 m2 q1 q2 h1 h2
    unfold solLoop at h1 h2
    obtain ⟨⟨ierr, y, yS, mem'⟩, t1, x1, k1⟩ := bind_inv h1
    obtain ⟨z, t2, x2, k2⟩ := bind_inv h2
    have hz := answer_same hag r1 r2 hf (by rw [hns1, hns2, hl]) (sv.step mem t) G1 G2 m1 m2 q1 q2 x1 x2
    subst hz
    simp only at k1 k2
    obtain ⟨l1, p1, p2, p3⟩ := answer_run r1 _ G1 m1 x1
    obtain ⟨l2, p4, p5, p6⟩ := answer_run r2 _ G2 m2 x2
    obtain ⟨g3, v3, a3, G3⟩ := Good.run l1 G1 (fun k hk => (p1.1 k hk).1) p2
    obtain ⟨g4, v4, a4, G4⟩ := Good.run l2 G2 (fun k hk => (p4.1 k hk).1) p5
    have q3 := Kept.vals G1 G3 p3 (fun v hv => G1.has v (m1 v hv)) q1
    have q4 := Kept.vals G2 G4 p6 (fun v hv => G2.has v (m2 v hv)) q2
    by_cases hi : ierr ≠ 0
    · rw [if_pos hi] at k1
      cases k1
    · rw [if_neg hi] at k1 k2
      obtain ⟨vs1, t3, x3, k3⟩ := bind_inv k1
      obtain ⟨vs2, t4, x4, k4⟩ := bind_inv k2
      rw [hns1] at x3
      rw [hns2] at x4
      obtain ⟨l3, p7, p8, p9, b1, b2⟩ := solVars_run y yS _ (c := ⟨t1, c1.env, c1.marks⟩) G3 o1 x3
      obtain ⟨l4, p10, p11, p12, b3, b4⟩ := solVars_run y yS _ (c := ⟨t2, c2.env, c2.marks⟩) G4 o2 x4
      obtain ⟨g5, v5, a5, G5⟩ := Good.run l3 G3 (fun k hk => (p7.1 k hk).1) p8
      obtain ⟨g6, v6, a6, G6⟩ := Good.run l4 G4 (fun k hk => (p10.1 k hk).1) p11
      obtain ⟨⟨rest1, y1⟩, t5, x5, k5⟩ := bind_inv k3
      obtain ⟨⟨rest2, y2⟩, t6, x6, k6⟩ := bind_inv k4
      cases k5
      cases k6
      have o5 : ∀ v ∈ ops1, v ∈ c1.env ++ vs1 := fun v hv => List.mem_append_left _ (o1 v hv)
      have o6 : ∀ v ∈ ops2, v ∈ c2.env ++ vs2 := fun v hv => List.mem_append_left _ (o2 v hv)
      have m5 : ∀ v ∈ e1, v ∈ c1.env ++ vs1 := fun v hv => List.mem_append_left _ (m1 v hv)
      have m6 : ∀ v ∈ e2, v ∈ c2.env ++ vs2 := fun v hv => List.mem_append_left _ (m2 v hv)
      obtain ⟨hy, sol, w0, w1, w2, w3⟩ := ih mem' y (c1 := ⟨t3, c1.env ++ vs1, c1.marks⟩) (c2 := ⟨t4, c2.env ++ vs2, c2.marks⟩)
        G5 G6 o5 o6 m5 m6 (Kept.vals G3 G5 p9 (fun v hv => G3.has v (m1 v hv)) q3)
        (Kept.vals G4 G6 p12 (fun v hv => G4.has v (m2 v hv)) q4) x5 x6
      obtain ⟨l5, -, -, K5, -⟩ := solLoop_run r1 hns1 sv n ts mem' y (c := ⟨t3, c1.env ++ vs1, c1.marks⟩) G5 o5 m5 x5
      obtain ⟨l6, -, -, K6, -⟩ := solLoop_run r2 hns2 sv n ts mem' y (c := ⟨t4, c2.env ++ vs2, c2.marks⟩) G6 o6 m6 x6
      refine ⟨hy, (y, yS) :: sol, w0.trans (by rw [List.map_cons, List.getLastD_cons]), by simp [w1], ⟨by simp [w2.1], fun k n1 n2 => ?_⟩, ⟨by simp [w3.1], fun k n1 n2 => ?_⟩⟩
      · cases k with
        | zero =>
          rw [List.length_range] at b1
          refine ⟨b1, fun i hi => ?_⟩
          simp only [List.getElem_cons_zero] at hi ⊢
          obtain ⟨d1, d2, d3, d4⟩ := b2 i (by rw [List.length_range]; omega) hi
          rw [List.getElem_range] at d3 d4
          obtain ⟨d5, d6⟩ := K5.record d2 (fun hm => d1 ((mem_existing G3.inv).mpr (G3.has _ (m1 _ hm))))
            (fun u hu => (mem_existing G5.inv).mpr (G5.has u (o5 u hu))) d4
          exact ⟨d5, d3, d6⟩
        | succ k => exact w2.2 k (by simpa using n1) (by simpa using n2)
      · cases k with
        | zero =>
          rw [List.length_range] at b3
          refine ⟨b3, fun i hi => ?_⟩
          simp only [List.getElem_cons_zero] at hi ⊢
          obtain ⟨d1, d2, d3, d4⟩ := b4 i (by rw [List.length_range]; omega) hi
          rw [List.getElem_range] at d3 d4
          obtain ⟨d5, d6⟩ := K6.record d2 (fun hm => d1 ((mem_existing G4.inv).mpr (G4.has _ (m2 _ hm))))
            (fun u hu => (mem_existing G6.inv).mpr (G6.has u (o6 u hu))) d4
          exact ⟨d5, d3, d6⟩
        | succ k => exact w3.2 k (by simpa using n1) (by simpa using n2)

end two

end Fz
