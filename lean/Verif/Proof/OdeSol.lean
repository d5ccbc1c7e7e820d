import Verif.Proof.OdeJac
import Verif.Proof.Each

/-!
# Solutions with sensitivities
-/

set_option linter.unusedSectionVars false

namespace Fz
open Arith Spec

variable {W : Type} [Rep W ℝ] [LawfulRep W ℝ]
variable {s s' t t' : St W} {g g' : Graph ℝ} {val adj val' adj' : Nat → ℝ}
variable {ys : List ℝ} {p : Prog} {σ : Type}

/-- the sensitivity right-hand side is computed correctly and the caller's tape is as before -/
def SensOk (pr : Problem) (ok : ℝ → List ℝ → List (List ℝ) → Prop) (ode : CvsRhs W ℝ) (K : Nat) : Prop :=
  ∀ {g : Graph ℝ} {val adj : Nat → ℝ} {s t : St W} {u : ℝ} {y : List ℝ} {S : List (List ℝ)}
    {out out' : Nat → Nat → ℝ}, Inv s g val adj → (∀ nd ∈ g.nodes, nd.Fits val) →
    s.tape.head + K ≤ cap → ok u y S → setSensRhs ode u y S out s = .ok (out', t) →
    pr.sens u y S (vecs ode.ns y.length out') ∧ Inv t g val adj ∧ t.tape.head = s.tape.head

/-- the calls of the solver are answered correctly, and the caller's tape is as before -/
theorem answer_ok {pr : Problem} {ok : ℝ → List ℝ → List (List ℝ) → Prop} {ode : CvsRhs W ℝ} {K : Nat}
    (hf : pr.f = ode.f) (hs : SensOk pr ok ode K) (hfit : ∀ nd ∈ g.nodes, nd.Fits val) :
    ∀ (call : Solving ℝ σ) {s s' : St W} {r : Int × List ℝ × List (List ℝ) × σ}, Inv s g val adj →
    s.tape.head + K ≤ cap → Asks pr ok call →
    answer ode call s = .ok (r, s') → Solves pr call r ∧ Inv s' g val adj ∧ s'.tape.head = s.tape.head := by
  intro call
  induction call with
  | done e y yS m =>
    intro s s' r hi _ _ e
    cases e
    exact ⟨.done, hi, rfl⟩
  | rhs u y k ih =>
    intro s s' r hi hh ha e
    unfold answer at e
    obtain ⟨h1, h2, h3⟩ := ih _ hi hh ha (by rw [hf]; exact e)
    exact ⟨.rhs h1, h2, h3⟩
  | sens u y yS k ih =>
    intro s s' r hi hh ha e
    unfold answer at e
    obtain ⟨out, s1, e1, k1⟩ := bind_inv e
    obtain ⟨h1, h2, h3⟩ := hs hi hfit hh ha.1 e1
    obtain ⟨h4, h5, h6⟩ := ih _ h2 (by omega) (ha.2 _ h1) k1
    exact ⟨.sens h1 h4, h5, h6.trans h3⟩

theorem gather_inv (yS : List (List ℝ)) (i : Nat) : ∀ (l : List Nat) (g0 : List ℝ) {g1 : List ℝ},
    (gather yS i l g0 : M W (List ℝ)) s = .ok (g1, s') →
    s' = s ∧ g1.length = g0.length ∧ (∀ k, k ∉ l → g1.getD k 0 = g0.getD k 0) ∧
      ∀ k ∈ l, k < g0.length ∧ g1.getD k 0 = (yS.getD k []).getD i 0 := by
  intro l
  induction l with
  | nil =>
    intro g0 g1 e
    cases e
    exact ⟨rfl, rfl, fun _ _ => rfl, by simp⟩
  | cons j l ih =>
    intro g0 g1 e
    unfold gather at e
    obtain ⟨v, s1, e1, k1⟩ := bind_inv e
    obtain ⟨hv, rfl⟩ := deref_inv e1
    obtain ⟨x, s2, e2, k2⟩ := bind_inv k1
    obtain ⟨hx, rfl⟩ := deref_inv e2
    split at k2
    · rename_i hj
      obtain ⟨h1, h2, h3, h4⟩ := ih _ k2
      refine ⟨h1, by simpa using h2, fun k hk => ?_, fun k hk => ?_⟩
      · have hkj : j ≠ k := fun h => hk (by simp [h])
        rw [h3 k fun h => hk (by simp [h])]
        simp [List.getD_eq_getElem?_getD, List.getElem?_set_ne hkj]
      · by_cases hkl : k ∈ l
        · have := h4 k hkl
          simpa using this
        · have hkj : k = j := by simpa [hkl] using hk
          subst hkj
          refine ⟨hj, ?_⟩
          rw [h3 k hkl]
          simp [List.getD_eq_getElem?_getD, hj, hv, hx]
    · cases k2

theorem gather_all {yS : List (List ℝ)} {i ns : Nat} {g1 : List ℝ}
    (e : (gather yS i (List.range ns) (List.replicate ns zero) : M W (List ℝ)) s = .ok (g1, s')) :
    s' = s ∧ g1 = (List.range ns).map fun j => (yS.getD j []).getD i 0 := by
  obtain ⟨h1, h2, h3, h4⟩ := gather_inv yS i _ _ e
  refine ⟨h1, List.ext_getElem (by simp [h2]) fun k hk hk' => ?_⟩
  have hk'' : k < ns := by simpa using hk'
  have := (h4 k (List.mem_range.mpr hk'')).2
  rw [List.getD_eq_getElem?_getD, List.getElem?_eq_getElem hk, Option.getD_some] at this
  simpa using this

/-- a state later than another, with the derivatives with respect to `u` known in both -/
structure Later (s : St W) (g : Graph ℝ) (val adj : Nat → ℝ) (D : Nat → ℝ →L[ℝ] ℝ) (s' : St W) (g' : Graph ℝ)
    (val' adj' : Nat → ℝ) (D' : Nat → ℝ →L[ℝ] ℝ) : Prop where
  pre : g.Prefix g'
  dd : ∀ q < s.tape.head, D' q = D q
  vv : ∀ q < s.tape.head, val' q = val q
  aa : ∀ q < s.tape.head, adj' q = adj q
  le : s.tape.head ≤ s'.tape.head

theorem Later.refl {D : Nat → ℝ →L[ℝ] ℝ} : Later s g val adj D s g val adj D :=
  ⟨Graph.Prefix.refl g, fun _ _ => rfl, fun _ _ => rfl, fun _ _ => rfl, le_refl _⟩

theorem Later.trans {D D' D'' : Nat → ℝ →L[ℝ] ℝ} {s'' : St W} {g'' : Graph ℝ} {val'' adj'' : Nat → ℝ}
    (h : Later s g val adj D s' g' val' adj' D') (h' : Later s' g' val' adj' D' s'' g'' val'' adj'' D'') :
    Later s g val adj D s'' g'' val'' adj'' D'' :=
  ⟨h.pre.trans h'.pre, fun q hq => by rw [h'.dd q (lt_of_lt_of_le hq h.le), h.dd q hq],
    fun q hq => by rw [h'.vv q (lt_of_lt_of_le hq h.le), h.vv q hq],
    fun q hq => by rw [h'.aa q (lt_of_lt_of_le hq h.le), h.aa q hq], h.le.trans h'.le⟩

/-- the variable `r` has the value `x` and the derivative `a` -/
def Shows (g : Graph ℝ) (val : Nat → ℝ) (D : Nat → ℝ →L[ℝ] ℝ) (r : Var) (x a : ℝ) : Prop :=
  g.Has r ∧ val (g.pos r) = x ∧ D (g.pos r) 1 = a

theorem Shows.later {D D' : Nat → ℝ →L[ℝ] ℝ} {r : Var} {x a : ℝ} (hi : Inv s g val adj)
    (h : Later s g val adj D s' g' val' adj' D') (hr : Shows g val D r x a) : Shows g' val' D' r x a :=
  ⟨h.pre.has hr.1, by rw [h.pre.pos hr.1, h.vv _ (hi.has_lt hr.1), hr.2.1],
    by rw [h.pre.pos hr.1, h.dd _ (hi.has_lt hr.1), hr.2.2]⟩

theorem zipWith_D {D D' : Nat → ℝ →L[ℝ] ℝ} (hi : Inv s g val adj)
    (h : Later s g val adj D s' g' val' adj' D') : ∀ (l : List Var), (∀ v ∈ l, g.Has v) → ∀ ks : List ℝ,
    List.zipWith (fun k v => k * D' (g'.pos v) 1) ks l = List.zipWith (fun k v => k * D (g.pos v) 1) ks l := by
  intro l
  induction l with
  | nil => intro _ ks; simp
  | cons v l ih =>
    intro hl ks
    cases ks with
    | nil => rfl
    | cons k ks =>
      have hv := hl v (by simp)
      simp only [List.zipWith_cons_cons]
      rw [ih (fun w hw => hl w (by simp [hw])) ks, h.pre.pos hv, h.dd _ (hi.has_lt hv)]

/-- one solution variable -/
theorem partials_later {u : Var} {D ε : Nat → ℝ →L[ℝ] ℝ} (H : Rated s g val adj D ε u) {ops : List Var}
    (hops : ∀ v ∈ ops, g.Has v) (x : ℝ) {ds : List ℝ} (hl : ds.length = ops.length)
    (room : s.tape.head + (6 + 3 * ops.length) ≤ cap) :
    ∃ r s' g' val' adj' D' ε', (varWithPartials x ops ds : M W Var) s = .ok (r, s') ∧
      Rated s' g' val' adj' D' ε' u ∧ Later s g val adj D s' g' val' adj' D' ∧
      s'.tape.head = s.tape.head + (6 + 3 * ops.length) ∧
      Shows g' val' D' r x (List.zipWith (fun k v => k * D (g.pos v) 1) ds ops).sum := by
  obtain ⟨s', e, gr⟩ := H.sim.inv.varWithPartials_ok x hops ds (by omega) (by omega)
  rw [List.take_of_length_le (by omega)] at gr
  obtain ⟨D', ε', H', hd, hn⟩ := H.op hops gr (coefs := ds) (by
    intro a
    simp [contribPlain, hl, Arith.mul])
  have hp : (g.push ⟨s.tape.head, ops.map g.pos, ds, .eager, .plain⟩).pos ⟨s.vhead⟩ = s.tape.head := by
    rw [H.sim.inv.vhead]
    exact g.pos_last _
  have hh : s'.tape.head = s.tape.head + (6 + 3 * ops.length) := by
    rw [gr.head]
    simp [Node.len, hl]
    omega
  refine ⟨_, s', _, _, _, D', ε', e, H', ⟨(Graph.Prefix.refl g).push _, hd, fun q hq => upd_ne _ _ (by omega),
    fun q hq => upd_ne _ _ (by omega), by omega⟩, hh, ?_, ?_, ?_⟩
  · rw [H.sim.inv.vhead]
    exact g.has_last _
  · rw [hp, upd_self]
  · rw [hp, hn]

theorem sensSum_later {D D' : Nat → ℝ →L[ℝ] ℝ} (hi : Inv s g val adj)
    (h : Later s g val adj D s' g' val' adj' D') {ops : List Var} (hops : ∀ v ∈ ops, g.Has v)
    (yS : List (List ℝ)) (i : Nat) :
    sensSum yS ops (fun v => D' (g'.pos v) 1) i = sensSum yS ops (fun v => D (g.pos v) 1) i := by
  unfold sensSum
  rw [zipWith_D hi h ops hops]

theorem solVars_later {u : Var} (y : List ℝ) (yS : List (List ℝ)) {ops : List Var} : ∀ (is : List Nat) {s s' : St W}
    {g : Graph ℝ} {val adj : Nat → ℝ} {D ε : Nat → ℝ →L[ℝ] ℝ} {vs : List Var}, Rated s g val adj D ε u →
    (∀ v ∈ ops, g.Has v) → s.tape.head + is.length * (6 + 3 * ops.length) ≤ cap →
    solVars ops ops.length y yS is s = .ok (vs, s') →
    ∃ g' val' adj' D' ε', Rated s' g' val' adj' D' ε' u ∧ Later s g val adj D s' g' val' adj' D' ∧
      s'.tape.head = s.tape.head + is.length * (6 + 3 * ops.length) ∧ vs.length = is.length ∧
      ∀ k (h1 : k < is.length) (h2 : k < vs.length), is[k] < y.length ∧
        Shows g' val' D' vs[k] (y.getD is[k] 0) (sensSum yS ops (fun v => D (g.pos v) 1) is[k]) := by
  intro is
  induction is with
  | nil =>
    intro s s' g val adj D ε vs H _ _ e
    cases e
    exact ⟨g, val, adj, D, ε, H, Later.refl, by simp, rfl, fun k h1 => by simp at h1⟩
  | cons i is ih =>
    intro s s' g val adj D ε vs H hops room e
    have hlen : (i :: is).length * (6 + 3 * ops.length) = (6 + 3 * ops.length) + is.length * (6 + 3 * ops.length) := by
      simp [Nat.succ_mul, Nat.add_comm]
    rw [hlen] at room ⊢
    unfold solVars at e
    obtain ⟨gr, s1, e1, k1⟩ := bind_inv e
    obtain ⟨rfl, rfl⟩ := gather_all e1
    obtain ⟨x, s2, e2, k2⟩ := bind_inv k1
    obtain ⟨hx, rfl⟩ := deref_inv e2
    obtain ⟨r, s1, g1, val1, adj1, D1, ε1, e3, H1, L1, hh1, sh1⟩ := partials_later H hops x
      (ds := (List.range ops.length).map fun j => (yS.getD j []).getD i 0) (by simp) (by omega)
    rw [bind_ok e3] at k2
    obtain ⟨vs', s3, e4, k4⟩ := bind_inv k2
    cases k4
    obtain ⟨g2, val2, adj2, D2, ε2, H2, L2, hh2, hl2, sh2⟩ := ih H1 (fun v hv => L1.pre.has (hops v hv))
      (by omega) e4
    refine ⟨g2, val2, adj2, D2, ε2, H2, L1.trans L2, by omega, by simp [hl2], fun k h1 h2 => ?_⟩
    cases k with
    | zero =>
      obtain ⟨hi', hxe⟩ := List.getElem?_eq_some_iff.mp hx
      refine ⟨hi', ?_⟩
      have hy : y.getD i 0 = x := by simp [List.getD_eq_getElem?_getD, hx]
      simp only [List.getElem_cons_zero, hy]
      exact sh1.later H1.sim.inv L2
    | succ k =>
      obtain ⟨a1, a2⟩ := sh2 k (by simpa using h1) (by simpa using h2)
      rw [sensSum_later H.sim.inv L1 hops] at a2
      exact ⟨a1, a2⟩

theorem solLoop_later {u : Var} {pr : Problem} {ok : ℝ → List ℝ → List (List ℝ) → Prop} {ode : CvsRhs W ℝ} {K : Nat}
    (hf : pr.f = ode.f) (hs : SensOk pr ok ode K) (sv : Solver ℝ σ) (n : Nat) {ops : List Var}
    (hns : ode.ns = ops.length) : ∀ (ts : List ℝ) (mem : σ) {s s' : St W}
    {g : Graph ℝ} {val adj : Nat → ℝ} {D ε : Nat → ℝ →L[ℝ] ℝ} {yt : List (List Var)} {y0 y1 : List ℝ}, Rated s g val adj D ε u →
    (∀ v ∈ ops, g.Has v) → s.tape.head + ts.length * (n * (6 + 3 * ops.length)) + K ≤ cap →
    AsksAll pr sv ok ts mem → solLoop sv ode ops n ts mem y0 s = .ok ((yt, y1), s') →
    ∃ sol g' val' adj' D' ε', SolvesAll pr sv ts mem sol ∧ y1 = (sol.map Prod.fst).getLastD y0 ∧ Rated s' g' val' adj' D' ε' u ∧
      Later s g val adj D s' g' val' adj' D' ∧ yt.length = ts.length ∧ sol.length = ts.length ∧
      ∀ k (h1 : k < yt.length) (h2 : k < sol.length), yt[k].length = n ∧ ∀ i (hi : i < yt[k].length),
        i < sol[k].1.length ∧
        Shows g' val' D' yt[k][i] (sol[k].1.getD i 0) (sensSum sol[k].2 ops (fun v => D (g.pos v) 1) i) := by
  intro ts
  induction ts with
  | nil =>
    intro mem s s' g val adj D ε yt y0 y1 H _ _ _ e
    cases e
    exact ⟨[], g, val, adj, D, ε, .nil, rfl, H, Later.refl, rfl, rfl, fun k h1 => by simp at h1⟩
  | cons t ts ih =>
    intro mem s s' g val adj D ε yt y0 y1 H hops room ha e
    have hlen : (t :: ts).length * (n * (6 + 3 * ops.length)) =
        n * (6 + 3 * ops.length) + ts.length * (n * (6 + 3 * ops.length)) := by
      simp [Nat.succ_mul, Nat.add_comm]
    rw [hlen] at room
    unfold solLoop at e
    obtain ⟨⟨ierr, y, yS, mem'⟩, s1, e1, k1⟩ := bind_inv e
    obtain ⟨hsol, hi1, hh1⟩ := answer_ok hf hs H.fits (sv.step mem t) H.sim.inv (by omega) ha.1 e1
    simp only at k1
    split at k1
    · cases k1
    · rename_i hz
      have hz : ierr = 0 := by simpa using hz
      subst hz
      have H1 : Rated s1 g val adj D ε u := ⟨⟨hi1, H.sim.rules⟩, H.has, H.eps, H.fits⟩
      obtain ⟨vs, s2, e2, k2⟩ := bind_inv k1
      rw [hns] at e2
      obtain ⟨g2, val2, adj2, D2, ε2, H2, L2, hh2, hl2, sh2⟩ := solVars_later y yS (List.range n) H1 hops
        (by rw [List.length_range]; omega) e2
      rw [List.length_range] at hh2 hl2
      obtain ⟨⟨rest, y2⟩, s3, e3, k3⟩ := bind_inv k2
      cases k3
      have L1 : Later s g val adj D s1 g val adj D :=
        ⟨Graph.Prefix.refl g, fun _ _ => rfl, fun _ _ => rfl, fun _ _ => rfl, by omega⟩
      obtain ⟨sol, g3, val3, adj3, D3, ε3, S3, hl3, H3, L3, b1, b2, b3⟩ := ih mem' H2
        (fun v hv => L2.pre.has (hops v hv)) (by omega) (ha.2 y yS mem' hsol) e3
      refine ⟨(y, yS) :: sol, g3, val3, adj3, D3, ε3, .cons hsol S3, by rw [List.map_cons, List.getLastD_cons]; exact hl3, H3, (L1.trans L2).trans L3, by simp [b1],
        by simp [b2], fun k h1 h2 => ?_⟩
      cases k with
      | zero =>
        refine ⟨hl2, fun i hi => ?_⟩
        obtain ⟨c1, c2⟩ := sh2 i (by simpa [hl2] using hi) hi
        rw [List.getElem_range] at c1 c2
        exact ⟨c1, c2.later H2.sim.inv L3⟩
      | succ k =>
        obtain ⟨c1, c2⟩ := b3 k (by simpa using h1) (by simpa using h2)
        refine ⟨c1, fun i hi => ?_⟩
        obtain ⟨c3, c4⟩ := c2 i hi
        rw [sensSum_later H1.sim.inv L2 hops] at c4
        exact ⟨c3, c4⟩

/-- the two kinds of problems -/
theorem sensOk_y {f : ℝ → List ℝ → List ℝ} {P : ℝ → Prog} {n K : Nat} :
    SensOk (W := W) (initProblem f P) (Fair P [] n n K) (newCvsRhsYvar true n f (odeY P [])) K := by
  intro g val adj s t u y S out out' hi hfit hroom hok e
  obtain ⟨rfl, hS, h1, h2⟩ := hok
  have := setSens_y (env := []) (ys := []) hi (fun nd hn => Or.inr (hfit nd hn)) (by simp) rfl (by simpa using h1) (by
    have : cap = tapeLimit := rfl
    simp only [Room, List.append_nil, List.length_append, List.length_replicate, List.length_nil] at *
    omega) hS e
  obtain ⟨a1, -, a2, -, a, a3, a4⟩ := this
  exact ⟨a1, a4 rfl ▸ a3, a2⟩

theorem sensOk_p {f : ℝ → List ℝ → List ℝ} {P : ℝ → Prog} {q : List ℝ} {n K : Nat} :
    SensOk (W := W) (paramProblem f P q) (Fair P q n q.length K) (newCvsRhsPvar false q.length q f (odeP P [])) K := by
  intro g val adj s t u y S out out' hi hfit hroom hok e
  obtain ⟨rfl, hS, h1, h2⟩ := hok
  have := setSens_p (env := []) (ys := []) hi (fun nd hn => Or.inr (hfit nd hn)) (by simp) rfl (by simpa using h1) (by
    have : cap = tapeLimit := rfl
    simp only [Room, List.append_nil, List.length_append, List.length_replicate, List.length_nil] at *
    omega) (by simp) hS e
  obtain ⟨-, a1, -, a2, -, a, a3, a4⟩ := this
  refine ⟨?_, a4 rfl ▸ a3, a2⟩
  have hsrc : sensSrc true (q.length - if false = true then q.length - y.length else q.length) = some := by
    funext j
    simp [sensSrc]
  rw [hsrc] at a1
  exact a1

theorem sensInit_y (n : Nat) (f : ℝ → List ℝ → List ℝ) (fy : ℝ → List Var → List Var → M W (List Var)) :
    sensInit (newCvsRhsYvar true n f fy) n = unitVectors n := by
  unfold sensInit unitVectors
  apply List.map_congr_left
  intro j hj
  have hj' : j < n := List.mem_range.mp hj
  simp only [newCvsRhsYvar, Bool.true_and, hj', decide_true, if_true]
  apply List.ext_getElem (by simp)
  intro i h1 h2
  rw [List.getElem_set]
  simp only [List.getElem_replicate, List.getElem_map, List.getElem_range]
  by_cases hij : j = i
  · subst hij; simp [Arith.one]
  · rw [if_neg hij, if_neg (fun h => hij h.symm)]; rfl

theorem sensInit_p (n ns : Nat) (q : List ℝ) (f : ℝ → List ℝ → List ℝ)
    (fp : ℝ → List Var → List Var → List Var → M W (List Var)) :
    sensInit (newCvsRhsPvar false ns q f fp) n = List.replicate ns (List.replicate n 0) := by
  unfold sensInit
  simp only [newCvsRhsPvar, Bool.false_and, Bool.false_eq_true, if_false]
  rw [List.map_const', List.length_range]
  rfl

end Fz
