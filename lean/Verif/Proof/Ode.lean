import Verif.Proof.RegionGrad
import Verif.Spec.Ode

/-!
# Sensitivity right-hand sides
-/

set_option linter.unusedSectionVars false

namespace Fz
open Arith Spec

section generic
variable {W R : Type} [Arith R] [Rep W R]

theorem bind_inv {α β : Type} {m : M W α} {f : α → M W β} {s s'' : St W} {b : β}
    (h : (m >>= f) s = .ok (b, s'')) : ∃ a s', m s = .ok (a, s') ∧ f a s' = .ok (b, s'') := by
  cases e : m s with
  | error e' => rw [bind_err e] at h; cases h
  | ok q =>
    obtain ⟨a, s'⟩ := q
    rw [bind_ok e] at h
    exact ⟨a, s', rfl, h⟩

theorem deref_inv {α : Type} {o : Option α} {a : α} {s s' : St W}
    (h : (deref o : M W α) s = .ok (a, s')) : o = some a ∧ s' = s := by
  cases o with
  | none => cases h
  | some b => cases h; exact ⟨rfl, rfl⟩

theorem confN_inv {α : Type} {n : Nat} {l l' : List α} {s s' : St W}
    (h : (confN n l : M W (List α)) s = .ok (l', s')) : l.length = n ∧ l' = l ∧ s' = s := by
  unfold confN at h
  split at h
  · rename_i hn
    cases h
    exact ⟨hn, rfl, rfl⟩
  · cases h

theorem newVars_append (a b : List R) : (newVars (a ++ b) : M W (List Var)) =
    (do let va ← newVars a; let vb ← newVars b; pure (va ++ vb)) := by
  unfold newVars
  rw [List.mapM_append]

end generic

variable {W : Type} [Rep W ℝ] [LawfulRep W ℝ] {lf : Prop}
variable {s s' t t' : St W} {g g' : Graph ℝ} {val adj val' adj' : Nat → ℝ}
variable {x ys : List ℝ} {p : Prog} {D' ε' : Nat → (Fin x.length → ℝ) →L[ℝ] ℝ} {xv outs : List Var}

/-- a completed sweep over the region of the run from output `k`, started with cleared adjoints of the
new variables -/
theorem RanC.gradN (r : RanC s g val adj x ys p s' g' val' adj' D' ε' xv outs) {a : Nat → ℝ}
    (hz : ∀ nd ∈ g'.nodes.drop g.nodes.length, a nd.pos = 0)
    (hf : ∀ nd ∈ g'.nodes.drop g.nodes.length, nd.Fits val') {k : Nat} (hk : k < outs.length) :
    IsGradAt (p.out ys k) x (xv.map fun v =>
      Fz.sweep val' (g'.nodes.drop g.nodes.length) (upd a (g'.pos outs[k]) 1) (g'.pos v)) := by
  have hx : xv.length = x.length := by rw [r.xlen]; simp
  refine ⟨by simp [hx], ?_⟩
  have h1 := r.sweepNew hf (upd a (g'.pos outs[k]) 1)
  rw [r.seed a (fun _ _ => rfl) hz k hk, pair_zero (g.nodes.map Node.pos) _ _, zero_add,
    comb_coords _ _ (by simp [hx])] at h1
  · rw [← h1]; exact (r.os k hk).deriv
  · intro q hq
    exact smul_zero _

/-- the state is inside a region that starts after the records of `g` -/
structure InRegion (t : St W) (g : Graph ℝ) : Prop where
  pos : 0 < t.level
  le : t.level ≤ maxNestedStack
  start : t.nestVari t.level = g.nodes.length + 1

theorem InRegion.withMem {m : Nat → W} (h : InRegion t g) : InRegion (t.withMem m) g := ⟨h.pos, h.le, h.start⟩

/-- a sweep over the region from output `k` keeps `P` and establishes `G k`, about the adjoints -/
def Sweeps (g g' : Graph ℝ) (val' : Nat → ℝ) (outs : List Var) (P : (Nat → ℝ) → Prop)
    (G : Nat → (Nat → ℝ) → Prop) : Prop :=
  ∀ (a : Nat → ℝ) (k : Nat) (hk : k < outs.length), (∀ nd ∈ g'.nodes.drop g.nodes.length, a nd.pos = 0) →
    (∀ nd ∈ g'.nodes.drop g.nodes.length, nd.Fits val') → P a →
    P (Fz.sweep val' (g'.nodes.drop g.nodes.length) (upd a (g'.pos outs[k]) 1)) ∧
    G k (Fz.sweep val' (g'.nodes.drop g.nodes.length) (upd a (g'.pos outs[k]) 1))

section rows
variable {yvar pvar : List Var} {yS : List (List ℝ)}

theorem sensDots_ok (h : Inv t g' val' adj') (hy : ∀ v ∈ yvar, g'.Has v) (i : Nat) :
    ∀ (js : List Nat) (out out' : Nat → Nat → ℝ),
    (sensDots yvar yS i js out : M W (Nat → Nat → ℝ)) t = .ok (out', t') →
    t' = t ∧ (∀ j k, k ≠ i ∨ j ∉ js → out' j k = out j k) ∧ ∀ j ∈ js, ∃ v, yS[j]? = some v ∧
      v.length = yvar.length ∧
      out' j i = (List.zipWith (· * ·) (yvar.map fun v => adj' (g'.pos v)) v).sum := by
  intro js
  induction js with
  | nil =>
    intro out out' e
    cases e
    exact ⟨rfl, fun _ _ _ => rfl, by simp⟩
  | cons j js ih =>
    intro out out' e
    unfold sensDots at e
    obtain ⟨v, t1, e1, f⟩ := bind_inv e
    obtain ⟨hv, rfl⟩ := deref_inv e1
    rw [bind_ok (h.varAdjs hy)] at f
    obtain ⟨v', t1, e2, f'⟩ := bind_inv f
    obtain ⟨hl, rfl, rfl⟩ := confN_inv e2
    obtain ⟨rfl, h1, h2⟩ := ih _ _ f'
    refine ⟨rfl, ?_, ?_⟩
    · intro j' k hjk
      rw [h1 j' k (hjk.imp_right fun hn hm => hn (by simp [hm]))]
      unfold put
      rw [if_neg]
      rintro ⟨rfl, rfl⟩
      rcases hjk with hjk | hjk
      · exact hjk rfl
      · exact hjk (by simp)
    · intro j' hj'
      by_cases hm : j' ∈ js
      · exact h2 j' hm
      · have : j' = j := by simpa [hm] using hj'
        subst this
        refine ⟨_, hv, by simpa using hl, ?_⟩
        rw [h1 j' i (Or.inr hm)]
        unfold put
        rw [if_pos ⟨rfl, rfl⟩]
        rfl

theorem sensPars_ok (h : Inv t g' val' adj') (hp : ∀ v ∈ pvar, g'.Has v) (off i : Nat) :
    ∀ (js : List Nat) (out out' : Nat → Nat → ℝ), js.Nodup →
    (sensPars pvar off i js out : M W (Nat → Nat → ℝ)) t = .ok (out', t') →
    t' = t ∧ (∀ j k, k ≠ i ∨ (∀ l ∈ js, j ≠ off + l) → out' j k = out j k) ∧
      ∀ j ∈ js, j < pvar.length ∧
        out' (off + j) i = out (off + j) i + (pvar.map fun v => adj' (g'.pos v)).getD j 0 := by
  intro js
  induction js with
  | nil =>
    intro out out' _ e
    cases e
    exact ⟨rfl, fun _ _ _ => rfl, by simp⟩
  | cons j js ih =>
    intro out out' hnd e
    have hnd' := List.nodup_cons.mp hnd
    unfold sensPars at e
    obtain ⟨v, t1, e1, f⟩ := bind_inv e
    obtain ⟨hv, rfl⟩ := deref_inv e1
    obtain ⟨hjl, hjv⟩ := List.getElem?_eq_some_iff.mp hv
    have hm : v ∈ pvar := hjv ▸ List.getElem_mem _
    rw [bind_ok (h.varAdj (hp v hm))] at f
    obtain ⟨rfl, h1, h2⟩ := ih _ _ hnd'.2 f
    refine ⟨rfl, ?_, ?_⟩
    · intro j' k hjk
      rw [h1 j' k (hjk.imp_right fun hn l hl => hn l (by simp [hl]))]
      unfold put
      rw [if_neg]
      rintro ⟨rfl, rfl⟩
      rcases hjk with hjk | hjk
      · exact hjk rfl
      · exact hjk j (by simp) rfl
    · intro j' hj'
      rcases List.mem_cons.mp hj' with rfl | hj'
      · refine ⟨hjl, ?_⟩
        rw [h1 _ i (Or.inr fun l hl he => hnd'.1 (by
          have : j' = l := by omega
          exact this ▸ hl))]
        unfold put
        rw [if_pos ⟨rfl, rfl⟩]
        simp [List.getD_eq_getElem?_getD, hv]
      · obtain ⟨a1, a2⟩ := h2 j' hj'
        refine ⟨a1, ?_⟩
        rw [a2]
        unfold put
        rw [if_neg]
        rintro ⟨he, -⟩
        exact hnd'.1 (by
          have : j' = j := by omega
          exact this ▸ hj')

/-- `set_zero_nested_adj` in the region, and what it does to the older records -/
theorem zeroRegion_ok (h : Inv t g' val' adj') (hr : InRegion t g) (hle : g.nodes.length ≤ g'.nodes.length)
    (hp : ∀ nd ∈ g.nodes, ∀ nd' ∈ g'.nodes.drop g.nodes.length, nd'.pos ≠ nd.pos) :
    ∃ m a, (setZeroNestedAdj : M W Unit) t = .ok ((), t.withMem m) ∧ Inv (t.withMem m) g' val' a ∧
      (∀ nd ∈ g'.nodes.drop g.nodes.length, a nd.pos = 0) ∧ ∀ nd ∈ g.nodes, a nd.pos = adj' nd.pos := by
  have hvh := h.vhead
  unfold setZeroNestedAdj
  rw [bind_ok (get_ok _)]
  have e2 : (rdNest t.nestVari t.level : M W Nat) t = .ok (g.nodes.length + 1, t) := by
    unfold rdNest; rw [if_pos ⟨hr.pos, hr.le⟩, hr.start]; rfl
  have hx : t.vhead - (g.nodes.length + 1) = g'.nodes.length - g.nodes.length := by omega
  rw [bind_ok e2, hx]
  obtain ⟨m, a, e3, i, hz, hk⟩ := Inv.zeroAdjLoop_ok g.nodes.length (g'.nodes.length - g.nodes.length) h (by omega)
  have ht : (g'.nodes.drop g.nodes.length).take (g'.nodes.length - g.nodes.length) = g'.nodes.drop g.nodes.length :=
    List.take_of_length_le (by simp)
  rw [ht] at hz hk
  exact ⟨m, a, e3, i, hz, fun nd hn => hk _ fun nd' hn' => hp nd hn nd' hn'⟩

/-- the loop over the components of the right-hand side -/
theorem sensRows_ok (hle : g.nodes.length ≤ g'.nodes.length)
    (hsep : ∀ nd ∈ g.nodes, ∀ nd' ∈ g'.nodes.drop g.nodes.length, nd'.pos ≠ nd.pos)
    (hok : ∀ nd ∈ g'.nodes, nd.ChainOK ∨ nd.Fits val') (ho : ∀ v ∈ outs, g'.Has v)
    (hy : ∀ v ∈ yvar, g'.Has v) (hp : ∀ v ∈ pvar, g'.Has v) {P : (Nat → ℝ) → Prop} {G : Nat → (Nat → ℝ) → Prop}
    (hP : ∀ a a', (∀ nd ∈ g.nodes, a' nd.pos = a nd.pos) → P a → P a')
    (step : Sweeps g g' val' outs P G) {ns m : Nat} (hm : m ≤ ns) {par : Bool} :
    ∀ (n i : Nat) {t t' : St W} {a : Nat → ℝ} {out out' : Nat → Nat → ℝ}, i + n = outs.length →
    Inv t g' val' a → InRegion t g → (∀ nd ∈ g'.nodes.drop g.nodes.length, a nd.pos = 0) → P a →
    (sensRows yvar pvar yS ns m par i (outs.drop i) out : M W (Nat → Nat → ℝ)) t = .ok (out', t') →
    (∃ mem a', t' = t.withMem mem ∧ Inv t' g' val' a' ∧ P a') ∧
    (∀ j k, k < i → out' j k = out j k) ∧
    ∀ k, i ≤ k → k < outs.length → ∃ a', G k a' ∧ ∀ j < ns, ∃ v, yS[j]? = some v ∧ v.length = yvar.length ∧
      out' j k = (List.zipWith (· * ·) (yvar.map fun v => a' (g'.pos v)) v).sum +
        if par ∧ ns - m ≤ j then (pvar.map fun v => a' (g'.pos v)).getD (j - (ns - m)) 0 else 0 := by
  intro n
  induction n with
  | zero =>
    intro i t t' a out out' hi h hr hz hPa e
    rw [List.drop_of_length_le (by omega)] at e
    cases e
    exact ⟨⟨t.tape.mem, a, rfl, h, hPa⟩, fun _ _ _ => rfl, fun k h1 h2 => by omega⟩
  | succ n ih =>
    intro i t t' a out out' hi h hr hz hPa e
    have hio : i < outs.length := by omega
    rw [List.drop_eq_getElem_cons hio] at e
    unfold sensRows at e
    obtain ⟨u, t1, e1, e⟩ := bind_inv e
    obtain ⟨hf, m1, rfl, i1⟩ := gradNested_run h hok (ho _ (List.getElem_mem hio)) hr.pos hr.le hr.start hle e1
    obtain ⟨hP1, hG1⟩ := step a i hio hz hf hPa
    generalize hS : Fz.sweep val' (g'.nodes.drop g.nodes.length) (upd a (g'.pos outs[i]) 1) = S at hP1 hG1
    have hS' : Fz.sweep val' (g'.nodes.drop g.nodes.length) (upd a (g'.pos outs[i]) one) = S := hS
    rw [hS'] at i1
    obtain ⟨o1, t2, e2, e⟩ := bind_inv e
    obtain ⟨rfl, d1, d2⟩ := sensDots_ok i1 hy i _ _ _ e2
    obtain ⟨o2, t3, e3, e⟩ := bind_inv e
    have hpar : t3 = t.withMem m1 ∧ (∀ j k, k ≠ i → o2 j k = o1 j k) ∧ ∀ j < ns,
        o2 j i = o1 j i + if par ∧ ns - m ≤ j then (pvar.map fun v => S (g'.pos v)).getD (j - (ns - m)) 0 else 0 := by
      cases par with
      | false =>
        cases e3
        exact ⟨rfl, fun _ _ _ => rfl, fun j _ => by simp⟩
      | true =>
        simp only [if_true] at e3
        obtain ⟨rfl, p1, p2⟩ := sensPars_ok i1 hp _ i _ _ _ List.nodup_range e3
        refine ⟨rfl, fun j k hk => p1 j k (Or.inl hk), fun j hj => ?_⟩
        by_cases hjm : ns - m ≤ j
        · obtain ⟨a1, a2⟩ := p2 (j - (ns - m)) (List.mem_range.mpr (by omega))
          rw [show ns - m + (j - (ns - m)) = j by omega] at a2
          rw [a2, if_pos ⟨rfl, hjm⟩]
        · rw [p1 j i (Or.inr fun l _ => by omega), if_neg (by simp [hjm]), add_zero]
    obtain ⟨rfl, q1, q2⟩ := hpar
    obtain ⟨m2, a2, e4, i2, hz2, hk2⟩ := zeroRegion_ok i1 hr.withMem hle hsep
    rw [bind_ok e4] at e
    obtain ⟨⟨mem, a', rfl, i3, hP3⟩, f1, f2⟩ := ih (i + 1) (by omega) i2 hr.withMem.withMem hz2 (hP _ _ hk2 hP1) e
    refine ⟨⟨mem, a', rfl, i3, hP3⟩, ?_, ?_⟩
    · intro j k hk
      rw [f1 j k (by omega), q1 j k (by omega), d1 j k (Or.inl (by omega))]
    · intro k hk hko
      by_cases hki : i = k
      · subst hki
        refine ⟨S, hG1, fun j hj => ?_⟩
        obtain ⟨v, b1, b2, b3⟩ := d2 j (List.mem_range.mpr hj)
        exact ⟨v, b1, b2, by rw [f1 j i (by omega), q2 j hj, b3]⟩
      · exact f2 k (by omega) hko

end rows


/-- fix the middle arguments of a function -/
theorem isGradAt_dropMid {F : List ℝ → ℝ} {y z q df : List ℝ} (h : IsGradAt F (y ++ z ++ q) df) :
    IsGradAt (fun w => F (w.take y.length ++ z ++ w.drop y.length)) (y ++ q)
      (df.take y.length ++ df.drop (y.length + z.length)) := by
  obtain ⟨hl, hd⟩ := h
  simp only [List.length_append] at hl
  refine ⟨by simp; omega, ?_⟩
  have hN : (y ++ q).length = y.length + q.length := by simp
  have hN' : (y ++ z ++ q).length = y.length + (z.length + q.length) := by simp
  let A : (Fin (y ++ q).length → ℝ) → (Fin (y ++ z ++ q).length → ℝ) :=
    fun v i => ((List.ofFn v).take y.length ++ z ++ (List.ofFn v).drop y.length).getD i 0
  let c : Nat → (Fin (y ++ q).length → ℝ) →L[ℝ] ℝ := fun i =>
    if i < y.length then cproj _ i else if i < y.length + z.length then 0 else cproj _ (i - z.length)
  have hc : ∀ i v0, HasFDerivAt (fun v : Fin (y ++ q).length → ℝ =>
      ((List.ofFn v).take y.length ++ z ++ (List.ofFn v).drop y.length).getD i 0) (c i) v0 := by
    intro i v0
    simp only [c]
    split
    · rename_i h1
      have : (fun v : Fin (y ++ q).length → ℝ => ((List.ofFn v).take y.length ++ z ++
          (List.ofFn v).drop y.length).getD i 0) = fun v => (List.ofFn v).getD i 0 := by
        funext v
        rw [List.getD_eq_getElem?_getD, List.getD_eq_getElem?_getD, List.append_assoc,
          List.getElem?_append_left (by simp; omega), List.getElem?_take_of_lt h1]
      rw [this]; exact cproj_deriv _ _ _
    · split
      · rename_i h1 h2
        have : (fun v : Fin (y ++ q).length → ℝ => ((List.ofFn v).take y.length ++ z ++
            (List.ofFn v).drop y.length).getD i 0) = fun v => z.getD (i - y.length) 0 := by
          funext v
          have e1 : ((List.ofFn v).take y.length).length = y.length := by simp
          rw [List.getD_eq_getElem?_getD, List.getD_eq_getElem?_getD, List.append_assoc,
            List.getElem?_append_right (by omega), List.getElem?_append_left (by omega), e1]
        rw [this]; exact hasFDerivAt_const _ _
      · rename_i h1 h2
        have : (fun v : Fin (y ++ q).length → ℝ => ((List.ofFn v).take y.length ++ z ++
            (List.ofFn v).drop y.length).getD i 0) = fun v => (List.ofFn v).getD (i - z.length) 0 := by
          funext v
          have e1 : ((List.ofFn v).take y.length ++ z).length = y.length + z.length := by simp
          rw [List.getD_eq_getElem?_getD, List.getD_eq_getElem?_getD,
            List.getElem?_append_right (by omega), List.getElem?_drop, e1]
          congr 2; omega
        rw [this]; exact cproj_deriv _ _ _
  have hA : ∀ v0, HasFDerivAt A (ContinuousLinearMap.pi fun i => c i) v0 := fun v0 =>
    hasFDerivAt_pi.mpr fun i => hc i v0
  have hof : ∀ v, List.ofFn (A v) = (List.ofFn v).take y.length ++ z ++ (List.ofFn v).drop y.length := by
    intro v
    apply List.ext_getElem
    · simp
    · intro i h1 h2
      simp [A, List.getD_eq_getElem?_getD]
  have hx : A (fun i => (y ++ q)[i]) = fun i => (y ++ z ++ q)[i] := by
    funext i
    simp only [A]
    rw [ofFn_get, List.take_left, List.drop_left, List.getD_eq_getElem?_getD, List.getElem?_eq_getElem i.2]
    rfl
  have hd' := hd
  rw [← hx] at hd'
  have key := hd'.comp (fun i : Fin (y ++ q).length => (y ++ q)[i]) (hA _)
  simp only [Function.comp_def, hof] at key
  refine key.congr_fderiv ?_
  have e1 : (∑ i : Fin (y ++ z ++ q).length, df.getD i 0 • ContinuousLinearMap.proj (R := ℝ) (φ := fun _ => ℝ) i).comp
      (ContinuousLinearMap.pi fun i : Fin (y ++ z ++ q).length => c i) =
      ∑ i : Fin (y ++ z ++ q).length, df.getD i 0 • c i := by
    ext v
    simp
  rw [e1, ← cproj_sum]
  have e2 : ∑ i : Fin (y ++ z ++ q).length, df.getD i 0 • c i =
      ((List.range (y ++ z ++ q).length).map fun i => df.getD i 0 • c i).sum := by
    rw [← List.sum_ofFn]
    congr 1
    apply List.ext_getElem <;> simp
  rw [e2, hN', show List.range (y ++ q).length = List.range (y.length + q.length) by rw [hN], List.range_add,
    List.range_add, List.range_add]
  simp only [List.map_append, List.sum_append, List.map_map]
  congr 1
  · congr 1
    apply List.map_congr_left
    intro i hi
    have hi := List.mem_range.mp hi
    simp only [c, if_pos hi]
    congr 1
    simp [List.getD_eq_getElem?_getD, List.getElem?_append_left, hi, show i < df.length by omega]
  · rw [show ((List.range z.length).map ((fun i => df.getD i 0 • c i) ∘ fun x => y.length + x)).sum = 0 from ?_,
      zero_add]
    · congr 1
      apply List.map_congr_left
      intro i hi
      have hi := List.mem_range.mp hi
      simp only [Function.comp_apply, c]
      rw [if_neg (by omega), if_neg (by omega)]
      congr 1
      · have e1 : (df.take y.length).length = y.length := by simp; omega
        simp only [List.getD_eq_getElem?_getD]
        rw [List.getElem?_append_right (by omega), List.getElem?_drop, e1]
        congr 2; omega
      · congr 1; omega
    · apply List.sum_eq_zero
      intro v hv
      obtain ⟨i, hi, rfl⟩ := List.mem_map.mp hv
      have hi := List.mem_range.mp hi
      simp only [Function.comp_apply, c]
      rw [if_neg (by omega), if_pos (by omega), smul_zero]

theorem sens_begun (h : Inv s g val adj) (hl : s.level < maxNestedStack)
    (k : Keep s.begun s') : InRegion s' g := by
  have hlev := k.level
  have hnv := k.nestVari
  have hvh := h.vhead
  simp only [St.begun] at hlev hnv
  exact ⟨by omega, by simp only [maxNestedStack] at *; omega, by rw [hnv, hlev]; simp [hvh]⟩

/-- the rows of the sensitivity right-hand side -/
theorem sens_rows (h : Inv s g val adj) (hcok : ∀ nd ∈ g.nodes, nd.ChainOK ∨ nd.Fits val)
    (hl : s.level < maxNestedStack)
    (r : RanC s.begun g val adj x ys p s' g' val' adj' D' ε' xv outs) {yvar pvar : List Var} {yS : List (List ℝ)}
    {ns m n : Nat} {par : Bool} (hm : m ≤ ns) (hyv : yvar = xv.take n) (hpv : par = true → pvar = xv.drop (2 * n))
    (hpv' : par = false → pvar = [])
    {out out' : Nat → Nat → ℝ} {t t' : St W}
    (e : (sensRows yvar pvar yS ns m par 0 outs out : M W (Nat → Nat → ℝ)) s' = .ok (out', t))
    (e' : (endNested : M W Unit) t = .ok ((), t')) :
    (∃ a, Inv t' g val a) ∧ t'.level = s.level ∧ t'.tape.head = s.tape.head ∧ t'.vhead = s.vhead ∧
    ∀ i < outs.length, ∃ df, IsGradAt (p.out ys i) x df ∧ ∀ j < ns, ∃ v, yS[j]? = some v ∧ v.length = yvar.length ∧
      out' j i = (List.zipWith (· * ·) (df.take n) v).sum +
        if par ∧ ns - m ≤ j then (df.drop (2 * n)).getD (j - (ns - m)) 0 else 0 := by
  have hx : ∀ v ∈ xv, g'.Has v := fun v hv => by
    obtain ⟨k, hk, rfl⟩ := List.getElem_of_mem hv
    exact (r.xs k hk).1
  have hsep : ∀ nd ∈ g.nodes, ∀ nd' ∈ g'.nodes.drop g.nodes.length, nd'.pos ≠ nd.pos := fun nd hn nd' hn' => by
    have := (r.zero nd' hn').1
    have := h.node_lt hn
    simp only [St.begun] at *
    omega
  obtain ⟨⟨mem, a, rfl, i1, -⟩, -, h2⟩ := sensRows_ok (g := g) (yvar := yvar) (pvar := pvar) (P := fun _ => True)
    (G := fun k a => IsGradAt (p.out ys k) x (xv.map fun v => a (g'.pos v))) r.pre.nodes.length_le hsep (r.ok hcok)
    (fun v hv => by
      obtain ⟨k, hk, rfl⟩ := List.getElem_of_mem hv
      exact (r.os k hk).has)
    (fun v hv => hx v (List.mem_of_mem_take (hyv ▸ hv)))
    (fun v hv => by
      cases par with
      | false => rw [hpv' rfl] at hv; cases hv
      | true => exact hx v (List.mem_of_mem_drop (hpv rfl ▸ hv)))
    (fun _ _ _ h => h) (fun a k hk hz hf _ => ⟨trivial, r.gradN hz hf hk⟩) hm outs.length 0 (by omega) r.sim.inv
    (sens_begun h hl r.keep) (fun nd hn => (r.zero nd hn).2) trivial (by simpa using e)
  obtain ⟨j, a1, a2, a3⟩ := Ran.close r hl i1 e'
  refine ⟨⟨_, j.congr (fun nd hn => (r.val _ (h.node_lt hn)).symm) fun _ _ => rfl⟩, a1, a2, a3, ?_⟩
  intro i hi
  obtain ⟨a', b1, b2⟩ := h2 i (Nat.zero_le _) hi
  refine ⟨_, b1, fun j hj => ?_⟩
  obtain ⟨v, c1, c2, c3⟩ := b2 j hj
  refine ⟨v, c1, c2, ?_⟩
  rw [c3, hyv, List.map_take]
  congr 1
  cases par with
  | false => simp
  | true => rw [hpv rfl, List.map_drop]

/-- a run of a program that uses no earlier variable, with one coordinate for every earlier record -/
theorem ran_sealed (h : Inv s g val adj) (x : List ℝ) (p : Prog) (hok : p.Ok x)
    (hroom : Room s p x []) :
    ∃ xv outs s1 s', (newVars x : M W (List Var)) s = .ok (xv, s1) ∧
      (p.run (xv ++ []) : M W (List Var)) s1 = .ok (outs, s') ∧
      ∃ ε g' val' adj' D' ε',
        Ran (E := Fin g.nodes.length → ℝ) 0 s g val adj (dual g) ε (x.map fun _ => 0)
        (p.cost x) s' g' val' adj' D' ε' xv outs (fun _ => p.sem x) p.hasConst := by
  obtain ⟨ε, hε⟩ := h.wf.source val (dual g)
  have hs : Sim s g val adj (dual g) ε := ⟨h, hε⟩
  have hl : ∀ a ∈ x.map (fun c => ((fun _ : Fin g.nodes.length → ℝ => c),
      (0 : (Fin g.nodes.length → ℝ) →L[ℝ] ℝ))), HasFDerivAt a.1 a.2 0 := by
    intro a ha
    obtain ⟨c, _, rfl⟩ := List.mem_map.mp ha
    exact hasFDerivAt_const _ _
  have tc : EnvTracks (0 : Fin g.nodes.length → ℝ) g val (dual g) [] (fun _ => []) :=
    ⟨fun _ => rfl, fun i hi => by simp at hi⟩
  have e1 : ∀ y : Fin g.nodes.length → ℝ, (x.map (fun c => ((fun _ : Fin g.nodes.length → ℝ => c),
      (0 : (Fin g.nodes.length → ℝ) →L[ℝ] ℝ)))).map (fun a => a.1 y) = x := by
    intro y; simp [Function.comp_def]
  have e2 : (x.map (fun c => ((fun _ : Fin g.nodes.length → ℝ => c),
      (0 : (Fin g.nodes.length → ℝ) →L[ℝ] ℝ)))).map Prod.snd = x.map fun _ => 0 := by
    simp [Function.comp_def]
  have := ran hs _ hl tc p
  simp only [e1, e2, List.append_nil, List.length_map] at this
  unfold Room at hroom
  simp only [List.append_nil] at hroom ⊢
  obtain ⟨xv, outs, s1, s', f1, f2, g', val', adj', D', ε', r⟩ := this hok hroom
  exact ⟨xv, outs, s1, s', f1, f2, ε, g', val', adj', D', ε', r⟩

/-- sweeping over the region of a program that uses no earlier variable leaves the earlier adjoints alone -/
theorem Ran.sealed {ε D' ε' : Nat → (Fin g.nodes.length → ℝ) →L[ℝ] ℝ} {x0 : Fin g.nodes.length → ℝ}
    {es : List ((Fin g.nodes.length → ℝ) →L[ℝ] ℝ)} {τ : (Fin g.nodes.length → ℝ) → List ℝ} {words : Nat}
    (r : Ran x0 s g val adj (dual g) ε es words s' g' val' adj' D' ε' xv outs τ lf)
    (hes : ∀ e ∈ es, e = 0) {c : List ℝ} (hτ : ∀ y, τ y = c) (a : Nat → ℝ)
    (hf : ∀ nd ∈ g'.nodes.drop g.nodes.length, nd.Fits val')
    (hz : ∀ nd ∈ g'.nodes.drop g.nodes.length, a nd.pos = 0) {k : Nat} (hk : k < outs.length) :
    ∀ nd ∈ g.nodes, Fz.sweep val' (g'.nodes.drop g.nodes.length) (Fz.upd a (g'.pos outs[k]) 1) nd.pos =
      a nd.pos := by
  have h := r.inv0
  refine pair_dual h.wf ?_
  have key := r.sweepNew hf (Fz.upd a (g'.pos outs[k]) 1)
  rw [comb_zero _ _ hes, add_zero] at key
  rw [← key]
  have hz' := r.const hτ hk
  rw [r.split, List.map_append, pair_append]
  have z2 : pair ((g'.nodes.drop g.nodes.length).map Node.pos) (Fz.upd a (g'.pos outs[k]) 1) D' = 0 := by
    refine pair_zero _ _ _ fun q hq => ?_
    obtain ⟨nd, hnd, rfl⟩ := List.mem_map.mp hq
    by_cases hqe : nd.pos = g'.pos outs[k]
    · rw [hqe, hz', smul_zero]
    · rw [upd_ne _ _ hqe, hz nd hnd, zero_smul]
  rw [z2, add_zero]
  unfold pair
  congr 1
  apply List.map_congr_left
  intro q hq
  obtain ⟨nd, hnd, rfl⟩ := List.mem_map.mp hq
  have hlt := h.node_lt hnd
  rw [r.dd _ hlt]
  by_cases hqe : nd.pos = g'.pos outs[k]
  · have : dual g nd.pos = 0 := by rw [← r.dd _ hlt, hqe, hz']
    rw [this, smul_zero, smul_zero]
  · rw [upd_ne _ _ hqe]

/-- the same rows leave the caller's adjoints alone when the program does not use the caller's variables -/
theorem sens_sealed (h : Inv s g val adj) (hcok : ∀ nd ∈ g.nodes, nd.ChainOK ∨ nd.Fits val)
    (hl : s.level < maxNestedStack) (hok : p.Ok x) (hroom : Room s p x [])
    {s1 s' : St W} (e1 : (newVars x : M W (List Var)) s.begun = .ok (xv, s1))
    (e2 : (p.run (xv ++ []) : M W (List Var)) s1 = .ok (outs, s')) {yvar pvar : List Var} {yS : List (List ℝ)}
    {ns m n : Nat} {par : Bool} (hm : m ≤ ns) (hyv : yvar = xv.take n) (hpv : par = true → pvar = xv.drop (2 * n))
    (hpv' : par = false → pvar = [])
    {out out' : Nat → Nat → ℝ} {t t' : St W}
    (e : (sensRows yvar pvar yS ns m par 0 outs out : M W (Nat → Nat → ℝ)) s' = .ok (out', t))
    (e' : (endNested : M W Unit) t = .ok ((), t')) : Inv t' g val adj := by
  obtain ⟨xv', outs', s1', s2', f1, f2, ε, g', val', adj', D', ε', r⟩ := ran_sealed h.begun x p hok hroom
  rw [e1] at f1
  cases f1
  rw [e2] at f2
  cases f2
  have hx : ∀ v ∈ xv, g'.Has v := fun v hv => by
    obtain ⟨k, hk, rfl⟩ := List.getElem_of_mem hv
    exact (r.xs k hk).1
  have hsep : ∀ nd ∈ g.nodes, ∀ nd' ∈ g'.nodes.drop g.nodes.length, nd'.pos ≠ nd.pos := fun nd hn nd' hn' => by
    have := (r.zero nd' hn').1
    have := h.node_lt hn
    simp only [St.begun] at *
    omega
  obtain ⟨⟨mem, a, rfl, i1, hPa⟩, -, -⟩ := sensRows_ok (g := g) (yvar := yvar) (pvar := pvar) (P := fun a => ∀ nd ∈ g.nodes, a nd.pos = adj nd.pos)
    (G := fun _ _ => True) r.pre.nodes.length_le hsep (r.ok hcok)
    (fun v hv => by
      obtain ⟨k, hk, rfl⟩ := List.getElem_of_mem hv
      exact (r.os k hk).has)
    (fun v hv => hx v (List.mem_of_mem_take (hyv ▸ hv)))
    (fun v hv => by
      cases par with
      | false => rw [hpv' rfl] at hv; cases hv
      | true => exact hx v (List.mem_of_mem_drop (hpv rfl ▸ hv)))
    (fun a a' haa h nd hn => (haa nd hn).trans (h nd hn))
    (fun a k hk hz hf hP => ⟨fun nd hn => (r.sealed (by simp) (fun _ => rfl) a hf hz hk nd hn).trans (hP nd hn), trivial⟩)
    hm outs.length 0 (by omega) r.sim.inv
    (sens_begun h hl r.keep) (fun nd hn => (r.zero nd hn).2)
    (fun nd hn => r.adj _ (h.node_lt hn)) (by simpa using e)
  obtain ⟨j, a1, a2, a3⟩ := r.close hl i1 e'
  exact j.congr (fun nd hn => (r.val _ (h.node_lt hn)).symm) fun nd hn => (hPa nd hn).symm

end Fz
