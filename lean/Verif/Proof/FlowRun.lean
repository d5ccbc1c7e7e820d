import Verif.Proof.FlowGrad
import Verif.Proof.PlanRun

/-!
# Histories with solutions of differential equations
-/

set_option linter.unusedSectionVars false

namespace Fz
open Arith Spec

variable {W : Type} [Rep W ℝ] [LawfulRep W ℝ]
variable {c d : Client W} {g : Graph ℝ} {val adj : Nat → ℝ}

theorem shade_of (S : Shadow c d g val adj) : Shade (base d) c.st d.st g val adj :=
  ⟨S.alike, ⟨S.sound.good.inv, fun nd hn => S.sound.fits nd hn _, fun k hk _ => leafSafe_takes (S.sound.clean rfl k hk)⟩,
    S.sound.good.base_le⟩

/-- a step after which there are the same variables -/
theorem Shadow.shade (S : Shadow c d g val adj) {s' t' : St W} {a : Nat → ℝ} (h : Shade (base d) s' t' g val a)
    (hl : t'.level = d.st.level) (hh : t'.tape.head = d.st.tape.head)
    (hn : ∀ k ≤ d.st.level, t'.nestTape k = d.st.nestTape k ∧ t'.nestVari k = d.st.nestVari k) :
    Shadow ⟨s', c.env, c.marks⟩ ⟨t', d.env, d.marks⟩ g val a := by
  have G := S.sound.good
  have hbe : base ⟨t', d.env, d.marks⟩ = base d := by
    unfold base
    split
    · show t'.vhead = _
      rw [h.fine.inv.vhead, G.inv.vhead]
    · rename_i hm
      have := G.level_pos hm
      exact (hn 1 (by omega)).2
  refine ⟨S.env, S.marks, ⟨⟨h.fine.inv, G.cok, G.has, by rw [hl]; exact G.lvl, by rw [hl]; exact G.max, ?_⟩, S.sound.fits,
    fun _ k hk v a xs hx => ?_⟩, ?_⟩
  · show NestOK t'.nestVari t'.nestTape d.marks g.erase t'.tape.head d.env
    rw [hh]
    have hlv := G.lvl
    exact G.nest.congr (fun k hk => (hn k (by omega)).2) fun k hk => (hn k (by omega)).1
  · obtain rfl := List.eq_nil_of_length_eq_zero hx
    exact h.fine.leaf k hk (Or.inr trivial) v a
  · rw [hbe]
    exact h.akin

theorem solVars_shadow {y : List ℝ} {yS : List (List ℝ)} {n : Nat} {os : List Nat} (hS : yS.length = os.length)
    (hS' : ∀ v ∈ yS, v.length = n) (hy : y.length = n) {ops : List Var} :
    ∀ (is : List Nat) {c d : Client W} {g : Graph ℝ} {val adj : Nat → ℝ}, Shadow c d g val adj →
    (∀ i ∈ os, i < c.env.length) → ops = os.map (nth c.env) → (∀ i ∈ is, i < n) →
    c.st.tape.head + is.length * (6 + 3 * os.length) ≤ tapeLimit →
    ∃ vs s', solVars ops os.length y yS is c.st = .ok (vs, s') ∧
      s'.tape.head = c.st.tape.head + is.length * (6 + 3 * os.length) ∧
      ∃ (d' : Client W) (g' : Graph ℝ) (val' adj' : Nat → ℝ), Shadow ⟨s', c.env ++ vs, c.marks⟩ d' g' val' adj' := by
  intro is
  induction is with
  | nil =>
    intro c d g val adj S _ _ _ _
    exact ⟨[], c.st, rfl, by simp, d, g, val, adj, by simpa using S⟩
  | cons i is ih =>
    intro c d g val adj S ho he hi room
    have hlen : (i :: is).length * (6 + 3 * os.length) = (6 + 3 * os.length) + is.length * (6 + 3 * os.length) := by
      simp [Nat.succ_mul, Nat.add_comm]
    rw [hlen] at room ⊢
    have hin := hi i (by simp)
    obtain ⟨g1, e1, hl⟩ := gather_total yS i c.st (List.range os.length) (List.replicate ops.length Arith.zero)
      (fun k hk => by
        have := List.mem_range.mp hk
        simp [he]
        omega) (fun v hv => by rw [hS' v hv]; exact hin)
    have e2 : (deref y[i]? : M W ℝ) c.st = .ok (y[i]'(by omega), c.st) := by
      rw [List.getElem?_eq_getElem (by omega)]; rfl
    have hval := S.sound.good.inv.varVals (vs := c.env) fun v hv => S.sound.good.has v (by rw [S.env]; exact hv)
    obtain ⟨s0, hval', -⟩ := blind_vals _ _ _ _ _ S.alike hval
    obtain rfl := vals_st hval'
    obtain ⟨r, s1, t1, g2, val2, adj2, e3, -, -, -, hw, S2⟩ := S.make (m := .partials (y[i]'(by omega)) os g1)
      ⟨⟨ho, trivial, trivial, _, hval', by
          show os.length ≤ g1.length
          rw [hl]; simp [he], by
          show c.st.tape.head + (6 + 3 * os.length) ≤ tapeLimit
          omega⟩, fun h => by simp [Call.product, Make.product] at h⟩
    have hd := hw _ (by rw [S.env]; exact hval)
    have hd1 : s1.tape.head = c.st.tape.head + (6 + 3 * os.length) := by
      have a1 := congrArg Tape.head S2.alike.tape
      have a2 := congrArg Tape.head S.alike.tape
      have hd' : t1.tape.head = d.st.tape.head + (6 + 3 * os.length) := hd
      simp only at a1
      omega
    obtain ⟨v, s1', e4, e5⟩ := bind_inv (show (single (varWithPartials (y[i]'(by omega)) (os.map (nth c.env)) g1) :
      M W (List Var)) c.st = .ok (r, s1) from e3)
    cases e5
    obtain ⟨vs, s2, e6, hd2, d', g', val', adj', S3⟩ := ih S2 (fun j hj => by
        have := ho j hj
        simp
        omega) (by rw [map_nth_append ho]; exact he) (fun j hj => hi j (by simp [hj])) (by simp only; omega)
    refine ⟨v :: vs, s2, ?_, by simp only at hd2; omega, d', g', val', adj', by simpa using S3⟩
    unfold solVars
    rw [bind_ok e1, bind_ok e2, he, bind_ok e4, ← he, bind_ok e6]
    rfl

theorem solLoop_shadow {pr : Problem} {ok : ℝ → List ℝ → List (List ℝ) → Prop} {ode : CvsRhs W ℝ} {lv : Nat} {τ : Type}
    (hf : pr.f = ode.f) (sv : Solver ℝ τ) (n : Nat) {os : List Nat} {ops : List Var} (hns : ode.ns = os.length) :
    ∀ (ts : List ℝ) (mem : τ) {c d : Client W} {g : Graph ℝ} {val adj : Nat → ℝ} {y0 : List ℝ}, Shadow c d g val adj →
    c.marks.length = lv → (∀ i ∈ os, i < c.env.length) → ops = os.map (nth c.env) →
    c.st.tape.head + ts.length * (n * (6 + 3 * os.length)) ≤ tapeLimit →
    (∀ k0, ∀ k < ts.length, SensL W pr ok ode k0 (c.st.tape.head + k * (n * (6 + 3 * os.length))) lv) →
    AsksAll pr sv ok ts mem → Succeeds pr sv n os.length ts mem →
    ∃ yt y1 s', (∀ J : Junk W ℝ, solLoopL J sv ode ops n ts mem y0 c.st = .ok ((yt, y1), s')) ∧
      ∃ (d' : Client W) (g' : Graph ℝ) (val' adj' : Nat → ℝ), Shadow ⟨s', c.env ++ yt.flatten, c.marks⟩ d' g' val' adj' := by
  intro ts
  induction ts with
  | nil =>
    intro mem c d g val adj y0 S _ _ _ _ _ _ _
    exact ⟨[], y0, c.st, fun _ => rfl, d, g, val, adj, by simpa using S⟩
  | cons t0 ts ih =>
    intro mem c d g val adj y0 S hm ho he room hs ha hg
    have hlen : (t0 :: ts).length * (n * (6 + 3 * os.length)) =
        n * (6 + 3 * os.length) + ts.length * (n * (6 + 3 * os.length)) := by
      simp [Nat.succ_mul, Nat.add_comm]
    rw [hlen] at room
    have hs0 := hs (base d) 0 (by simp)
    rw [Nat.zero_mul, Nat.add_zero] at hs0
    have hhd : d.st.tape.head = c.st.tape.head := (congrArg Tape.head S.alike.tape).symm
    have hlv : d.st.level = lv := by rw [S.sound.good.lvl, S.marks, hm]
    obtain ⟨⟨ierr, y, yS, mem'⟩, s1, t1, e1, hsol, h1, hh1, hl1, hn1⟩ := answerL_total hf hs0 (sv.step mem t0) (shade_of S)
      hhd hlv ha.1
    obtain ⟨rfl, hy, hS, hS'⟩ := hg.1 _ hsol
    simp only at hy hS hS'
    have S1 := S.shade h1 (by omega) (by omega) (fun k hk => hn1 k (by omega))
    have hh2 : s1.tape.head = c.st.tape.head := by
      have := congrArg Tape.head h1.akin.tape
      omega
    obtain ⟨vs, s2, e2, hd2, d2, g2, val2, adj2, S2⟩ := solVars_shadow hS hS' hy (List.range n) S1 ho he
      (fun i hi => List.mem_range.mp hi) (by simp only [List.length_range]; omega)
    rw [List.length_range] at hd2
    simp only at hd2 e2
    have hb : s2.tape.head = c.st.tape.head + n * (6 + 3 * os.length) := by omega
    obtain ⟨rest, y1, s3, e3, d3, g3, val3, adj3, S3⟩ := ih mem' (y0 := y) S2 hm (fun j hj => by
        have := ho j hj
        simp
        omega) (by rw [map_nth_append ho]; exact he) (by simp only; omega) (fun k0 k hk => by
        have := hs k0 (k + 1) (by simpa using hk)
        simp only
        rw [hb]
        rw [Nat.succ_mul, Nat.add_comm (k * _), ← Nat.add_assoc] at this
        exact this) (ha.2 _ yS mem' hsol) (hg.2 _ yS mem' hsol)
    refine ⟨vs :: rest, y1, s3, fun J => ?_, d3, g3, val3, adj3, by simpa using S3⟩
    unfold solLoopL
    rw [bind_ok (e1 J)]
    simp only [ne_eq, not_true_eq_false, if_false]
    have f2' : solVars ops ode.ns y yS (List.range n) s1 = .ok (vs, s2) := by rw [hns]; exact e2
    have e3' := e3 J
    simp only at e3'
    rw [bind_ok f2', bind_ok e3']
    rfl

variable {τ : Type}

theorem Shadow.solveY (S : Shadow c d g val adj) {e : Ivp τ} {is : List Nat} {z : List ℝ} (h : e.ProperY c is z) :
    ∃ yt s', (∀ J : Junk W ℝ, cvodesSolY0L J e.sv e.t0 (is.map (nth c.env)) e.ts e.f (odeY e.p []) c.st = .ok (yt, s')) ∧
      ∃ (d' : Client W) (g' : Graph ℝ) (val' adj' : Nat → ℝ), Shadow ⟨s', c.env ++ yt.flatten, c.marks⟩ d' g' val' adj' := by
  obtain ⟨hl, ho, h0, hz, hm, room, ha, hg⟩ := h
  have hcap : cap = tapeLimit := rfl
  obtain ⟨yt, y1, s', e1, r⟩ := solLoop_shadow (lv := c.marks.length) (pr := initProblem e.f e.p)
    (ode := newCvsRhsYvar true is.length e.f (odeY e.p [])) rfl e.sv is.length (os := is) rfl e.ts _ (y0 := z) S rfl ho rfl
    (by omega) (fun k0 k hk => sensL_y hl hk rfl h0 (by
      have : k * (is.length * (6 + 3 * is.length)) ≤ e.ts.length * (is.length * (6 + 3 * is.length)) :=
        Nat.mul_le_mul_right _ (by omega)
      omega) hm) ha hg
  refine ⟨yt, s', fun J => ?_, r⟩
  unfold cvodesSolY0L
  rw [bind_ok hz]
  simp only [List.length_map]
  have := e1 J
  rw [← sensInit_y is.length e.f (odeY (W := W) e.p [])] at this
  rw [bind_ok this]
  rfl

theorem Shadow.solveP (S : Shadow c d g val adj) {e : Ivp τ} {y : List ℝ} {is : List Nat} {z : List ℝ}
    (h : e.ProperP c y is z) :
    ∃ r s', (∀ J : Junk W ℝ, cvodesSolParL J e.sv e.t0 y e.ts (is.map (nth c.env)) e.f (odeP e.p []) c.st = .ok (r, s')) ∧
      ∃ (d' : Client W) (g' : Graph ℝ) (val' adj' : Nat → ℝ), Shadow ⟨s', c.env ++ r.1.flatten, c.marks⟩ d' g' val' adj' := by
  obtain ⟨hl, ho, h3, hz, hm, room, ha, hg⟩ := h
  have hcap : cap = tapeLimit := rfl
  have hzl : z.length = 3 := by
    have := S.vals (vs := is.map (nth c.env)) (fun v hv => by
      obtain ⟨i, hi, rfl⟩ := List.mem_map.mp hv
      exact nth_mem (ho i hi)) hz
    rw [S.sound.good.inv.varVals (fun v hv => by
      obtain ⟨i, hi, rfl⟩ := List.mem_map.mp hv
      exact S.sound.good.has _ (by rw [S.env]; exact nth_mem (ho i hi)))] at this
    cases this
    simp [h3]
  obtain ⟨yt, y1, s', e1, r⟩ := solLoop_shadow (lv := c.marks.length) (pr := paramProblem e.f e.p z)
    (ok := CallableL e.p z y.length 3 e.words c.st.tape.head e.ts.length)
    (ode := newCvsRhsPvar false 3 z e.f (odeP e.p [])) rfl e.sv y.length (os := is) (by simp [newCvsRhsPvar, h3]) e.ts
    (e.sv.init e.t0 y (List.replicate 3 (List.replicate y.length 0))) (y0 := y) S rfl ho rfl
    (by rw [h3]; omega) (fun k0 k hk => by
      have := sensL_p (W := W) (k0 := k0) (f := e.f) (P := e.p) (K := e.words) (h0 := c.st.tape.head) (n := y.length) hzl hl hk rfl (by
        have : k * (y.length * (6 + 3 * z.length)) ≤ e.ts.length * (y.length * (6 + 3 * z.length)) :=
          Nat.mul_le_mul_right _ (by omega)
        rw [hzl] at this ⊢
        omega) hm
      rw [hzl] at this
      rw [h3]
      exact this) ha (by rw [h3]; exact hg)
  refine ⟨(yt, y1), s', fun J => ?_, r⟩
  unfold cvodesSolParL
  rw [bind_ok hz]
  have := e1 J
  rw [← sensInit_p y.length 3 z e.f (odeP (W := W) e.p [])] at this
  simp only [List.length_map, h3]
  exact this

theorem Shadow.caps (S : Shadow c d g val adj) {is : List Nat} (hi : ∀ i ∈ is, i < c.env.length) :
    ∀ v ∈ is.map (nth c.env), g.Has v := by
  intro v hv
  obtain ⟨i, hi', rfl⟩ := List.mem_map.mp hv
  exact S.sound.good.has _ (by rw [S.env]; exact nth_mem (hi i hi'))

theorem Shadow.capVals (S : Shadow c d g val adj) {is : List Nat} (hi : ∀ i ∈ is, i < c.env.length) {ys : List ℝ}
    (hv : (Fz.vals (is.map (nth c.env)) : M W (List ℝ)) c.st = .ok (ys, c.st)) :
    ys = (is.map (nth c.env)).map fun v => val (g.pos v) := by
  have := S.vals (fun v hv => by
    obtain ⟨i, hi', rfl⟩ := List.mem_map.mp hv
    exact nth_mem (hi i hi')) hv
  rw [S.sound.good.inv.varVals (S.caps hi)] at this
  cases this
  rfl

theorem Shadow.flowGradient (S : Shadow c d g val adj) {fl : Flow τ} {is : List Nat} {ys x : List ℝ}
    (h : fl.ProperL c is ys x) :
    ∃ df s', (∀ J : Junk W ℝ, (gradientL J (fl.scalarL J (is.map (nth c.env))) x : M W (ℝ × List ℝ)) c.st =
        .ok (((fl.sem (x ++ ys)).getD 0 0, df), s')) ∧
      IsGradAt (fun z => (fl.sem (z ++ ys)).getD 0 0) x df ∧ s'.tape.head = c.st.tape.head ∧
      (Fz.vals c.env : M W (List ℝ)) s' = .ok (c.env.map fun v => val (g.pos v), s') ∧
      ∃ (d' : Client W) (adj' : Nat → ℝ), Shadow ⟨s', c.env, c.marks⟩ d' g val adj' := by
  obtain ⟨hl, hi, hv, room, hok, h0⟩ := h
  obtain rfl := S.capVals hi hv
  have hhd : d.st.tape.head = c.st.tape.head := (congrArg Tape.head S.alike.tape).symm
  have hlv : d.st.level = c.marks.length := by rw [S.sound.good.lvl, S.marks]
  obtain ⟨df, s', e, hg, t', a, h1, a1, a2, a3⟩ := flow_gradient fl (shade_of S)
    (by rw [hlv]; simp only [maxNestedStack]; omega) x (S.caps hi) (by rw [hhd]; exact room) (by rw [hhd]; exact hok) h0
  have S' := S.shade h1 a1 a2 a3
  refine ⟨df, s', e, hg, ?_, ?_, _, a, S'⟩
  · have := congrArg Tape.head h1.akin.tape
    omega
  · obtain ⟨s2, f, -⟩ := blind_vals _ _ _ _ _ S'.alike (S'.sound.good.inv.varVals (vs := c.env) fun v hv =>
      S'.sound.good.has v (by rw [S'.env]; exact hv))
    obtain rfl := vals_st f
    exact f

theorem Shadow.flowJacobian (S : Shadow c d g val adj) {fl : Flow τ} {is : List Nat} {ys x : List ℝ}
    (h : fl.ProperL c is ys x) :
    ∃ rows s', (∀ J : Junk W ℝ, (jacobianL J (fl.vectorL J (is.map (nth c.env))) (fl.sem (x ++ ys)).length x :
        M W (List ℝ × List (List ℝ))) c.st = .ok ((fl.sem (x ++ ys), rows), s')) ∧
      rows.length = (fl.sem (x ++ ys)).length ∧
      (∀ k (hk : k < rows.length), IsGradAt (fun z => (fl.sem (z ++ ys)).getD k 0) x rows[k]) ∧
      s'.tape.head = c.st.tape.head ∧
      (Fz.vals c.env : M W (List ℝ)) s' = .ok (c.env.map fun v => val (g.pos v), s') ∧
      ∃ (d' : Client W) (adj' : Nat → ℝ), Shadow ⟨s', c.env, c.marks⟩ d' g val adj' := by
  obtain ⟨hl, hi, hv, room, hok, h0⟩ := h
  obtain rfl := S.capVals hi hv
  have hhd : d.st.tape.head = c.st.tape.head := (congrArg Tape.head S.alike.tape).symm
  have hlv : d.st.level = c.marks.length := by rw [S.sound.good.lvl, S.marks]
  obtain ⟨rows, s', e, hr, hg, t', a, h1, a1, a2, a3⟩ := flow_jacobian fl (shade_of S)
    (by rw [hlv]; simp only [maxNestedStack]; omega) x (S.caps hi) (by rw [hhd]; exact room) (by rw [hhd]; exact hok) h0 rfl
  have S' := S.shade h1 a1 a2 a3
  refine ⟨rows, s', e, hr, hg, ?_, ?_, _, a, S'⟩
  · have := congrArg Tape.head h1.akin.tape
    omega
  · obtain ⟨s2, f, -⟩ := blind_vals _ _ _ _ _ S'.alike (S'.sound.good.inv.varVals (vs := c.env) fun v hv =>
      S'.sound.good.has v (by rw [S'.env]; exact hv))
    obtain rfl := vals_st f
    exact f

theorem orderlyS_shadow (hc : Commutes ℝ) (h : OrderlyS c) : ∃ (d : Client W) (g : Graph ℝ) (val adj : Nat → ℝ), Shadow c d g val adj := by
  induction h with
  | start => exact ⟨_, _, _, _, shadow_init (fun _ => Arith.zero) fun _ => Arith.zero⟩
  | call J k _ hk e ih =>
    obtain ⟨d, g, val, adj, S⟩ := ih
    obtain ⟨c1, e1, S1⟩ := S.exec hk
    rw [e1 J] at e
    cases e
    exact S1
  | ask J q is ys r _ hq e ih =>
    obtain ⟨d, g, val, adj, S⟩ := ih
    obtain ⟨r1, s1, e1, -, -, -, S1⟩ := S.ask hc hq
    rw [e1 J] at e
    cases e
    exact S1
  | init J i is z yt _ hi e ih =>
    obtain ⟨d, g, val, adj, S⟩ := ih
    obtain ⟨r1, s1, e1, S1⟩ := S.solveY hi
    rw [e1 J] at e
    cases e
    exact S1
  | par J i y is z r _ hi e ih =>
    obtain ⟨d, g, val, adj, S⟩ := ih
    obtain ⟨r1, s1, e1, S1⟩ := S.solveP hi
    rw [e1 J] at e
    cases e
    exact S1
  | gradient J fl is ys x r _ hf e ih =>
    obtain ⟨d, g, val, adj, S⟩ := ih
    obtain ⟨r1, s1, e1, -, -, -, d1, a1, S1⟩ := S.flowGradient hf
    rw [e1 J] at e
    cases e
    exact ⟨_, _, _, _, S1⟩
  | jacobian J fl is ys x r _ hf e ih =>
    obtain ⟨d, g, val, adj, S⟩ := ih
    obtain ⟨r1, s1, e1, -, -, -, -, d1, a1, S1⟩ := S.flowJacobian hf
    rw [e1 J] at e
    cases e
    exact ⟨_, _, _, _, S1⟩
  | odeY J p is es z ys yt _ hp e ih =>
    obtain ⟨d, g, val, adj, S⟩ := ih
    obtain ⟨yt1, s1, e1, -, -, -, d1, g1, val1, adj1, S1, -⟩ := S.taskY hc hp
    rw [e1 J] at e
    cases e
    exact ⟨_, _, _, _, S1⟩
  | odeP J p y is es q ys r _ hp e ih =>
    obtain ⟨d, g, val, adj, S⟩ := ih
    obtain ⟨yt1, s1, e1, -, -, -, d1, g1, val1, adj1, S1, -⟩ := S.taskP hc hp
    rw [e1 J] at e
    cases e
    exact ⟨_, _, _, _, S1⟩
  | planGradient J f is ys x r _ hf ha hk hr e ih =>
    obtain ⟨d, g, val, adj, S⟩ := ih
    obtain ⟨r1, s1, e1, -, -, -, S1⟩ := S.planGradient hc hf ha hk hr
    rw [e1 J] at e
    cases e
    exact S1
  | planJacobian J f is ys x r _ hf hk hx e ih =>
    obtain ⟨d, g, val, adj, S⟩ := ih
    obtain ⟨s1, e1, -, -, S1⟩ := S.planJacobian hc hf hk hx
    rw [e1 J] at e
    cases e
    exact S1
  | deepGradient J f is ys x r _ hf ha hk hr e ih =>
    obtain ⟨d, g, val, adj, S⟩ := ih
    obtain ⟨r1, s1, e1, -, -, -, S1⟩ := S.deepGradient hc (fun _ : True => quiet_real) hf ha hk hr
    rw [e1 J] at e
    cases e
    exact S1
  | deepJacobian J f is ys x r _ hf hk hx e ih =>
    obtain ⟨d, g, val, adj, S⟩ := ih
    obtain ⟨s1, e1, -, -, S1⟩ := S.deepJacobian hc (fun _ : True => quiet_real) hf hk hx
    rw [e1 J] at e
    cases e
    exact S1

theorem _root_.Spec.Deep.Apart.more {R : Type} {inner : Prop} : ∀ {f : Deep R}, f.Apart False → f.Apart inner
  | .ret _, _ => trivial
  | .make _ k, h => Spec.Deep.Apart.more (f := k) h
  | .look _ k, h => fun x => Spec.Deep.Apart.more (f := k x) (h x)
  | .gradient _ _ _ _, h => h.1.elim
  | .jacobian _ _ _ _ _, h => h.1.elim

theorem _root_.Spec.Deep.Careful.more {R : Type} {inner : Prop} : ∀ {f : Deep R}, f.Careful False → f.Careful inner
  | .ret _, _ => trivial
  | .make _ k, h => Spec.Deep.Careful.more (f := k) h
  | .look _ k, h => fun x => Spec.Deep.Careful.more (f := k x) (h x)
  | .gradient f _ _ k, h => ⟨h.1.more, Spec.Deep.Careful.more (f := f) h.2.1, fun y df => Spec.Deep.Careful.more (f := k y df) (h.2.2 y df)⟩
  | .jacobian f _ _ _ k, h => ⟨Spec.Deep.Careful.more (f := f) h.1, fun fx J => Spec.Deep.Careful.more (f := k fx J) (h.2 fx J)⟩

theorem _root_.Spec.OrderlyL.solves (h : OrderlyL ℝ c) : OrderlyS c := by
  induction h with
  | start => exact .start
  | call J k _ hk e ih => exact .call J k ih hk e
  | ask J q is ys r _ hq e ih => exact .ask J q is ys r ih hq e
  | init J p is es z ys yt _ hp e ih => exact .odeY J p is es z ys yt ih hp e
  | par J p y is es q ys r _ hp e ih => exact .odeP J p y is es q ys r ih hp e
  | gradient J f is ys x r _ hf ha hk hr e ih => exact .planGradient J f is ys x r ih hf ha hk hr e
  | jacobian J f is ys x r _ hf hk hx e ih => exact .planJacobian J f is ys x r ih hf hk hx e
  | deepGradient J f is ys x r _ hf ha hk hr e ih =>
    exact .deepGradient J f is ys x r ih hf (ha.more) (hk.more) hr e
  | deepJacobian J f is ys x r _ hf hk hx e ih => exact .deepJacobian J f is ys x r ih hf (hk.more) hx e

end Fz
