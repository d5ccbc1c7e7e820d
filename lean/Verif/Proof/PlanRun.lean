import Verif.Proof.OdeBookRun
import Verif.Spec.Orderly

/-!
# Functions that solve differential equations: the tape records the steps of the book
-/

set_option linter.unusedSectionVars false

namespace Fz
open Arith Spec

variable {W R : Type} [Arith R] [Rep W R] [LawfulRep W R]
variable {g g' : Graph R} {val adj val' adj' : Nat → R} {c d : Client W}

theorem solSteps_vals (xs : List (Num R)) : ∀ (l : List (R × List R)) (T : List (Step R)),
    (solSteps xs l T).1.map Num.val = l.map Prod.fst := by
  intro l
  induction l with
  | nil => intro T; rfl
  | cons p l ih =>
    intro T
    have : (solSteps xs (p :: l) T).1 = (step p.1 xs (fun a => p.2.map fun d => a *. d) T).1 ::
      (solSteps xs l (step p.1 xs (fun a => p.2.map fun d => a *. d) T).2).1 := rfl
    rw [this, List.map_cons, ih]
    rfl

/-- the function runs and writes its steps -/
def RecordsP (f : Plan R) (W : Type) [Rep W R] [LawfulRep W R] : Prop :=
  ∀ {Z : Prop} {n0 : Nat} {T : List (Step R)} {c d : Client W} {g : Graph R}
    {val adj : Nat → R} {env : List Var} {xs : List (Num R)},
    Shadowed R c d → Good d g val adj → Booked Z n0 T d.st g val adj → (∀ v ∈ env, v ∈ d.env) → NumsAt n0 xs env g val →
    (Z → f.Apart) → f.Suits d.marks.length d.st.tape.head (xs.map Num.val) →
    ∃ outs s' d' vs g' val' adj', (∀ J, (f.runL J env : M W (List Var)) c.st = .ok (outs, s')) ∧
      d'.env = d.env ++ vs ∧ d'.marks = d.marks ∧ Shadowed R ⟨s', c.env ++ vs, c.marks⟩ d' ∧
      Adds d.st g val d'.st g' val' ∧ Good d' g' val' adj' ∧ Booked Z n0 (f.write xs T).2 d'.st g' val' adj' ∧
      NumsAt n0 (f.write xs T).1 outs g' val' ∧ (∀ v ∈ outs, v ∈ d'.env) ∧
      d'.st.tape.head = d.st.tape.head + f.words (xs.map Num.val)

/-- reading variables of the twin -/
theorem Shadow.readBack (S : Shadow c d g val adj) {vs : List Var} {ys : List R}
    (h : (Fz.vals vs : M W (List R)) d.st = .ok (ys, d.st)) : (Fz.vals vs : M W (List R)) c.st = .ok (ys, c.st) := by
  obtain ⟨s1, e1, -⟩ := blind_vals _ _ _ _ _ S.alike h
  obtain rfl := vals_st e1
  exact e1

/-- all variables of the client have values -/
theorem Shadow.everything (S : Shadow c d g val adj) :
    ∃ ys : List R, ValL ys c.env g val ∧ (Fz.vals c.env : M W (List R)) c.st = .ok (ys, c.st) := by
  have G := S.sound.good
  have h := G.inv.varVals (vs := c.env) (by rw [← S.env]; exact G.has)
  exact ⟨_, ValL.ofRead G.inv (by rw [← S.env]; exact G.has) h, S.readBack h⟩

/-- a region with the steps of the program -/
structure InRegionP (Z : Prop) (c d : Client W) (g : Graph R) (val : Nat → R) (f : Plan R)
    (ys x : List R) (s3 : St W) (d3 : Client W) (xv outs vs : List Var) (g' : Graph R) (val' adj' : Nat → R) : Prop where
  env : d3.env = d.env ++ (xv ++ vs)
  marks : d3.marks = d.env.length :: d.marks
  shadow : Shadowed R ⟨s3, c.env ++ (xv ++ vs), c.env.length :: c.marks⟩ d3
  nodes : g.nodes <+: g'.nodes
  val : ∀ p < d.st.tape.head, val' p = val p
  good : Good d3 g' val' adj'
  book : Booked Z g.nodes.length (stepsOf f.write ys x).2 d3.st g' val' adj'
  nums : NumsAt g.nodes.length (stepsOf f.write ys x).1 outs g' val'
  mem : ∀ v ∈ outs, v ∈ d3.env
  inputs : ∃ xs, NumsAt g.nodes.length xs xv g' val' ∧ xs.map Num.ref = (List.range x.length).map some
  top : TopAt d3.st g.nodes.length
  lvl : d3.st.level = d.st.level + 1
  nt : d3.st.nestTape d3.st.level = d.st.tape.head
  outer : ∀ k ≤ d.st.level, d3.st.nestVari k = d.st.nestVari k ∧ d3.st.nestTape k = d.st.nestTape k
  head : d3.st.tape.head = d.st.tape.head + 6 * x.length + f.words (x ++ ys)
  input : xv.length = x.length
  start : d.st.vhead = g.nodes.length + 1

theorem regionP {Z : Prop} {f : Plan R} (hf : RecordsP f W) (hz : Z → f.Apart)
    (S : Shadowed R c d) (G : Good d g val adj) {ys x : List R} {es : List Var} (he : ∀ v ∈ es, v ∈ d.env)
    (hy : ValL ys es g val) (hl : d.marks.length < 10) (hroom : d.st.tape.head + 6 * x.length ≤ tapeLimit)
    (hs : f.Suits (d.marks.length + 1) (d.st.tape.head + 6 * x.length) (x ++ ys)) :
    ∃ s1 s2 s3 xv outs d3 vs g' val' adj', (beginNested : M W Unit) c.st = .ok ((), s1) ∧
      (newVars x : M W (List Var)) s1 = .ok (xv, s2) ∧
      (∀ J, (f.runL J (xv ++ es) : M W (List Var)) s2 = .ok (outs, s3)) ∧
      InRegionP Z c d g val f ys x s3 d3 xv outs vs g' val' adj' := by
  obtain ⟨gs, vls, ajs, S⟩ := S
  obtain ⟨s1, t1, e1, e1', S1⟩ := S.open hl
  obtain ⟨G1, ht, hta, hlv, hn, ho⟩ := G.opened e1'
  obtain ⟨b1, -⟩ := booked_start (Z := Z) G e1'
  obtain ⟨xv, s2, t2, gs2, vls2, ajs2, e2, e2', hh, S2⟩ := S1.create (env := []) (ys := []) (m := .newVals x) .nil
    (by simp [Make.args]) trivial trivial rfl rfl (by simp only [hta]; exact hroom)
  simp only [Make.words, hta] at hh
  have e2'' : (newVars x : M W (List Var)) t1 = .ok (xv, t2) := e2'
  obtain ⟨g2, val2, adj2, x2, b2, q2⟩ := writes_newVars b1 x xv t2 e2''
  have G2 := G1.ofExt x2 b2.inv b2.cok q2.valL.has
  simp only at G2
  have hxs : ((Log.each input x ([] : List (Step R))).1 ++ ys.map fun y : R => (⟨none, y⟩ : Num R)).map Num.val = x ++ ys := by
    rw [List.map_append, inputs_vals, List.map_map]
    congr 1
    exact List.map_id _
  obtain ⟨outs, s3, d3, vs, g3, val3, adj3, e3, h1, h2, h3, A3, G3, b3, q3, hm3, hh3⟩ := hf (Z := Z)
    (d := ⟨t2, d.env ++ xv, d.env.length :: d.marks⟩) (env := xv ++ es) ⟨_, _, _, S2⟩ G2 b2 (fun v hv => by
    rcases List.mem_append.mp hv with hv | hv
    · exact List.mem_append_right _ hv
    · exact List.mem_append_left _ (he v hv)) (List.rel_append q2 (NumsAt.later (env_nums hy) b1.inv x2)) hz (by
      rw [hxs, hh]
      exact hs)
  simp only at A3 h1 h2 hh3
  have A := x2.adds.trans A3
  refine ⟨s1, s2, s3, xv, outs, d3, vs, g3, val3, adj3, e1, e2, e3, by rw [h1, List.append_assoc], h2, ?_, A.nodes,
    fun p hp => A.val p (by rw [hta]; exact hp), G3, b3, q3, hm3, ⟨_, NumsAt.adds q2 b2.inv A3, ?_⟩,
    ht.steady A.steady, by rw [A.steady.level, hlv], ?_, fun k hk => ?_, ?_, ?_, G.inv.vhead⟩
  · rw [← List.append_assoc]; exact h3
  · rw [input_refs, List.range_eq_range']; rfl
  · rw [A.steady.level, A.steady.nt _ (Nat.le_refl _), hn]
  · rw [A.steady.nv k (by omega), A.steady.nt k (by omega)]
    exact ho k hk
  · rw [hh3, hh, hxs]
  · have := List.Forall₂.length_eq q2
    rw [← this]
    have := congrArg List.length (inputs_vals x ([] : List (Step R)))
    simpa using this

/-- what an inner call leaves behind -/
structure LeftP (c d : Client W) (g : Graph R) (val : Nat → R) (s' : St W)
    (t' : St W) (g' : Graph R) (val' adj' : Nat → R) : Prop where
  shadow : Shadowed R ⟨s', c.env, c.marks⟩ ⟨t', d.env, d.marks⟩
  left : Left d g val t' g' val' adj'
  head : t'.tape.head = d.st.tape.head

/-- the region is closed when reverse passes have changed adjoints -/
theorem InRegionP.close {Z : Prop} {f : Plan R} {ys x : List R} {s3 s5 : St W}
    {d3 : Client W} {xv outs vs : List Var} (B : InRegionP Z c d g val f ys x s3 d3 xv outs vs g' val' adj')
    {m : Nat → W} {adj5 : Nat → R} (hi : Inv (d3.st.withMem m) g' val' adj5)
    (S5 : Shadowed R ⟨s5, c.env ++ (xv ++ vs), c.env.length :: c.marks⟩ ⟨d3.st.withMem m, d3.env, d3.marks⟩)
    (hne : d3.env ≠ [])
    (hn : ∀ j, d.st.tape.head + 6 * x.length + f.words (x ++ ys) ≠ 12288 * 2 ^ j + 1) :
    ∃ s6 t6 g6 val6 adj6, (endNested : M W Unit) s5 = .ok ((), s6) ∧ LeftP c d g val s6 t6 g6 val6 adj6 := by
  obtain ⟨gs, vls, ajs, S5⟩ := S5
  have hfull := B.good.not_full hne (fun j => by rw [B.head]; exact hn j)
  obtain ⟨s6, t, gs', e6, e6', S6⟩ := S5.close (mk := d.env.length) (ms := d.marks) B.marks hfull
  have hce : c.env.length = d.env.length := by
    have := S5.env
    rw [B.env] at this
    have := congrArg List.length this
    simp only [List.length_append] at this
    omega
  have G5 : Good ⟨d3.st.withMem m, d.env ++ (xv ++ vs), d.env.length :: d.marks⟩ g' val' adj5 := by
    have := B.good.upd hi
    rw [B.env, B.marks] at this
    exact this
  have hcm : d.marks = c.marks := by
    have := S5.marks
    rw [B.marks] at this
    exact (List.cons.inj this).2
  simp only [B.env, List.take_left] at S6
  rw [← hce, List.take_left, hcm] at S6
  obtain ⟨g6, L⟩ := left_of (c := d) B.nodes B.val G5 (B.top.mem m) B.lvl B.nt B.outer e6'
  have hhd : t.tape.head = d.st.tape.head := by
    obtain ⟨b, -, -, hd, -⟩ := G5.closed (c := d) (B.top.mem m) B.lvl B.outer B.nt e6'
    exact hd
  refine ⟨s6, Fz.scrub t, g6, val', adj5, e6, ⟨_, _, _, by rw [hcm]; exact S6⟩, L.scrub, hhd⟩

theorem InRegionP.has {Z : Prop} {f : Plan R} {ys x : List R} {s3 : St W}
    {d3 : Client W} {xv outs vs : List Var} (B : InRegionP Z c d g val f ys x s3 d3 xv outs vs g' val' adj') :
    ∀ v ∈ xv, v ∈ d3.env := by
  intro v hv
  rw [B.env]
  simp [hv]

/-- a call of `gradient` -/
theorem plan_gradient {f : Plan R} (hf : RecordsP f W)
    (ha : f.Apart) (S : Shadowed R c d) (G : Good d g val adj) {ys x : List R}
    {es : List Var} (he : ∀ v ∈ es, v ∈ d.env)
    (hy : ValL ys es g val) (hl : d.marks.length < 10) (hroom : d.st.tape.head + 6 * x.length ≤ tapeLimit)
    (hs : f.Suits (d.marks.length + 1) (d.st.tape.head + 6 * x.length) (x ++ ys))
    (hn : ∀ j, d.st.tape.head + 6 * x.length + f.words (x ++ ys) ≠ 12288 * 2 ^ j + 1)
    {r : R × List R} (hr : f.bookGradient ys x = some r) :
    ∃ s' t' g' val' adj',
      (∀ J, gradientL J (fun xv => do let outs ← (f.runL J (xv ++ es) : M W (List Var)); firstOf outs) x c.st = .ok (r, s')) ∧
      LeftP c d g val s' t' g' val' adj' := by
  obtain ⟨s1, s2, s3, xv, outs, d3, vs, g', val', adj', e1, e2, e3, B⟩ :=
    regionP (Z := True) hf (fun _ => ha) S G he hy hl hroom hs
  have ho := B.nums
  have b3 := B.book
  unfold Plan.bookGradient gradientOf at hr
  generalize stepsOf f.write ys x = rr at b3 ho hr
  obtain ⟨os', T⟩ := rr
  cases ho with
  | nil => cases hr
  | @cons o v os'' outs' ho hos =>
    simp only [Option.some.injEq] at hr
    subst hr
    have hv : v ∈ d3.env := B.mem v (by simp)
    obtain ⟨gs, vls, ajs, S3⟩ := B.shadow
    obtain ⟨s4, m, ajs', e4, e4', S4⟩ := S3.sweep hv
    obtain ⟨m', adj2, hm, i2, r2⟩ := b3.row b3.inv (b3.zero trivial) ho e4'
    have hmm : d3.st.withMem m = d3.st.withMem m' := hm
    obtain ⟨xs, hx, hxn⟩ := B.inputs
    have ea : (adjs xv : M W (List R)) (d3.st.withMem m) = .ok (rowOf T x.length o, d3.st.withMem m) := by
      rw [i2.varAdjs hx.valL.has, hx.adjs r2 hxn]
      rfl
    obtain ⟨s5, e5, -⟩ := blind_adjs _ _ _ _ _ S4.alike ea
    have hs5 : s5 = s4 := by
      have := i2
      exact adjs_st e5
    subst hs5
    have ev : (v.val : M W R) s3 = .ok (o.val, s3) := by
      obtain ⟨s6, e6, -⟩ := blind_val _ _ _ _ _ S3.alike (ho.valR.read b3.inv)
      have := Var.val_st e6
      subst this
      exact e6
    obtain ⟨s6, t6, g6, val6, adj6, e6, L⟩ := B.close i2 ⟨_, _, _, S4⟩ (List.ne_nil_of_mem hv) hn
    refine ⟨s6, t6, g6, val6, adj6, fun J => ?_, L⟩
    have es' : (do let outs ← (f.runL J (xv ++ es) : M W (List Var)); firstOf outs : M W Var) s2 = .ok (v, s3) := by
      rw [bind_ok (e3 J)]
      rfl
    unfold gradientL
    rw [bind_ok e1, bind_ok e2, bind_ok es', bind_ok ev, bind_ok (e4 J), bind_ok e5, bind_ok e6]
    rfl

/-- a call of `jacobian` -/
theorem plan_jacobian {f : Plan R} (hf : RecordsP f W)
    (S : Shadowed R c d) (G : Good d g val adj) {ys x : List R}
    {es : List Var} (he : ∀ v ∈ es, v ∈ d.env)
    (hy : ValL ys es g val) (hl : d.marks.length < 10) (hroom : d.st.tape.head + 6 * x.length ≤ tapeLimit)
    (hs : f.Suits (d.marks.length + 1) (d.st.tape.head + 6 * x.length) (x ++ ys))
    (hn : ∀ j, d.st.tape.head + 6 * x.length + f.words (x ++ ys) ≠ 12288 * 2 ^ j + 1) (hx0 : x ++ ys ≠ [])
    :
    ∃ s' t' g' val' adj',
      (∀ J, jacobianL J (fun xv _ => (f.runL J (xv ++ es) : M W (List Var))) (f.bookJacobian ys x).1.length x c.st =
        .ok (f.bookJacobian ys x, s')) ∧
      LeftP c d g val s' t' g' val' adj' := by
  obtain ⟨s1, s2, s3, xv, outs, d3, vs, g', val', adj', e1, e2, e3, B⟩ :=
    regionP (Z := False) hf False.elim S G he hy hl hroom hs
  have ho := B.nums
  have b3 := B.book
  obtain ⟨gs, vls, ajs, S3⟩ := B.shadow
  obtain ⟨xs, hx, hxn⟩ := B.inputs
  obtain ⟨rows, s4, m, ajs', e4, e4', S4⟩ := S3.sweeps B.has B.mem B.top
  have hJ := book_jacLoop b3 hx hxn ho b3.inv B.top e4'
  obtain ⟨m', adj6, hm, i6⟩ := jacLoop_inv b3.cok hx.valL.has B.nodes.length_le outs b3.inv B.top ho.valL.has e4'
  have ev : (vals outs : M W (List R)) s3 = .ok ((stepsOf f.write ys x).1.map Num.val, s3) := by
    obtain ⟨s6, e6, -⟩ := blind_vals _ _ _ _ _ S3.alike (ho.valL.read b3.inv)
    have := vals_st e6
    subst this
    exact e6
  have hne : d3.env ≠ [] := by
    rw [B.env]
    intro h0
    simp only [List.append_eq_nil_iff] at h0
    obtain ⟨h1, h2, -⟩ := h0
    have h3 := B.input
    rw [h2] at h3
    have h4 : x = [] := List.length_eq_zero_iff.mp h3.symm
    have h5 : es = [] := List.eq_nil_iff_forall_not_mem.mpr fun v hv => by
      have := he v hv
      rw [h1] at this
      simp at this
    rw [h5] at hy
    cases hy
    exact hx0 (by rw [h4]; rfl)
  obtain ⟨s6, t6, g6, val6, adj6, e6, L⟩ := B.close i6 ⟨_, _, _, S4⟩ hne hn
  refine ⟨s6, t6, g6, val6, adj6, fun J => ?_, L⟩
  have hb : f.bookJacobian ys x = ((stepsOf f.write ys x).1.map Num.val, rows) := by
    unfold Plan.bookJacobian jacobianOf
    rw [hJ]
  rw [hb]
  have hlen : outs.length = ((stepsOf f.write ys x).1.map Num.val).length := by
    rw [List.length_map]
    exact (List.Forall₂.length_eq ho).symm
  unfold jacobianL
  rw [bind_ok e1, bind_ok e2, bind_ok (e3 J), bind_ok (show (confN _ outs : M W (List Var)) s3 = .ok (outs, s3) by unfold confN; rw [if_pos hlen]; rfl), bind_ok ev, bind_ok (e4 J), bind_ok e6]
  rfl


theorem plan_records (hc : Commutes R) (f : Plan R) : f.Tidy → f.Careful → RecordsP f W := by
  induction f with
  | ret is =>
    intro _ _ Z n0 T c d g val adj env xs S G b he hy _ hs
    have hlen := List.Forall₂.length_eq hy
    simp only [Plan.Suits, List.length_map, hlen] at hs
    have hsub : ∀ v ∈ is.map (nth env), v ∈ env := by
      intro v hv
      obtain ⟨i, h1, rfl⟩ := List.mem_map.mp hv
      exact nth_mem (hs i h1)
    refine ⟨is.map (nth env), c.st, d, [], g, val, adj, fun J => ?_, by simp, rfl, by simpa using S, Adds.refl, G, b,
      hy.nths hs, fun v hv => he v (hsub v hv), rfl⟩
    unfold Plan.runL
    rw [if_pos hs]
    rfl
  | make m k ih =>
    intro ht hq Z n0 T c d g val adj env xs S G b he hy hz hs
    have hlen := List.Forall₂.length_eq hy
    obtain ⟨hi, hm, hp, hroom, hs⟩ := hs
    rw [List.length_map, hlen] at hi
    obtain ⟨gs, vls, ajs, S⟩ := S
    have hyS : ValL (xs.map Num.val) env gs vls :=
      ValL.ofRead S.sound.good.inv (fun v hv => S.sound.good.has v (he v hv)) (hy.valL.read G.inv)
    obtain ⟨r, s1, t1, gs1, vls1, ajs1, e1, e1', hh, S1⟩ := S.create hyS hi ht.1.1 ht.1.2.2 hm hp hroom
    obtain ⟨g1, val1, adj1, x1, b1, q1⟩ := make_writes hc b hy m hi ht.1.1 ht.1.2.1 ht.1.2.2 r t1 e1'
    have G1 := G.ofExt x1 b1.inv b1.cok q1.valL.has
    have hpl : (m.write xs T).1.map Num.val = m.plain (xs.map Num.val) := by
      obtain ⟨g2, val2, adj2, ev2, hv2⟩ := make_gives hc G.inv hy.valL m hi ht.1.1 ht.1.2.1 r t1 e1'
      have h1 := hv2.read ev2.inv
      rw [q1.valL.read b1.inv] at h1
      exact (Prod.mk.inj (Except.ok.inj h1)).1
    obtain ⟨outs, s2, d2, ws, g2, val2, adj2, e2, h1, h2, S2, A2, G2, b2, q2, hm2, hh2⟩ :=
      ih ht.2 hq (c := ⟨s1, c.env ++ r, c.marks⟩) (d := ⟨t1, d.env ++ r, d.marks⟩) (env := env ++ r)
        ⟨_, _, _, S1⟩ G1 b1 (fun v hv => by
          rcases List.mem_append.mp hv with hv | hv
          · exact List.mem_append_left _ (he v hv)
          · exact List.mem_append_right _ hv) (List.rel_append (NumsAt.later hy b.inv x1) q1) hz (by
          rw [List.map_append, hpl]
          simp only [hh]
          exact hs)
    refine ⟨outs, s2, d2, r ++ ws, g2, val2, adj2, fun J => ?_, by rw [h1, List.append_assoc], h2, by
      rw [← List.append_assoc]; exact S2, x1.adds.trans A2, G2, b2, q2, hm2, ?_⟩
    · unfold Plan.runL
      rw [if_pos hi, bind_ok e1]
      exact e2 J
    · rw [hh2, List.map_append, hpl]
      simp only [Plan.words, hh]
      omega
  | look i k ih =>
    intro ht hq Z n0 T c d g val adj env xs S G b he hy hz hs
    have hlen := List.Forall₂.length_eq hy
    obtain ⟨hi, hs⟩ := hs
    rw [List.length_map, hlen] at hi
    rw [num_vals] at hs
    have hrd := (hy.entry hi).valR.read b.inv
    obtain ⟨gs, vls, ajs, S⟩ := S
    obtain ⟨s1, e1, -⟩ := blind_val _ _ _ _ _ S.alike hrd
    obtain rfl := Var.val_st e1
    obtain ⟨outs, s2, d2, ws, g2, val2, adj2, e2, h1, h2, S2, A2, G2, b2, q2, hm2, hh2⟩ :=
      ih _ (ht _) (hq _) ⟨_, _, _, S⟩ G b he hy (fun z => hz z _) hs
    refine ⟨outs, s2, d2, ws, g2, val2, adj2, fun J => ?_, h1, h2, S2, A2, G2, b2, q2, hm2, ?_⟩
    · unfold Plan.runL
      rw [if_pos hi, bind_ok e1]
      exact e2 J
    · rw [hh2]
      simp only [Plan.words, num_vals]
  | init p is es k ih =>
    intro ht hq Z n0 T c d g val adj env xs S G b he hy hz hs
    have hlen := List.Forall₂.length_eq hy
    obtain ⟨hi, hj, hl, hs, hk⟩ := hs
    rw [List.length_map, hlen] at hi hj
    rw [nums_vals, nums_vals] at hk
    rw [nums_vals] at hs
    obtain ⟨gs, vls, ajs, S⟩ := S
    have hsub : ∀ {l : List Nat}, (∀ i ∈ l, i < env.length) → ∀ v ∈ l.map (nth env), v ∈ c.env := by
      intro l hl v hv
      rw [← S.env]
      exact he v (mem_named hl v hv)
    obtain ⟨is', hi', hn⟩ := Props.names_of (hsub hi)
    obtain ⟨es', hj', hm⟩ := Props.names_of (hsub hj)
    have hp : p.ProperY c is' es' (is.map fun i => (opd xs i).val) (es.map fun i => (opd xs i).val) := by
      refine ⟨by rw [← S.marks]; exact hl, hi', hj', ?_, ?_, ?_⟩
      · rw [← hn]
        exact S.readBack ((hy.vals_of hi).read G.inv)
      · rw [← hm]
        exact S.readBack ((hy.vals_of hj).read G.inv)
      · rw [S.alike.tape, List.length_map]
        rw [nums_vals] at hs
        exact hs
    obtain ⟨yt, s1, e1, -, -, -, d1, gs1, vls1, ajs1, S1, W1, hh1⟩ := S.taskY hc hp
    rw [← hn, ← hm] at e1 W1
    obtain ⟨g1, val1, adj1, A1, G1, b1, q1⟩ := W1.2.2 (fun z => by rw [(hz z).1]; rfl) G b (hy.nths hi)
    have hv := solSteps_vals (is.map (opd xs)) (p.compsY (es.map fun i => (opd xs i).val) (is.map fun i => (opd xs i).val)) T
    have hd1 : d1.st.tape.head = d.st.tape.head + p.ts.length * (is.length * (6 + 3 * is.length)) := by
      have h1 := S1.alike.tape
      simp only at h1
      rw [← h1, hh1, S.alike.tape, List.length_map]
    obtain ⟨outs, s2, d2, ws, g2, val2, adj2, e2, h1, h2, S2, A2, G2, b2, q2, hm2, hh2⟩ :=
      ih ht hq (c := ⟨s1, c.env ++ yt.flatten, c.marks⟩) (d := d1) (env := env ++ yt.flatten)
        ⟨_, _, _, S1⟩ G1 b1 (fun v hv => by
          rw [W1.1]
          rcases List.mem_append.mp hv with hv | hv
          · exact List.mem_append_left _ (he v hv)
          · exact List.mem_append_right _ hv) (List.rel_append (NumsAt.adds hy b.inv A1) q1) (fun z => (hz z).2) (by
          rw [List.map_append, hv, W1.2.1, hd1]
          exact hk)
    refine ⟨outs, s2, d2, yt.flatten ++ ws, g2, val2, adj2, fun J => ?_, by rw [h1, W1.1, List.append_assoc],
      h2.trans W1.2.1, by rw [← List.append_assoc]; exact S2, A1.trans A2, G2, b2, q2, hm2, ?_⟩
    · unfold Plan.runL
      rw [if_pos ⟨hi, hj⟩, bind_ok (e1 J)]
      exact e2 J
    · rw [hh2, List.map_append, hv, hd1]
      simp only [Plan.words, nums_vals]
      omega
  | par p y is es k ih =>
    intro ht hq Z n0 T c d g val adj env xs S G b he hy hz hs
    have hlen := List.Forall₂.length_eq hy
    obtain ⟨hi, hj, hl, h3, hs, hk⟩ := hs
    rw [List.length_map, hlen] at hi hj
    rw [nums_vals, nums_vals] at hk hs
    obtain ⟨gs, vls, ajs, S⟩ := S
    have hsub : ∀ {l : List Nat}, (∀ i ∈ l, i < env.length) → ∀ v ∈ l.map (nth env), v ∈ c.env := by
      intro l hl v hv
      rw [← S.env]
      exact he v (mem_named hl v hv)
    obtain ⟨is', hi', hn⟩ := Props.names_of (hsub hi)
    obtain ⟨es', hj', hm⟩ := Props.names_of (hsub hj)
    have hp : p.ProperP c y is' es' (is.map fun i => (opd xs i).val) (es.map fun i => (opd xs i).val) := by
      refine ⟨by rw [← S.marks]; exact hl, hi', hj', ?_, ?_, ?_, ?_⟩
      · have := congrArg List.length hn
        simp only [List.length_map] at this
        omega
      · rw [← hn]
        exact S.readBack ((hy.vals_of hi).read G.inv)
      · rw [← hm]
        exact S.readBack ((hy.vals_of hj).read G.inv)
      · rw [S.alike.tape]
        exact hs
    obtain ⟨yt, s1, e1, -, -, -, d1, gs1, vls1, ajs1, S1, W1, hh1⟩ := S.taskP hc hp
    rw [← hn, ← hm] at e1 W1
    obtain ⟨g1, val1, adj1, A1, G1, b1, q1⟩ := W1.2.2 (fun z => by rw [(hz z).1]; rfl) G b (hy.nths hi)
    have hv := solSteps_vals (is.map (opd xs)) (p.compsP (es.map fun i => (opd xs i).val) (is.map fun i => (opd xs i).val) y) T
    have hd1 : d1.st.tape.head = d.st.tape.head + p.ts.length * (y.length * (6 + 3 * 3)) := by
      have h1 := S1.alike.tape
      simp only at h1
      rw [← h1, hh1, S.alike.tape]
    obtain ⟨outs, s2, d2, ws, g2, val2, adj2, e2, h1, h2, S2, A2, G2, b2, q2, hm2, hh2⟩ :=
      ih ht hq (c := ⟨s1, c.env ++ yt.flatten, c.marks⟩) (d := d1) (env := env ++ yt.flatten)
        ⟨_, _, _, S1⟩ G1 b1 (fun v hv => by
          rw [W1.1]
          rcases List.mem_append.mp hv with hv | hv
          · exact List.mem_append_left _ (he v hv)
          · exact List.mem_append_right _ hv) (List.rel_append (NumsAt.adds hy b.inv A1) q1) (fun z => (hz z).2) (by
          rw [List.map_append, hv, W1.2.1, hd1]
          exact hk)
    refine ⟨outs, s2, d2, yt.flatten ++ ws, g2, val2, adj2, fun J => ?_, by rw [h1, W1.1, List.append_assoc],
      h2.trans W1.2.1, by rw [← List.append_assoc]; exact S2, A1.trans A2, G2, b2, q2, hm2, ?_⟩
    · unfold Plan.runL
      rw [if_pos ⟨hi, hj⟩, bind_ok (e1 J)]
      exact e2 J
    · rw [hh2, List.map_append, hv, hd1]
      simp only [Plan.words, nums_vals]
      omega
  | gradient f x is k ihf ihk =>
    intro ht hq Z n0 T c d g val adj env xs S G b he hy hz hs
    have hlen := List.Forall₂.length_eq hy
    obtain ⟨hi, ⟨hl, hroom, hsf, hfull⟩, y, df, hb, hs⟩ := hs
    rw [List.length_map, hlen] at hi
    rw [nums_vals] at hsf hfull hb
    have hes : ∀ v ∈ is.map (nth env), v ∈ d.env := fun v hv => he v (mem_named hi v hv)
    obtain ⟨s1, t1, g1, val1, adj1, e1, L⟩ := plan_gradient (ihf ht.1 hq.2.1) hq.1 S G hes (hy.vals_of hi) hl hroom hsf
      hfull hb
    have b1 := b.after L.left fun z => (hz z).elim
    obtain ⟨outs, s2, d2, ws, g2, val2, adj2, e2, h1, h2, S2, A2, G2, b2, q2, hm2, hh2⟩ :=
      ihk y df (ht.2 _ _) (hq.2.2 _ _) (c := ⟨s1, c.env, c.marks⟩) (d := ⟨t1, d.env, d.marks⟩) (xs := xs) L.shadow
        L.left.good b1 he (NumsAt.adds hy b.inv L.left.adds) (fun z => (hz z).elim) (by
          simp only [L.head]
          exact hs)
    have hw : gradientOf f.write (is.map fun i => (opd xs i).val) x = some (y, df) := hb
    refine ⟨outs, s2, d2, ws, g2, val2, adj2, fun J => ?_, h1, h2, S2, L.left.adds.trans A2, G2, ?_, ?_, hm2, ?_⟩
    · unfold Plan.runL
      rw [if_pos hi, bind_ok (e1 J)]
      exact e2 J
    · simp only [Plan.write]
      rw [hw]
      exact b2
    · simp only [Plan.write]
      rw [hw]
      exact q2
    · rw [hh2]
      simp only [Plan.words, L.head, nums_vals, hb]
  | jacobian f n x is k ihf ihk =>
    intro ht hq Z n0 T c d g val adj env xs S G b he hy hz hs
    have hlen := List.Forall₂.length_eq hy
    obtain ⟨hi, ⟨hl, hroom, hsf, hfull⟩, hx0, hnn, hs⟩ := hs
    rw [List.length_map, hlen] at hi
    rw [nums_vals] at hsf hfull hx0 hnn hs
    have hes : ∀ v ∈ is.map (nth env), v ∈ d.env := fun v hv => he v (mem_named hi v hv)
    obtain ⟨s1, t1, g1, val1, adj1, e1, L⟩ := plan_jacobian (ihf ht.1 hq.1) S G hes (hy.vals_of hi) hl hroom hsf hfull hx0
    have b1 := b.after L.left fun z => (hz z).elim
    obtain ⟨outs, s2, d2, ws, g2, val2, adj2, e2, h1, h2, S2, A2, G2, b2, q2, hm2, hh2⟩ :=
      ihk _ _ (ht.2 _ _) (hq.2 _ _) (c := ⟨s1, c.env, c.marks⟩) (d := ⟨t1, d.env, d.marks⟩) (xs := xs) L.shadow
        L.left.good b1 he (NumsAt.adds hy b.inv L.left.adds) (fun z => (hz z).elim) (by
          simp only [L.head]
          exact hs)
    refine ⟨outs, s2, d2, ws, g2, val2, adj2, fun J => ?_, h1, h2, S2, L.left.adds.trans A2, G2, b2, q2, hm2, ?_⟩
    · unfold Plan.runL
      rw [if_pos hi, hnn, bind_ok (e1 J)]
      exact e2 J
    · rw [hh2]
      simp only [Plan.words, L.head, nums_vals]

/-- a state after a call of `gradient` or `jacobian` -/
theorem LeftP.after {s' t' : St W} (S : Shadow c d g val adj) (L : LeftP c d g val s' t' g' val' adj') {ys : List R}
    {es : List Var} (hy : ValL ys es g val) :
    s'.tape.head = c.st.tape.head ∧ (Fz.vals es : M W (List R)) s' = .ok (ys, s') := by
  obtain ⟨gs, vls, ajs, S'⟩ := L.shadow
  refine ⟨?_, ?_⟩
  · have h1 : s'.tape = t'.tape := S'.alike.tape
    rw [h1, L.head, S.alike.tape]
  · exact S'.readBack ((ValL.adds hy S.sound.good.inv L.left.adds).read L.left.good.inv)

theorem Shadow.planGradient (hc : Commutes R) (S : Shadow c d g val adj) {f : Plan R}
    {is : List Nat} {ys x : List R} (hf : f.ProperL c is ys x) (ha : f.Apart) (hk : f.Careful)
    (hr : f.bookGradient ys x ≠ none) :
    ∃ r s', (∀ J : Junk W R, gradientL J (f.scalarL J (is.map (nth c.env))) x c.st = .ok (r, s')) ∧
      f.bookGradient ys x = some r ∧ s'.tape.head = c.st.tape.head ∧
      (Fz.vals c.env : M W (List R)) s' = (Fz.vals c.env c.st).map (fun r => (r.1, s')) ∧
      ∃ d', Shadowed R ⟨s', c.env, c.marks⟩ d' := by
  obtain ⟨hi, hv, ht, hl, hroom, hs, hfull⟩ := hf
  obtain ⟨hes, hy⟩ := S.deepRead hi hv
  obtain ⟨r, hr⟩ := Option.ne_none_iff_exists'.mp hr
  rw [← S.marks] at hl hs
  rw [S.alike.tape] at hroom hs hfull
  obtain ⟨s', t', g', val', adj', e, L⟩ := plan_gradient (plan_records hc f ht hk) ha
    ⟨_, _, _, S⟩ S.sound.good hes hy hl hroom hs hfull hr
  obtain ⟨ys0, hy0, e0⟩ := S.everything
  obtain ⟨h1, h2⟩ := L.after S hy0
  exact ⟨r, s', e, hr, h1, by rw [h2, e0]; rfl, _, L.shadow⟩

theorem Shadow.planJacobian (hc : Commutes R) (S : Shadow c d g val adj) {f : Plan R}
    {is : List Nat} {ys x : List R} (hf : f.ProperL c is ys x) (hk : f.Careful) (hx : x ++ ys ≠ []) :
    ∃ s', (∀ J : Junk W R, jacobianL J (f.vectorL J (is.map (nth c.env))) (f.bookJacobian ys x).1.length x c.st =
        .ok (f.bookJacobian ys x, s')) ∧ s'.tape.head = c.st.tape.head ∧
      (Fz.vals c.env : M W (List R)) s' = (Fz.vals c.env c.st).map (fun r => (r.1, s')) ∧
      ∃ d', Shadowed R ⟨s', c.env, c.marks⟩ d' := by
  obtain ⟨hi, hv, ht, hl, hroom, hs, hfull⟩ := hf
  obtain ⟨hes, hy⟩ := S.deepRead hi hv
  rw [← S.marks] at hl hs
  rw [S.alike.tape] at hroom hs hfull
  obtain ⟨s', t', g', val', adj', e, L⟩ := plan_jacobian (plan_records hc f ht hk)
    ⟨_, _, _, S⟩ S.sound.good hes hy hl hroom hs hfull hx
  obtain ⟨ys0, hy0, e0⟩ := S.everything
  obtain ⟨h1, h2⟩ := L.after S hy0
  exact ⟨s', e, h1, by rw [h2, e0]; rfl, _, L.shadow⟩

theorem orderlyL_shadow (hc : Commutes R) (h : OrderlyL R c) : ∃ d : Client W, Shadowed R c d := by
  induction h with
  | start => exact ⟨_, _, _, _, shadow_init (fun _ => zero) fun _ => zero⟩
  | call J k _ hk e ih =>
    obtain ⟨d, g, val, adj, S⟩ := ih
    obtain ⟨c1, e1, d', g', val', adj', S1⟩ := S.exec hk
    rw [e1 J] at e
    cases e
    exact ⟨d', g', val', adj', S1⟩
  | ask J q is ys r _ hq e ih =>
    obtain ⟨d, g, val, adj, S⟩ := ih
    obtain ⟨r1, s1, e1, -, -, -, d', g', val', adj', S1⟩ := S.ask hc hq
    rw [e1 J] at e
    cases e
    exact ⟨d', g', val', adj', S1⟩
  | init J p is es z ys yt _ hp e ih =>
    obtain ⟨d, g, val, adj, S⟩ := ih
    obtain ⟨yt1, s1, e1, -, -, -, d1, g1, val1, adj1, S1, -⟩ := S.taskY hc hp
    rw [e1 J] at e
    cases e
    exact ⟨_, _, _, _, S1⟩
  | par J p y is es q ys r _ hp e ih =>
    obtain ⟨d, g, val, adj, S⟩ := ih
    obtain ⟨yt1, s1, e1, -, -, -, d1, g1, val1, adj1, S1, -⟩ := S.taskP hc hp
    rw [e1 J] at e
    cases e
    exact ⟨_, _, _, _, S1⟩
  | gradient J f is ys x r _ hf ha hk hr e ih =>
    obtain ⟨d, g, val, adj, S⟩ := ih
    obtain ⟨r1, s1, e1, -, -, -, S1⟩ := S.planGradient hc hf ha hk hr
    rw [e1 J] at e
    cases e
    exact S1
  | jacobian J f is ys x r _ hf hk hx e ih =>
    obtain ⟨d, g, val, adj, S⟩ := ih
    obtain ⟨s1, e1, -, -, S1⟩ := S.planJacobian hc hf hk hx
    rw [e1 J] at e
    cases e
    exact S1
  | deepGradient J f is ys x r _ hf ha hk hr e ih =>
    obtain ⟨d, g, val, adj, S⟩ := ih
    obtain ⟨r1, s1, e1, -, -, -, S1⟩ := S.deepGradient hc False.elim hf ha hk hr
    rw [e1 J] at e
    cases e
    exact S1
  | deepJacobian J f is ys x r _ hf hk hx e ih =>
    obtain ⟨d, g, val, adj, S⟩ := ih
    obtain ⟨s1, e1, -, -, S1⟩ := S.deepJacobian hc False.elim hf hk hx
    rw [e1 J] at e
    cases e
    exact S1

end Fz
