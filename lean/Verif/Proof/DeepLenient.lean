import Verif.Proof.Deep
import Verif.Proof.MirrorRun
import Verif.Spec.DeepLenient

/-!
# Functions that call `gradient` and `jacobian` themselves, without checks of array shapes
-/

set_option linter.unusedSectionVars false

namespace Fz
variable {W R : Type} [Arith R] [Rep W R] [LawfulRep W R]
open Arith Spec
variable {g g' : Graph R} {val adj val' adj' : Nat → R} {c d : Client W}

/-- `d` is a twin of `c` in which no chain procedure is left behind -/
def Shadowed (R : Type) [Arith R] [Rep W R] (c d : Client W) : Prop :=
  ∃ (g : Graph R) (val adj : Nat → R), Shadow c d g val adj

theorem Shadow.open (h : Shadow c d g val adj) (hl : d.marks.length < 10) :
    ∃ s0 t0, (beginNested : M W Unit) c.st = .ok ((), s0) ∧ (beginNested : M W Unit) d.st = .ok ((), t0) ∧
      Shadow ⟨s0, c.env, c.env.length :: c.marks⟩ ⟨t0, d.env, d.env.length :: d.marks⟩ g val adj := by
  have G := h.sound.good
  have hl : d.st.level < maxNestedStack := by rw [G.lvl]; exact hl
  obtain ⟨t0, e0⟩ : ∃ t0, (beginNested : M W Unit) d.st = .ok ((), t0) := ⟨_, beginNested_ok d.st hl⟩
  obtain ⟨G0, -, -, -, hst⟩ := G.begin (c' := ⟨t0, d.env, d.env.length :: d.marks⟩) (by unfold Call.step; simp only [e0])
  simp only at hst
  obtain ⟨s0, e1, h1⟩ := blind_begin _ _ _ _ h.alike e0
  refine ⟨s0, t0, e1, e0, h.env, by rw [h.env, h.marks], ⟨G0, h.sound.fits, fun _ => ?_⟩, ?_⟩
  · have := h.sound.clean rfl
    unfold Clean at this ⊢
    rw [hst]
    exact this
  · have : base ⟨t0, d.env, d.env.length :: d.marks⟩ = base d := by
      have hlv := G.lvl
      unfold base
      rw [hst]
      cases hm : d.marks with
      | nil =>
        rw [hm] at hlv
        simp only [List.length_nil] at hlv
        simp [hlv]
      | cons m ms =>
        rw [hm] at hlv
        simp [hlv]
    rw [this]
    exact h1

theorem Shadow.create (h : Shadow c d g val adj) {env : List Var} {ys : List R} (hy : ValL ys env g val) {m : Make R}
    (ha : ∀ i ∈ m.args, i < env.length) (hs : m.Sane) (hr : m.Regular) (hm : m.Meets false ys) (hp : m.product = false)
    (hroom : d.st.tape.head + m.words ys ≤ cap) :
    ∃ r s' t' g' val' adj', m.call env c.st = .ok (r, s') ∧ m.call env d.st = .ok (r, t') ∧
      t'.tape.head = d.st.tape.head + m.words ys ∧
      Shadow ⟨s', c.env ++ r, c.marks⟩ ⟨t', d.env ++ r, d.marks⟩ g' val' adj' := by
  have G := h.sound.good
  have hA := h.alike
  obtain ⟨r, t', g', val', adj', e, ev, ⟨l, hl, hf⟩, hh, hq⟩ :=
    make_live G.inv h.sound.clean hy m ha hs hr hm hroom
  have hu : ∀ x r is ds, m = .user x r is ds → r.fits = true := by
    rintro x r is ds rfl
    exact ruleSuits_fits hm
  have hS : Sound false ⟨t', d.env ++ r, d.marks⟩ g' val' adj' := by
    refine ⟨G.ofEvo ev hq, ?_, fun _ => ev.keep.clean (h.sound.clean rfl)⟩
    intro nd hn
    rw [hl] at hn
    rcases List.mem_append.mp hn with hn | hn
    · exact h.sound.fits nd hn
    · exact hf nd hn
  obtain ⟨s', e', ha'⟩ := blind_make (T := fun k => base d ≤ k) m env (fun h => by rw [hp] at h; cases h) hu _ _ _ _ hA e
  refine ⟨r, s', t', g', val', adj', e', e, hh, by rw [h.env], h.marks, hS, ha'.weaken fun k hk => ?_⟩
  refine Nat.le_trans ?_ hk
  unfold base
  dsimp only
  split
  · exact ev.keep.vhead
  · rw [ev.keep.nestVari]

theorem Shadow.sweep (h : Shadow c d g val adj) {v : Var} (hv : v ∈ d.env) :
    ∃ s' m adj', (∀ J : Junk W R, (v.gradL J : M W Unit) c.st = .ok ((), s')) ∧
      (v.grad : M W Unit) d.st = .ok ((), d.st.withMem m) ∧
      Shadow ⟨s', c.env, c.marks⟩ ⟨d.st.withMem m, d.env, d.marks⟩ g val adj' := by
  have G := h.sound.good
  obtain ⟨m, e, i'⟩ := G.inv.grad_ok (G.has _ hv) fun nd hn => h.sound.fits nd hn _
  obtain ⟨s', e', ha⟩ := gradL_mirror h.alike G.inv (fun nd hn => h.sound.fits nd hn _) (G.has _ hv) e
  exact ⟨s', m, _, e', e, h.env, h.marks, h.sound.upd i', ha⟩

theorem Shadow.sweeps (h : Shadow c d g val adj) {k : Nat} {xv outs : List Var} (hx : ∀ v ∈ xv, v ∈ d.env)
    (ho : ∀ v ∈ outs, v ∈ d.env) (ht : TopAt d.st k) :
    ∃ rows s' m adj', (∀ J : Junk W R, (jacLoopL J xv outs : M W (List (List R))) c.st = .ok (rows, s')) ∧
      (jacLoop xv outs : M W (List (List R))) d.st = .ok (rows, d.st.withMem m) ∧
      Shadow ⟨s', c.env, c.marks⟩ ⟨d.st.withMem m, d.env, d.marks⟩ g val adj' := by
  have G := h.sound.good
  obtain ⟨mk, ms, n, b, -, -, r1, r2, -⟩ := G.region ht.1
  obtain ⟨rows, m, a', s', e1, e2, hA, i'⟩ := jacLoopL_mirror (T := fun k => base d ≤ k) (k := n) h.sound.fits (xv := xv)
    (fun v hv => G.has v (hx v hv)) r2 outs h.alike G.inv ht.1 ht.2.1 r1 (fun v hv => G.has v (ho v hv))
  exact ⟨rows, s', m, a', e1, e2, h.env, h.marks, h.sound.upd i', hA⟩

theorem Shadow.close (h : Shadow c d g val adj) {mk : Nat} {ms : List Nat} (hm : d.marks = mk :: ms)
    (hfull : d.st.tape.head ≤ d.st.tape.size) :
    ∃ s' t g', (endNested : M W Unit) c.st = .ok ((), s') ∧ (endNested : M W Unit) d.st = .ok ((), t) ∧
      Shadow ⟨s', c.env.take mk, ms⟩ ⟨Fz.scrub t, d.env.take mk, ms⟩ g' val adj := by
  have G := h.sound.good
  have hb := G.base_le
  obtain ⟨d', e⟩ := G.done_ok (Or.inr hfull)
  have e' : ∃ t, (endNested : M W Unit) d.st = .ok ((), t) ∧ d'.st = t := by
    unfold Call.step at e
    simp only at e
    split at e
    · rename_i u t ht
      cases e
      exact ⟨t, ht, rfl⟩
    · cases e
  obtain ⟨t, e1, rfl⟩ := e'
  obtain ⟨s', e2, h2⟩ := blind_end _ _ _ _ h.alike e1
  rcases G.done e with ⟨hl0, -⟩ | ⟨m, ms', n, b, hm', hlv, hv, hle, -, -, G', h3, h4, -, h5, h6, h7, -, -, h8⟩
  · have := G.lvl
    rw [hm] at this
    simp only [List.length_cons] at this
    omega
  · rw [hm] at hm'
    obtain ⟨rfl, rfl⟩ := List.cons.inj hm'
    have hbe : base d' = base d := by
      unfold base
      rw [h4, hm]
      cases ms with
      | nil =>
        simp only [List.length_nil, Nat.zero_add] at hlv
        simp only [if_true, reduceCtorEq, if_false]
        rw [h5, ← hv, hlv]
      | cons m' ms =>
        simp only [reduceCtorEq, if_false]
        simp only [List.length_cons] at hlv
        exact (h8 1 (by omega)).2
    have hd : d' = ⟨d'.st, d.env.take mk, ms⟩ := by
      obtain ⟨a1, a2, a3⟩ := d'
      simp only at h3 h4 ⊢
      rw [h3, h4]
    rw [hd] at G' hbe
    have hb' := G'.base_le
    simp only at hb'
    refine ⟨s', d'.st, g.cut n b, e2, e1, by rw [h.env], rfl, ⟨G'.scrub,
      fun nd hn => h.sound.fits nd (List.mem_of_mem_take hn), fun _ => G'.inv.scrub_clean⟩, ?_⟩
    have : base ⟨Fz.scrub d'.st, d.env.take mk, ms⟩ = base ⟨d'.st, d.env.take mk, ms⟩ := rfl
    rw [this, hbe]
    exact h2.scrub fun k hk => by omega

theorem Sealed.scrub {a n h : Nat} {env : List Var} {s : St W} (S : Sealed a n h ⟨s, c.env, c.marks⟩ env g val adj) :
    Sealed a n h ⟨Fz.scrub s, c.env, c.marks⟩ env g val adj :=
  ⟨S.good.scrub, S.len, S.head, S.low, S.own, S.zero, S.env⟩

theorem Left.scrub {s' : St W} (L : Left c g val s' g' val' adj') : Left c g val (Fz.scrub s') g' val' adj' :=
  ⟨L.good.scrub, L.nodes, L.adds.nodes, L.adds.val, L.adds.head, L.adds.steady.level, L.adds.steady.nv,
    L.adds.steady.nt⟩

theorem Good.not_full (G : Good d g val adj) (hne : d.env ≠ []) (hn : ∀ j, d.st.tape.head ≠ 12288 * 2 ^ j + 1) :
    d.st.tape.head ≤ d.st.tape.size := by
  refine G.inv.ok.not_full (G.inv.head_gt ?_) hn
  obtain ⟨v, hv⟩ := List.exists_mem_of_ne_nil _ hne
  have := G.has v hv
  intro h0
  have h1 := this.1
  have h2 := this.2
  rw [h0] at h2
  simp at h2
  omega

theorem num_vals (xs : List (Num R)) (i : Nat) : num (xs.map Num.val) i = (opd xs i).val := by
  unfold num opd
  rw [List.getD_eq_getElem?_getD, List.getD_eq_getElem?_getD, List.getElem?_map]
  cases xs[i]? <;> rfl

theorem nums_vals (xs : List (Num R)) (is : List Nat) :
    is.map (num (xs.map Num.val)) = is.map fun i => (opd xs i).val :=
  List.map_congr_left fun i _ => num_vals xs i

theorem stepsOf_eq (w : List (Num R) → Log R (List (Num R))) (ys x : List R) :
    stepsOf w ys x = w ((Log.each input x []).1 ++ ys.map fun y => ⟨none, y⟩) (Log.each input x []).2 := rfl

theorem inputs_vals (x : List R) : ∀ T : List (Step R), (Log.each input x T).1.map Num.val = x := by
  induction x with
  | nil => intro T; rfl
  | cons d x ih =>
    intro T
    simp only [Log.each, Log.next, input, step, Log.ret, List.map_cons]
    rw [ih]

theorem NumsAt.vals {n0 : Nat} {xs : List (Num R)} {env : List Var} (h : NumsAt n0 xs env g val) :
    ValL (xs.map Num.val) env g val := h.valL

/-- the seals of `Q` hold for the variables `env` -/
def Sealing (R : Type) [Arith R] [Rep W R] [LawfulRep W R] (Q : Nat → Nat → Nat → Prop) (d : Client W) (env : List Var) :
    Prop :=
  ∀ a n h, Q a n h → ∃ (g : Graph R) (val adj : Nat → R), Sealed a n h d env g val adj

/-- the program runs and writes its steps -/
def RecordsL (f : Deep R) (W : Type) [Rep W R] [LawfulRep W R] (inner : Prop) : Prop :=
  ∀ {Q : Nat → Nat → Nat → Prop} {Z : Prop} {n0 : Nat} {T : List (Step R)} {c d : Client W} {g : Graph R}
    {val adj : Nat → R} {env : List Var} {xs : List (Num R)}, (∀ a n h, Q a n h → Quiet R) →
    Shadowed R c d → Good d g val adj → Booked Z n0 T d.st g val adj → (∀ v ∈ env, v ∈ d.env) → NumsAt n0 xs env g val →
    Sealing R Q d env → (Z → f.Apart inner) → f.Suits d.marks.length d.st.tape.head (xs.map Num.val) →
    ∃ outs s' d' vs g' val' adj', (∀ J, (f.runL J env : M W (List Var)) c.st = .ok (outs, s')) ∧
      d'.env = d.env ++ vs ∧ d'.marks = d.marks ∧ Shadowed R ⟨s', c.env ++ vs, c.marks⟩ d' ∧
      Adds d.st g val d'.st g' val' ∧ Good d' g' val' adj' ∧ Booked Z n0 (f.write xs T).2 d'.st g' val' adj' ∧
      NumsAt n0 (f.write xs T).1 outs g' val' ∧ (∀ v ∈ outs, v ∈ d'.env) ∧ Sealing R Q d' outs ∧
      d'.st.tape.head = d.st.tape.head + f.words (xs.map Num.val)

/-- a region with the steps of the program -/
structure InRegionL (Q : Nat → Nat → Nat → Prop) (Z : Prop) (c d : Client W) (g : Graph R) (val : Nat → R) (f : Deep R)
    (ys x : List R) (s3 : St W) (d3 : Client W) (xv outs vs : List Var) (g' : Graph R) (val' adj' : Nat → R) : Prop where
  env : d3.env = d.env ++ (xv ++ vs)
  marks : d3.marks = d.env.length :: d.marks
  shadow : Shadowed R ⟨s3, c.env ++ (xv ++ vs), c.env.length :: c.marks⟩ d3
  nodes : g.nodes <+: g'.nodes
  val : ∀ p < d.st.tape.head, val' p = val p
  good : Good d3 g' val' adj'
  book : Booked Z g.nodes.length (stepsOf f.write ys x).2 d3.st g' val' adj'
  nums : NumsAt g.nodes.length (stepsOf f.write ys x).1 outs g' val'
  mem : ∀ v ∈ outs, v ∈ d3.env
  inputs : ∃ xs, NumsAt g.nodes.length xs xv g' val' ∧ xs.map Num.ref = (List.range x.length).map some
  top : TopAt d3.st g.nodes.length
  lvl : d3.st.level = d.st.level + 1
  nt : d3.st.nestTape d3.st.level = d.st.tape.head
  outer : ∀ k ≤ d.st.level, d3.st.nestVari k = d.st.nestVari k ∧ d3.st.nestTape k = d.st.nestTape k
  seals : Sealing R Q d3 outs
  head : d3.st.tape.head = d.st.tape.head + 6 * x.length + f.words (x ++ ys)
  input : xv.length = x.length
  start : d.st.vhead = g.nodes.length + 1

theorem regionL {Q : Nat → Nat → Nat → Prop} {Z inner : Prop} {f : Deep R} (hf : RecordsL f W inner) (hz : Z → f.Apart inner)
    (hq : ∀ a n h, Q a n h → Quiet R) (S : Shadowed R c d) (G : Good d g val adj) {ys x : List R} {es : List Var} (he : ∀ v ∈ es, v ∈ d.env)
    (hy : ValL ys es g val) (hl : d.marks.length < 10) (hroom : d.st.tape.head + 6 * x.length ≤ tapeLimit)
    (hs : f.Suits (d.marks.length + 1) (d.st.tape.head + 6 * x.length) (x ++ ys)) (hQ : Sealing R Q d es) :
    ∃ s1 s2 s3 xv outs d3 vs g' val' adj', (beginNested : M W Unit) c.st = .ok ((), s1) ∧
      (newVars x : M W (List Var)) s1 = .ok (xv, s2) ∧
      (∀ J, (f.runL J (xv ++ es) : M W (List Var)) s2 = .ok (outs, s3)) ∧
      InRegionL Q Z c d g val f ys x s3 d3 xv outs vs g' val' adj' := by
  obtain ⟨gs, vls, ajs, S⟩ := S
  obtain ⟨s1, t1, e1, e1', S1⟩ := S.open hl
  obtain ⟨G1, ht, hta, hlv, hn, ho⟩ := G.opened e1'
  obtain ⟨b1, -⟩ := booked_start (Z := Z) G e1'
  obtain ⟨xv, s2, t2, gs2, vls2, ajs2, e2, e2', hh, S2⟩ := S1.create (env := []) (ys := []) (m := .newVals x) .nil
    (by simp [Make.args]) trivial trivial rfl rfl (by simp only [hta]; exact hroom)
  simp only [Make.words, hta] at hh
  have e2'' : (newVars x : M W (List Var)) t1 = .ok (xv, t2) := e2'
  obtain ⟨g2, val2, adj2, x2, b2, q2⟩ := writes_newVars b1 x xv t2 e2''
  have G2 := G1.ofExt x2 b2.inv b2.cok q2.valL.has
  simp only at G2
  have hxs : ((Log.each input x ([] : List (Step R))).1 ++ ys.map fun y : R => (⟨none, y⟩ : Num R)).map Num.val = x ++ ys := by
    rw [List.map_append, inputs_vals, List.map_map]
    congr 1
    exact List.map_id _
  obtain ⟨outs, s3, d3, vs, g3, val3, adj3, e3, h1, h2, h3, A3, G3, b3, q3, hm3, hQ3, hh3⟩ := hf (Q := Q) (Z := Z)
    (d := ⟨t2, d.env ++ xv, d.env.length :: d.marks⟩) (env := xv ++ es) hq ⟨_, _, _, S2⟩ G2 b2 (fun v hv => by
    rcases List.mem_append.mp hv with hv | hv
    · exact List.mem_append_right _ hv
    · exact List.mem_append_left _ (he v hv)) (List.rel_append q2 (NumsAt.later (env_nums hy) b1.inv x2)) (by
      intro a n h hq
      obtain ⟨g4, val4, adj4, X⟩ := hQ a n h hq
      obtain ⟨g5, val5, adj5, X5, -⟩ := X.opened e1' e2''
      exact ⟨g5, val5, adj5, X5.sub fun v hv => by
        rcases List.mem_append.mp hv with hv | hv
        · exact List.mem_append_right _ hv
        · exact List.mem_append_left _ hv⟩) hz (by
      rw [hxs, hh]
      exact hs)
  simp only at A3 h1 h2 hh3
  have A := x2.adds.trans A3
  refine ⟨s1, s2, s3, xv, outs, d3, vs, g3, val3, adj3, e1, e2, e3, by rw [h1, List.append_assoc], h2, ?_, A.nodes,
    fun p hp => A.val p (by rw [hta]; exact hp), G3, b3, q3, hm3, ⟨_, NumsAt.adds q2 b2.inv A3, ?_⟩,
    ht.steady A.steady, by rw [A.steady.level, hlv], ?_, fun k hk => ?_, hQ3, ?_, ?_, G.inv.vhead⟩
  · rw [← List.append_assoc]; exact h3
  · rw [input_refs, List.range_eq_range']; rfl
  · rw [A.steady.level, A.steady.nt _ (Nat.le_refl _), hn]
  · rw [A.steady.nv k (by omega), A.steady.nt k (by omega)]
    exact ho k hk
  · rw [hh3, hh, hxs]
  · have := List.Forall₂.length_eq q2
    rw [← this]
    have := congrArg List.length (inputs_vals x ([] : List (Step R)))
    simpa using this

/-- what an inner call leaves behind -/
structure LeftL (Q : Nat → Nat → Nat → Prop) (c d : Client W) (g : Graph R) (val : Nat → R) (s' : St W)
    (t' : St W) (g' : Graph R) (val' adj' : Nat → R) : Prop where
  shadow : Shadowed R ⟨s', c.env, c.marks⟩ ⟨t', d.env, d.marks⟩
  left : Left d g val t' g' val' adj'
  head : t'.tape.head = d.st.tape.head
  seals : ∀ env Q', (∀ a n h, Q' a n h → Q a n h) → Sealing R Q' d env → Sealing R Q' ⟨t', d.env, d.marks⟩ env

/-- the region is closed when reverse passes have changed adjoints -/
theorem InRegionL.close {Q : Nat → Nat → Nat → Prop} {Z : Prop} {f : Deep R} {ys x : List R} {s3 s5 : St W}
    {d3 : Client W} {xv outs vs : List Var} (B : InRegionL Q Z c d g val f ys x s3 d3 xv outs vs g' val' adj')
    {m : Nat → W} {adj5 : Nat → R} (hi : Inv (d3.st.withMem m) g' val' adj5)
    (S5 : Shadowed R ⟨s5, c.env ++ (xv ++ vs), c.env.length :: c.marks⟩ ⟨d3.st.withMem m, d3.env, d3.marks⟩)
    (hQ : Sealing R Q ⟨d3.st.withMem m, d3.env, d3.marks⟩ outs) (hne : d3.env ≠ [])
    (hn : ∀ j, d.st.tape.head + 6 * x.length + f.words (x ++ ys) ≠ 12288 * 2 ^ j + 1) :
    ∃ s6 t6 g6 val6 adj6, (endNested : M W Unit) s5 = .ok ((), s6) ∧ LeftL Q c d g val s6 t6 g6 val6 adj6 := by
  obtain ⟨gs, vls, ajs, S5⟩ := S5
  have hfull := B.good.not_full hne (fun j => by rw [B.head]; exact hn j)
  obtain ⟨s6, t, gs', e6, e6', S6⟩ := S5.close (mk := d.env.length) (ms := d.marks) B.marks hfull
  have hce : c.env.length = d.env.length := by
    have := S5.env
    rw [B.env] at this
    have := congrArg List.length this
    simp only [List.length_append] at this
    omega
  have G5 : Good ⟨d3.st.withMem m, d.env ++ (xv ++ vs), d.env.length :: d.marks⟩ g' val' adj5 := by
    have := B.good.upd hi
    rw [B.env, B.marks] at this
    exact this
  have hcm : d.marks = c.marks := by
    have := S5.marks
    rw [B.marks] at this
    exact (List.cons.inj this).2
  simp only [B.env, List.take_left] at S6
  rw [← hce, List.take_left, hcm] at S6
  obtain ⟨g6, L⟩ := left_of (c := d) B.nodes B.val G5 (B.top.mem m) B.lvl B.nt B.outer e6'
  have hhd : t.tape.head = d.st.tape.head := by
    obtain ⟨b, -, -, hd, -⟩ := G5.closed (c := d) (B.top.mem m) B.lvl B.outer B.nt e6'
    exact hd
  refine ⟨s6, Fz.scrub t, g6, val', adj5, e6, ⟨_, _, _, by rw [hcm]; exact S6⟩, L.scrub, hhd, ?_⟩
  intro env Q' hsub hq a n h hqq
  obtain ⟨g1, val1, adj1, X⟩ := hq a n h hqq
  obtain ⟨g2, val2, adj2, X5⟩ := hQ a n h (hsub a n h hqq)
  rw [B.env, B.marks] at X5
  have hgl : n ≤ g.nodes.length := by
    have h1 := X.good.inv.vhead
    have h2 := X.len
    have h3 := B.start
    omega
  obtain ⟨g6', X6, -⟩ := X.closed X5 hgl (B.top.mem m) B.lvl B.nt B.outer e6'
  exact ⟨_, _, _, X6.scrub⟩

theorem InRegionL.has {Q : Nat → Nat → Nat → Prop} {Z : Prop} {f : Deep R} {ys x : List R} {s3 : St W}
    {d3 : Client W} {xv outs vs : List Var} (B : InRegionL Q Z c d g val f ys x s3 d3 xv outs vs g' val' adj') :
    ∀ v ∈ xv, v ∈ d3.env := by
  intro v hv
  rw [B.env]
  simp [hv]

/-- a call of `gradient` -/
theorem deep_gradientL {Q : Nat → Nat → Nat → Prop} {inner : Prop} {f : Deep R} (hf : RecordsL f W inner)
    (ha : f.Apart inner) (hq : ∀ a n h, Q a n h → Quiet R) (S : Shadowed R c d) (G : Good d g val adj) {ys x : List R}
    {es : List Var} (he : ∀ v ∈ es, v ∈ d.env)
    (hy : ValL ys es g val) (hl : d.marks.length < 10) (hroom : d.st.tape.head + 6 * x.length ≤ tapeLimit)
    (hs : f.Suits (d.marks.length + 1) (d.st.tape.head + 6 * x.length) (x ++ ys))
    (hn : ∀ j, d.st.tape.head + 6 * x.length + f.words (x ++ ys) ≠ 12288 * 2 ^ j + 1)
    {r : R × List R} (hr : f.bookGradient ys x = some r) (hQ : Sealing R Q d es) :
    ∃ s' t' g' val' adj',
      (∀ J, gradientL J (fun xv => do let outs ← (f.runL J (xv ++ es) : M W (List Var)); firstOf outs) x c.st = .ok (r, s')) ∧
      LeftL Q c d g val s' t' g' val' adj' := by
  obtain ⟨s1, s2, s3, xv, outs, d3, vs, g', val', adj', e1, e2, e3, B⟩ :=
    regionL (Z := True) hf (fun _ => ha) hq S G he hy hl hroom hs hQ
  have ho := B.nums
  have b3 := B.book
  unfold Deep.bookGradient gradientOf at hr
  generalize stepsOf f.write ys x = rr at b3 ho hr
  obtain ⟨os', T⟩ := rr
  cases ho with
  | nil => cases hr
  | @cons o v os'' outs' ho hos =>
    simp only [Option.some.injEq] at hr
    subst hr
    have hv : v ∈ d3.env := B.mem v (by simp)
    obtain ⟨gs, vls, ajs, S3⟩ := B.shadow
    obtain ⟨s4, m, ajs', e4, e4', S4⟩ := S3.sweep hv
    obtain ⟨m', adj2, hm, i2, r2⟩ := b3.row b3.inv (b3.zero trivial) ho e4'
    have hmm : d3.st.withMem m = d3.st.withMem m' := hm
    obtain ⟨xs, hx, hxn⟩ := B.inputs
    have ea : (adjs xv : M W (List R)) (d3.st.withMem m) = .ok (rowOf T x.length o, d3.st.withMem m) := by
      rw [i2.varAdjs hx.valL.has, hx.adjs r2 hxn]
      rfl
    obtain ⟨s5, e5, -⟩ := blind_adjs _ _ _ _ _ S4.alike ea
    have hs5 : s5 = s4 := by
      have := i2
      exact adjs_st e5
    subst hs5
    have ev : (v.val : M W R) s3 = .ok (o.val, s3) := by
      obtain ⟨s6, e6, -⟩ := blind_val _ _ _ _ _ S3.alike (ho.valR.read b3.inv)
      have := Var.val_st e6
      subst this
      exact e6
    obtain ⟨s6, t6, g6, val6, adj6, e6, L⟩ := B.close i2 ⟨_, _, _, S4⟩ (by
      intro a n h hqq
      obtain ⟨g1, val1, adj1, X⟩ := B.seals a n h hqq
      obtain ⟨m1, adj', hm1, X'⟩ := X.grad (hq a n h hqq) (v := v) (by simp) e4'
      exact ⟨_, _, _, X'.sub (fun _ hv => hv)⟩) (List.ne_nil_of_mem hv) hn
    refine ⟨s6, t6, g6, val6, adj6, fun J => ?_, L⟩
    have es' : (do let outs ← (f.runL J (xv ++ es) : M W (List Var)); firstOf outs : M W Var) s2 = .ok (v, s3) := by
      rw [bind_ok (e3 J)]
      rfl
    unfold gradientL
    rw [bind_ok e1, bind_ok e2, bind_ok es', bind_ok ev, bind_ok (e4 J), bind_ok e5, bind_ok e6]
    rfl

/-- a call of `jacobian` -/
theorem deep_jacobianL {Q : Nat → Nat → Nat → Prop} {inner : Prop} {f : Deep R} (hf : RecordsL f W inner)
    (hq : ∀ a n h, Q a n h → Quiet R) (S : Shadowed R c d) (G : Good d g val adj) {ys x : List R}
    {es : List Var} (he : ∀ v ∈ es, v ∈ d.env)
    (hy : ValL ys es g val) (hl : d.marks.length < 10) (hroom : d.st.tape.head + 6 * x.length ≤ tapeLimit)
    (hs : f.Suits (d.marks.length + 1) (d.st.tape.head + 6 * x.length) (x ++ ys))
    (hn : ∀ j, d.st.tape.head + 6 * x.length + f.words (x ++ ys) ≠ 12288 * 2 ^ j + 1) (hx0 : x ++ ys ≠ [])
    (hQ : Sealing R Q d es) :
    ∃ s' t' g' val' adj',
      (∀ J, jacobianL J (fun xv _ => (f.runL J (xv ++ es) : M W (List Var))) (f.bookJacobian ys x).1.length x c.st =
        .ok (f.bookJacobian ys x, s')) ∧
      LeftL Q c d g val s' t' g' val' adj' := by
  obtain ⟨s1, s2, s3, xv, outs, d3, vs, g', val', adj', e1, e2, e3, B⟩ :=
    regionL (Z := False) hf False.elim hq S G he hy hl hroom hs hQ
  have ho := B.nums
  have b3 := B.book
  obtain ⟨gs, vls, ajs, S3⟩ := B.shadow
  obtain ⟨xs, hx, hxn⟩ := B.inputs
  obtain ⟨rows, s4, m, ajs', e4, e4', S4⟩ := S3.sweeps B.has B.mem B.top
  have hJ := book_jacLoop b3 hx hxn ho b3.inv B.top e4'
  obtain ⟨m', adj6, hm, i6⟩ := jacLoop_inv b3.cok hx.valL.has B.nodes.length_le outs b3.inv B.top ho.valL.has e4'
  have ev : (vals outs : M W (List R)) s3 = .ok ((stepsOf f.write ys x).1.map Num.val, s3) := by
    obtain ⟨s6, e6, -⟩ := blind_vals _ _ _ _ _ S3.alike (ho.valL.read b3.inv)
    have := vals_st e6
    subst this
    exact e6
  have hne : d3.env ≠ [] := by
    rw [B.env]
    intro h0
    simp only [List.append_eq_nil_iff] at h0
    obtain ⟨h1, h2, -⟩ := h0
    have h3 := B.input
    rw [h2] at h3
    have h4 : x = [] := List.length_eq_zero_iff.mp h3.symm
    have h5 : es = [] := List.eq_nil_iff_forall_not_mem.mpr fun v hv => by
      have := he v hv
      rw [h1] at this
      simp at this
    rw [h5] at hy
    cases hy
    exact hx0 (by rw [h4]; rfl)
  have hk : ∀ a n h, Q a n h → ∃ g1 val1 adj1, Sealed (R := R) a n h ⟨d3.st.withMem m, d3.env, d3.marks⟩ outs g1 val1 adj1 := by
    intro a n h hqq
    obtain ⟨g1, val1, adj1, X⟩ := B.seals a n h hqq
    obtain ⟨g0, val0, adj0, X0⟩ := hQ a n h hqq
    have h1 := X.good.inv.vhead
    have h2 := B.good.inv.vhead
    have h3 := B.nodes.length_le
    have h4 := B.start
    have h5 := X0.good.inv.vhead
    have h6 := X0.len
    obtain ⟨m1, adj', hm1, X'⟩ := Sealed.rows (hq a n h hqq) outs X B.top (by omega) (by omega) (fun _ hv => hv) B.has e4'
    exact ⟨_, _, _, X'⟩
  obtain ⟨s6, t6, g6, val6, adj6, e6, L⟩ := B.close i6 ⟨_, _, _, S4⟩ hk hne hn
  refine ⟨s6, t6, g6, val6, adj6, fun J => ?_, L⟩
  have hb : f.bookJacobian ys x = ((stepsOf f.write ys x).1.map Num.val, rows) := by
    unfold Deep.bookJacobian jacobianOf
    rw [hJ]
  rw [hb]
  have hlen : outs.length = ((stepsOf f.write ys x).1.map Num.val).length := by
    rw [List.length_map]
    exact (List.Forall₂.length_eq ho).symm
  unfold jacobianL
  rw [bind_ok e1, bind_ok e2, bind_ok (e3 J), bind_ok (show (confN _ outs : M W (List Var)) s3 = .ok (outs, s3) by unfold confN; rw [if_pos hlen]; rfl), bind_ok ev, bind_ok (e4 J), bind_ok e6]
  rfl

theorem deep_recordsL (hc : Commutes R) {inner : Prop} (hq : inner → Quiet R) (f : Deep R) : f.Tidy → f.Careful inner →
    RecordsL f W inner := by
  induction f with
  | ret is =>
    intro _ _ Q Z n0 T c d g val adj env xs _ S G b he hy hQ _ hs
    have hlen := List.Forall₂.length_eq hy
    simp only [Deep.Suits, List.length_map, hlen] at hs
    have hsub : ∀ v ∈ is.map (nth env), v ∈ env := by
      intro v hv
      obtain ⟨i, h1, rfl⟩ := List.mem_map.mp hv
      exact nth_mem (hs i h1)
    refine ⟨is.map (nth env), c.st, d, [], g, val, adj, fun J => ?_, by simp, rfl, by simpa using S, Adds.refl, G, b,
      hy.nths hs, fun v hv => he v (hsub v hv), fun a n h q => ?_, rfl⟩
    · unfold Deep.runL
      rw [if_pos hs]
      rfl
    · obtain ⟨g1, val1, adj1, X⟩ := hQ a n h q
      exact ⟨g1, val1, adj1, X.sub hsub⟩
  | make m k ih =>
    intro ht hk Q Z n0 T c d g val adj env xs hqq S G b he hy hQ hz hs
    have hlen := List.Forall₂.length_eq hy
    obtain ⟨hi, hm, hp, hroom, hs⟩ := hs
    rw [List.length_map, hlen] at hi
    obtain ⟨gs, vls, ajs, S⟩ := S
    have hyS : ValL (xs.map Num.val) env gs vls :=
      ValL.ofRead S.sound.good.inv (fun v hv => S.sound.good.has v (he v hv)) (hy.valL.read G.inv)
    obtain ⟨r, s1, t1, gs1, vls1, ajs1, e1, e1', hh, S1⟩ := S.create hyS hi ht.1.1 ht.1.2.2 hm hp hroom
    obtain ⟨g1, val1, adj1, x1, b1, q1⟩ := make_writes hc b hy m hi ht.1.1 ht.1.2.1 ht.1.2.2 r t1 e1'
    have G1 := G.ofExt x1 b1.inv b1.cok q1.valL.has
    have hpl : (m.write xs T).1.map Num.val = m.plain (xs.map Num.val) := by
      obtain ⟨g2, val2, adj2, ev2, hv2⟩ := make_gives hc G.inv hy.valL m hi ht.1.1 ht.1.2.1 r t1 e1'
      have h1 := hv2.read ev2.inv
      rw [q1.valL.read b1.inv] at h1
      exact (Prod.mk.inj (Except.ok.inj h1)).1
    obtain ⟨outs, s2, d2, ws, g2, val2, adj2, e2, h1, h2, S2, A2, G2, b2, q2, hm2, hQ2, hh2⟩ :=
      ih ht.2 hk (Q := Q) (c := ⟨s1, c.env ++ r, c.marks⟩) (d := ⟨t1, d.env ++ r, d.marks⟩) (env := env ++ r) hqq
        ⟨_, _, _, S1⟩ G1 b1 (fun v hv => by
          rcases List.mem_append.mp hv with hv | hv
          · exact List.mem_append_left _ (he v hv)
          · exact List.mem_append_right _ hv) (List.rel_append (NumsAt.later hy b.inv x1) q1) (fun a n h q => by
          obtain ⟨g3, val3, adj3, X⟩ := hQ a n h q
          obtain ⟨g4, val4, adj4, X4, -⟩ := X.make hi ht.1.1 e1'
          exact ⟨g4, val4, adj4, X4⟩) hz (by
          rw [List.map_append, hpl]
          simp only [hh]
          exact hs)
    refine ⟨outs, s2, d2, r ++ ws, g2, val2, adj2, fun J => ?_, by rw [h1, List.append_assoc], h2, by
      rw [← List.append_assoc]; exact S2, x1.adds.trans A2, G2, b2, q2, hm2, hQ2, ?_⟩
    · unfold Deep.runL
      rw [if_pos hi, bind_ok e1]
      exact e2 J
    · rw [hh2, List.map_append, hpl]
      simp only [Deep.words, hh]
      omega
  | look i k ih =>
    intro ht hk Q Z n0 T c d g val adj env xs hqq S G b he hy hQ hz hs
    have hlen := List.Forall₂.length_eq hy
    obtain ⟨hi, hs⟩ := hs
    rw [List.length_map, hlen] at hi
    rw [num_vals] at hs
    have hrd := (hy.entry hi).valR.read b.inv
    obtain ⟨gs, vls, ajs, S⟩ := S
    obtain ⟨s1, e1, -⟩ := blind_val _ _ _ _ _ S.alike hrd
    obtain rfl := Var.val_st e1
    obtain ⟨outs, s2, d2, ws, g2, val2, adj2, e2, h1, h2, S2, A2, G2, b2, q2, hm2, hQ2, hh2⟩ :=
      ih _ (ht _) (hk _) hqq ⟨_, _, _, S⟩ G b he hy hQ (fun z => hz z _) hs
    refine ⟨outs, s2, d2, ws, g2, val2, adj2, fun J => ?_, h1, h2, S2, A2, G2, b2, q2, hm2, hQ2, ?_⟩
    · unfold Deep.runL
      rw [if_pos hi, bind_ok e1]
      exact e2 J
    · rw [hh2]
      simp only [Deep.words, num_vals]
  | gradient f x is k ihf ihk =>
    intro ht hk Q Z n0 T c d g val adj env xs hqq S G b he hy hQ hz hs
    have hlen := List.Forall₂.length_eq hy
    obtain ⟨hi, ⟨hl, hroom, hsf, hfull⟩, y, df, hb, hs⟩ := hs
    rw [List.length_map, hlen] at hi
    rw [nums_vals] at hsf hfull hb
    have hes : ∀ v ∈ is.map (nth env), v ∈ d.env := by
      intro v hv
      obtain ⟨i, h1, rfl⟩ := List.mem_map.mp hv
      exact he _ (nth_mem (hi i h1))
    obtain ⟨s1, t1, g1, val1, adj1, e1, L⟩ := deep_gradientL (Q := fun a n h => Q a n h ∨ (Z ∧ a = n0 ∧ n = g.nodes.length ∧ h = d.st.tape.head))
      (ihf ht.1 hk.2.1) hk.1 (fun a n h q => by
        rcases q with q | ⟨z, -⟩
        · exact hqq a n h q
        · exact hq (hz z).1) S G hes (hy.vals_of hi) hl hroom hsf hfull hb (fun a n h q => by
        rcases q with q | ⟨z, rfl, rfl, rfl⟩
        · obtain ⟨g3, val3, adj3, X⟩ := hQ a n h q
          refine ⟨g3, val3, adj3, X.sub fun v hv => ?_⟩
          obtain ⟨i, h1, rfl⟩ := List.mem_map.mp hv
          exact nth_mem (hi i h1)
        · obtain ⟨z1, z2, -⟩ := hz z
          rw [z2]
          exact ⟨_, _, _, b.sealed z G⟩)
    have b1 := b.after L.left fun z => by
      obtain ⟨g3, val3, adj3, X⟩ := L.seals [] (fun a n h => Z ∧ a = n0 ∧ n = g.nodes.length ∧ h = d.st.tape.head)
        (fun a n h q => Or.inr q) (fun a n h q => by
          obtain ⟨-, rfl, rfl, rfl⟩ := q
          exact ⟨_, _, _, b.sealed z G⟩) n0 g.nodes.length d.st.tape.head ⟨z, rfl, rfl, rfl⟩
      exact ⟨g3, val3, adj3, X⟩
    have hQ1 := L.seals env Q (fun a n h q => Or.inl q) hQ
    obtain ⟨outs, s2, d2, ws, g2, val2, adj2, e2, h1, h2, S2, A2, G2, b2, q2, hm2, hQ2, hh2⟩ :=
      ihk y df (ht.2 _ _) (hk.2.2 _ _) (c := ⟨s1, c.env, c.marks⟩) (d := ⟨t1, d.env, d.marks⟩) (xs := xs) hqq L.shadow
        L.left.good b1 he (NumsAt.adds hy b.inv L.left.adds) hQ1 (fun z => (hz z).2.2 _ _) (by
          simp only [L.head]
          exact hs)
    have hw : gradientOf f.write (is.map fun i => (opd xs i).val) x = some (y, df) := hb
    refine ⟨outs, s2, d2, ws, g2, val2, adj2, fun J => ?_, h1, h2, S2, L.left.adds.trans A2, G2, ?_, ?_, hm2, hQ2, ?_⟩
    · unfold Deep.runL
      rw [if_pos hi, bind_ok (e1 J)]
      exact e2 J
    · simp only [Deep.write]
      rw [hw]
      exact b2
    · simp only [Deep.write]
      rw [hw]
      exact q2
    · rw [hh2]
      simp only [Deep.words, L.head, nums_vals, hb]
  | jacobian f n x is k ihf ihk =>
    intro ht hk Q Z n0 T c d g val adj env xs hqq S G b he hy hQ hz hs
    have hlen := List.Forall₂.length_eq hy
    obtain ⟨hi, ⟨hl, hroom, hsf, hfull⟩, hx0, hnn, hs⟩ := hs
    rw [List.length_map, hlen] at hi
    rw [nums_vals] at hsf hfull hx0 hnn hs
    have hes : ∀ v ∈ is.map (nth env), v ∈ d.env := by
      intro v hv
      obtain ⟨i, h1, rfl⟩ := List.mem_map.mp hv
      exact he _ (nth_mem (hi i h1))
    obtain ⟨s1, t1, g1, val1, adj1, e1, L⟩ := deep_jacobianL (Q := fun a n h => Q a n h ∨ (Z ∧ a = n0 ∧ n = g.nodes.length ∧ h = d.st.tape.head))
      (ihf ht.1 hk.1) (fun a n h q => by
        rcases q with q | ⟨z, -⟩
        · exact hqq a n h q
        · exact hq (hz z).1) S G hes (hy.vals_of hi) hl hroom hsf hfull hx0 (fun a n h q => by
        rcases q with q | ⟨z, rfl, rfl, rfl⟩
        · obtain ⟨g3, val3, adj3, X⟩ := hQ a n h q
          refine ⟨g3, val3, adj3, X.sub fun v hv => ?_⟩
          obtain ⟨i, h1, rfl⟩ := List.mem_map.mp hv
          exact nth_mem (hi i h1)
        · obtain ⟨z1, z2, -⟩ := hz z
          rw [z2]
          exact ⟨_, _, _, b.sealed z G⟩)
    have b1 := b.after L.left fun z => by
      obtain ⟨g3, val3, adj3, X⟩ := L.seals [] (fun a n h => Z ∧ a = n0 ∧ n = g.nodes.length ∧ h = d.st.tape.head)
        (fun a n h q => Or.inr q) (fun a n h q => by
          obtain ⟨-, rfl, rfl, rfl⟩ := q
          exact ⟨_, _, _, b.sealed z G⟩) n0 g.nodes.length d.st.tape.head ⟨z, rfl, rfl, rfl⟩
      exact ⟨g3, val3, adj3, X⟩
    have hQ1 := L.seals env Q (fun a n h q => Or.inl q) hQ
    obtain ⟨outs, s2, d2, ws, g2, val2, adj2, e2, h1, h2, S2, A2, G2, b2, q2, hm2, hQ2, hh2⟩ :=
      ihk _ _ (ht.2 _ _) (hk.2 _ _) (c := ⟨s1, c.env, c.marks⟩) (d := ⟨t1, d.env, d.marks⟩) (xs := xs) hqq L.shadow
        L.left.good b1 he (NumsAt.adds hy b.inv L.left.adds) hQ1 (fun z => (hz z).2.2 _ _) (by
          simp only [L.head]
          exact hs)
    refine ⟨outs, s2, d2, ws, g2, val2, adj2, fun J => ?_, h1, h2, S2, L.left.adds.trans A2, G2, b2, q2, hm2, hQ2, ?_⟩
    · unfold Deep.runL
      rw [if_pos hi, hnn, bind_ok (e1 J)]
      exact e2 J
    · rw [hh2]
      simp only [Deep.words, L.head, nums_vals]

theorem Shadow.deepRead (S : Shadow c d g val adj) {is : List Nat} {ys : List R}
    (hi : ∀ i ∈ is, i < c.env.length) (hv : (Fz.vals (is.map (nth c.env)) : M W (List R)) c.st = .ok (ys, c.st)) :
    (∀ v ∈ is.map (nth c.env), v ∈ d.env) ∧ ValL ys (is.map (nth c.env)) g val := by
  have hmem : ∀ v ∈ is.map (nth c.env), v ∈ c.env := by
    intro v hv
    obtain ⟨i, hi', rfl⟩ := List.mem_map.mp hv
    exact nth_mem (hi i hi')
  have hes : ∀ v ∈ is.map (nth c.env), v ∈ d.env := fun v hv => by rw [S.env]; exact hmem v hv
  exact ⟨hes, ValL.ofRead S.sound.good.inv (fun v hv => S.sound.good.has v (hes v hv)) (S.vals hmem hv)⟩

/-- a state after a call of `gradient` or `jacobian` -/
theorem LeftL.after {Q : Nat → Nat → Nat → Prop} {s' t' : St W} (S : Shadow c d g val adj)
    (L : LeftL Q c d g val s' t' g' val' adj') {ys : List R} {es : List Var} (hy : ValL ys es g val) :
    s'.tape.head = c.st.tape.head ∧ (Fz.vals es : M W (List R)) s' = .ok (ys, s') := by
  obtain ⟨gs, vls, ajs, S'⟩ := L.shadow
  refine ⟨?_, ?_⟩
  · have h1 : s'.tape = t'.tape := S'.alike.tape
    rw [h1, L.head, S.alike.tape]
  · obtain ⟨s2, e2, -⟩ := blind_vals _ _ _ _ _ S'.alike ((ValL.adds hy S.sound.good.inv L.left.adds).read L.left.good.inv)
    have := vals_st e2
    subst this
    exact e2

theorem Shadow.deepGradient (hc : Commutes R) {inner : Prop} (hq : inner → Quiet R) (S : Shadow c d g val adj) {f : Deep R}
    {is : List Nat} {ys x : List R} (hf : f.ProperL c is ys x) (ha : f.Apart inner) (hk : f.Careful inner)
    (hr : f.bookGradient ys x ≠ none) :
    ∃ r s', (∀ J : Junk W R, gradientL J (f.scalarL J (is.map (nth c.env))) x c.st = .ok (r, s')) ∧
      f.bookGradient ys x = some r ∧ s'.tape.head = c.st.tape.head ∧
      (Fz.vals (is.map (nth c.env)) : M W (List R)) s' = .ok (ys, s') ∧ ∃ d', Shadowed R ⟨s', c.env, c.marks⟩ d' := by
  obtain ⟨hi, hv, ht, hl, hroom, hs, hfull⟩ := hf
  obtain ⟨hes, hy⟩ := S.deepRead hi hv
  obtain ⟨r, hr⟩ := Option.ne_none_iff_exists'.mp hr
  rw [← S.marks] at hl hs
  rw [S.alike.tape] at hroom hs hfull
  obtain ⟨s', t', g', val', adj', e, L⟩ := deep_gradientL (Q := fun _ _ _ => False) (deep_recordsL hc hq f ht hk) ha
    (fun _ _ _ q => q.elim) ⟨_, _, _, S⟩ S.sound.good hes hy hl hroom hs hfull hr (fun _ _ _ q => q.elim)
  obtain ⟨h1, h2⟩ := L.after S hy
  exact ⟨r, s', e, hr, h1, h2, _, L.shadow⟩

theorem Shadow.deepJacobian (hc : Commutes R) {inner : Prop} (hq : inner → Quiet R) (S : Shadow c d g val adj) {f : Deep R}
    {is : List Nat} {ys x : List R} (hf : f.ProperL c is ys x) (hk : f.Careful inner) (hx : x ++ ys ≠ []) :
    ∃ s', (∀ J : Junk W R, jacobianL J (f.vectorL J (is.map (nth c.env))) (f.bookJacobian ys x).1.length x c.st =
        .ok (f.bookJacobian ys x, s')) ∧ s'.tape.head = c.st.tape.head ∧
      (Fz.vals (is.map (nth c.env)) : M W (List R)) s' = .ok (ys, s') ∧ ∃ d', Shadowed R ⟨s', c.env, c.marks⟩ d' := by
  obtain ⟨hi, hv, ht, hl, hroom, hs, hfull⟩ := hf
  obtain ⟨hes, hy⟩ := S.deepRead hi hv
  rw [← S.marks] at hl hs
  rw [S.alike.tape] at hroom hs hfull
  obtain ⟨s', t', g', val', adj', e, L⟩ := deep_jacobianL (Q := fun _ _ _ => False) (deep_recordsL hc hq f ht hk)
    (fun _ _ _ q => q.elim) ⟨_, _, _, S⟩ S.sound.good hes hy hl hroom hs hfull hx (fun _ _ _ q => q.elim)
  obtain ⟨h1, h2⟩ := L.after S hy
  exact ⟨s', e, h1, h2, _, L.shadow⟩

end Fz
