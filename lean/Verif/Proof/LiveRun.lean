import Verif.Proof.Live
import Verif.Proof.Textbook

/-!
# Histories of correct calls, and gradients after them
-/

set_option linter.unusedSectionVars false

namespace Fz
variable {W R : Type} [Arith R] [Rep W R] [LawfulRep W R]
open Arith Spec
variable {s s' s'' : St W} {g g' g'' : Graph R} {val adj val' adj' val'' adj'' : Nat → R}
variable {c c' : Client W}

theorem Good.ofEvo (h : Good c g val adj) {s' : St W} (ev : Evo anyPos c.st g val adj s' g' val' adj') {vs : List Var}
    (hr : ∀ v ∈ vs, g'.Has v) : Good ⟨s', c.env ++ vs, c.marks⟩ g' val' adj' := by
  refine ⟨ev.inv, ev.cok h.cok, ?_, ev.keep.level.trans h.lvl, ?_, ?_⟩
  · intro v hv
    rcases List.mem_append.mp hv with hv | hv
    · exact ev.hasV (h.has v hv)
    · exact hr v hv
  · have := ev.keep.level
    have := h.max
    simp only; omega
  · show NestOK s'.nestVari s'.nestTape _ _ _ _
    rw [ev.keep.nestVari, ev.keep.nestTape]
    exact h.nest.mono ev.pre ev.head vs

/-- the invariant of clients that make correct calls only -/
structure Sound (closed : Bool) (c : Client W) (g : Graph R) (val adj : Nat → R) : Prop where
  good : Good c g val adj
  fits : ∀ nd ∈ g.nodes, nd.FitsAll
  clean : closed = false → Clean R c.st

theorem takes_dummy : Chain.dummy.Takes 0 ([] : List R) := by
  intro v a xs _
  exact ⟨[], rfl⟩

theorem sound_init (val adj : Nat → R) : Sound false (Client.init : Client W) Graph.empty val adj :=
  ⟨good_init val adj, by simp [Graph.empty], fun _ _ _ => takes_dummy⟩

variable {closed : Bool}

theorem Sound.upd (h : Sound closed c g val adj) {m : Nat → W} {val' adj' : Nat → R}
    (hi : Inv (c.st.withMem m) g val' adj') : Sound closed ⟨c.st.withMem m, c.env, c.marks⟩ g val' adj' :=
  ⟨h.good.upd hi, h.fits, h.clean⟩

theorem keep_eq {m : M W Unit} {s' : St W} (e : m c.st = .ok ((), s')) : c.keep m = .ok ⟨s', c.env, c.marks⟩ := by
  unfold Client.keep
  rw [e]

theorem Good.level_pos (h : Good c g val adj) (hm : c.marks ≠ []) : 0 < c.st.level := by
  rw [h.lvl]
  exact List.length_pos_of_ne_nil hm

theorem zeroNested_any (h : Inv s g val adj) (hl0 : 0 < s.level) (hl : s.level ≤ maxNestedStack) {n : Nat}
    (hn : s.nestVari s.level = n + 1) (hle : n ≤ g.nodes.length) :
    ∃ m a, (setZeroNestedAdj : M W Unit) s = .ok ((), s.withMem m) ∧ Inv (s.withMem m) g val a := by
  have hvh := h.vhead
  unfold setZeroNestedAdj
  rw [bind_ok (get_ok _)]
  have e2 : (rdNest s.nestVari s.level : M W Nat) s = .ok (n + 1, s) := by
    unfold rdNest; rw [if_pos ⟨hl0, hl⟩, hn]; rfl
  have hx : s.vhead - (n + 1) = g.nodes.length - n := by omega
  rw [bind_ok e2, hx]
  obtain ⟨m, a, e3, i, -, -⟩ := Inv.zeroAdjLoop_ok n (g.nodes.length - n) h (by omega)
  exact ⟨m, a, e3, i⟩

theorem Good.gradNested_any (h : Good c g val adj) (hf : ∀ nd ∈ g.nodes, nd.FitsAll) (hm : c.marks ≠ []) {v : Var}
    (hv : v ∈ c.env) :
    ∃ m a, (v.gradNested : M W Unit) c.st = .ok ((), c.st.withMem m) ∧ Inv (c.st.withMem m) g val a := by
  obtain ⟨nd, h1, h2⟩ := (h.has v hv).at
  obtain ⟨m, e1, i1⟩ := initDependent_ok h.inv h1
  have hl := h.level_pos hm
  have hmax := h.max
  have hvh := h.inv.vhead
  obtain ⟨mk, ms, n, b, hm, hlv, r1, r2, -⟩ := h.region hl
  have e2 : (do let s ← get
                if 0 < s.level then rdNest s.nestVari s.level else Pure.pure 0 : M W Nat) (c.st.withMem m) =
      .ok (n + 1, c.st.withMem m) := by
    rw [bind_ok (get_ok _)]
    show (if 0 < c.st.level then rdNest c.st.nestVari c.st.level else Pure.pure 0 : M W Nat) _ = _
    rw [if_pos hl]
    unfold rdNest
    rw [if_pos ⟨hl, hmax⟩, r1]
    rfl
  obtain ⟨m', e', i⟩ := Inv.chainLoop_ok n (g.nodes.length - n) i1 (by omega)
    fun nd hn => hf nd (List.mem_of_mem_drop (List.mem_of_mem_take hn)) _
  refine ⟨m', _, ?_, i⟩
  unfold Var.gradNested currNestedVariHead
  rw [bind_ok (h.inv.getV h1), bind_ok e1, bind_ok e2, bind_ok (get_ok _)]
  have hx : (c.st.withMem m).vhead - (n + 1) = g.nodes.length - n := by
    show c.st.vhead - (n + 1) = _
    omega
  rw [hx]
  exact e'

theorem assign1d_live : ∀ (vs : List Var) (ds : List R) {s : St W} {val : Nat → R}, Inv s g val adj →
    (∀ v ∈ vs, g.Has v) → vs.length ≤ ds.length →
    ∃ m val', (Var.assign1d vs ds : M W Unit) s = .ok ((), s.withMem m) ∧ Inv (s.withMem m) g val' adj := by
  intro vs
  induction vs with
  | nil => intro ds s val h _ _; exact ⟨s.tape.mem, val, by cases ds <;> rfl, h⟩
  | cons v vs ih =>
    intro ds s val h hv hl
    cases ds with
    | nil => simp at hl
    | cons d ds =>
      obtain ⟨m, e1, i⟩ := h.assign_ok (hv v (by simp)) d
      obtain ⟨m', val', e2, i'⟩ := ih ds i (fun w hw => hv w (by simp [hw])) (by simpa using hl)
      refine ⟨m', val', ?_, i'⟩
      unfold Var.assign1d
      rw [bind_ok e1]
      exact e2

theorem assign1dFrom0d_live (d : R) : ∀ (vs : List Var) {s : St W} {val : Nat → R}, Inv s g val adj →
    (∀ v ∈ vs, g.Has v) →
    ∃ m val', (Var.assign1dFrom0d vs d : M W Unit) s = .ok ((), s.withMem m) ∧ Inv (s.withMem m) g val' adj := by
  intro vs
  induction vs with
  | nil => intro s val h _; exact ⟨s.tape.mem, val, rfl, h⟩
  | cons v vs ih =>
    intro s val h hv
    obtain ⟨m, e1, i⟩ := h.assign_ok (hv v (by simp)) d
    obtain ⟨m', val', e2, i'⟩ := ih i (fun w hw => hv w (by simp [hw]))
    refine ⟨m', val', ?_, i'⟩
    unfold Var.assign1dFrom0d
    show (v.assign d >>= fun _ => Var.assign1dFrom0d vs d : M W Unit) s = _
    rw [bind_ok e1]
    exact e2

theorem ValL.ofRead (h : Inv s g val adj) {vs : List Var} {ys : List R} (hv : ∀ v ∈ vs, g.Has v)
    (hy : (vals vs : M W (List R)) s = .ok (ys, s)) : ValL ys vs g val := by
  rw [h.varVals hv] at hy
  cases hy
  exact ValL.of hv

/-- the region that ends: it can, unless the tape is exactly full -/
theorem Good.done_ok (h : Good c g val adj) (hf : c.marks = [] ∨ c.st.tape.head ≤ c.st.tape.size) :
    ∃ c', (Call.done : Call R).step c = .ok c' := by
  have hmax := h.max
  have hl := h.lvl
  by_cases hm : c.marks = []
  · refine ⟨⟨c.st, c.env, []⟩, ?_⟩
    have hl0 : ¬ 0 < c.st.level := by rw [hl, hm]; simp
    have : (endNested : M W Unit) c.st = .ok ((), c.st) := by
      unfold endNested
      rw [bind_ok (get_ok _), if_neg hl0]
      rfl
    unfold Call.step
    simp only [this, hm]
    rfl
  · have hl0 := h.level_pos hm
    obtain ⟨m, ms, n, b, hm', hlv, r1, r2, r3, r4, r5, r6, r7, r8, r9⟩ := h.region hl0
    have hcut : (g.cut n b).nodes.length = n := by simp [Graph.cut]; omega
    obtain ⟨s', e, -⟩ := endNested_ok h.inv (g.cut_prefix n b) r4 r5 r6 (hf.resolve_left hm) hl0
      hmax rfl (by rw [hcut]; exact r1)
    unfold Call.step
    simp only [e]
    exact ⟨_, rfl⟩

theorem Sound.exec (h : Sound closed c g val adj) {k : Call R} (hk : k.Proper closed c) :
    ∃ c', k.exec c = .ok c' ∧ ∃ (g' : Graph R) (val' adj' : Nat → R), Sound (closed || k.closes) c' g' val' adj' := by
  obtain ⟨ha, hk⟩ := hk
  unfold Call.exec
  rw [if_pos ha]
  have G := h.good
  cases k with
  | make m =>
    obtain ⟨hs, hr, ys, hy, hm, hroom⟩ := hk
    obtain ⟨r, s', g', val', adj', e, ev, ⟨l, hl, hf⟩, -, hq⟩ :=
      make_live G.inv h.clean (ValL.ofRead G.inv G.has hy) m ha hs hr hm hroom
    refine ⟨⟨s', c.env ++ r, c.marks⟩, by simp only [Call.step, e], g', val', adj', G.ofEvo ev hq, ?_, ?_⟩
    · intro nd hn
      rw [hl] at hn
      rcases List.mem_append.mp hn with hn | hn
      · exact h.fits nd hn
      · exact hf nd hn
    · intro hc
      exact ev.keep.clean (h.clean (by simpa [Call.closes] using hc))
  | assign i d =>
    obtain ⟨m, e, i'⟩ := G.inv.assign_ok (G.has _ (nth_mem (ha i (by simp [Call.args])))) d
    exact ⟨_, keep_eq e, _, _, _, by simpa [Call.closes] using h.upd i'⟩
  | assignArr is ds =>
    obtain ⟨m, val', e, i'⟩ := assign1d_live (is.map (nth c.env)) ds G.inv
      (by
        intro v hv
        obtain ⟨i, hi, rfl⟩ := List.mem_map.mp hv
        exact G.has _ (nth_mem (ha i hi))) (by simpa using Nat.le_of_eq hk)
    exact ⟨_, keep_eq e, _, _, _, by simpa [Call.closes] using h.upd i'⟩
  | assignAll is d =>
    obtain ⟨m, val', e, i'⟩ := assign1dFrom0d_live d (is.map (nth c.env)) G.inv
      (by
        intro v hv
        obtain ⟨i, hi, rfl⟩ := List.mem_map.mp hv
        exact G.has _ (nth_mem (ha i hi)))
    exact ⟨_, keep_eq e, _, _, _, by simpa [Call.closes] using h.upd i'⟩
  | grad i =>
    obtain ⟨m, e, i'⟩ := G.inv.grad_ok (G.has _ (nth_mem (ha i (by simp [Call.args])))) fun nd hn => h.fits nd hn _
    exact ⟨_, keep_eq e, _, _, _, by simpa [Call.closes] using h.upd i'⟩
  | gradNested i =>
    obtain ⟨m, a, e, i'⟩ := G.gradNested_any h.fits hk (nth_mem (ha i (by simp [Call.args])))
    exact ⟨_, keep_eq e, _, _, _, by simpa [Call.closes] using h.upd i'⟩
  | zeroAll =>
    obtain ⟨m, a, e, i', -⟩ := G.inv.setZeroAllAdj_ok
    exact ⟨_, keep_eq e, _, _, _, by simpa [Call.closes] using h.upd i'⟩
  | zeroNested =>
    have hl := G.level_pos hk
    obtain ⟨mk, ms, n, b, hm, hlv, r1, r2, -⟩ := G.region hl
    obtain ⟨m, a, e, i'⟩ := zeroNested_any G.inv hl G.max r1 r2
    exact ⟨_, keep_eq e, _, _, _, by simpa [Call.closes] using h.upd i'⟩
  | begin =>
    have hl : c.st.level < maxNestedStack := by rw [G.lvl]; exact hk
    obtain ⟨c', e⟩ : ∃ c', (Call.begin : Call R).step c = .ok c' := by
      unfold Call.step
      simp only [beginNested_ok c.st hl]
      exact ⟨_, rfl⟩
    obtain ⟨G', -, -, -, hst⟩ := G.begin e
    refine ⟨c', e, g, val, adj, G', h.fits, ?_⟩
    intro hc
    have := h.clean (by simpa [Call.closes] using hc)
    unfold Clean at this ⊢
    rw [hst]
    exact this
  | done =>
    obtain ⟨c', e⟩ := G.done_ok hk
    refine ⟨c', e, ?_⟩
    rcases G.done e with ⟨-, rfl⟩ | ⟨m, ms, n, b, -, -, -, -, -, -, G', -⟩
    · exact ⟨g, val, adj, G, h.fits, by simp [Call.closes]⟩
    · refine ⟨_, val, adj, G', fun nd hn => h.fits nd (List.mem_of_mem_take hn), by simp [Call.closes]⟩

theorem proper_sane {k : Call R} (h : k.Proper closed c) : k.Sane := by
  cases k with
  | make m => exact h.2.1
  | _ => trivial

theorem run_snoc : ∀ (h : List (Call R)) {c0 c c' : Client W} {k : Call R}, run h c0 = .ok c → k.exec c = .ok c' →
    run (h ++ [k]) c0 = .ok c' := by
  intro h
  induction h with
  | nil =>
    intro c0 c c' k e1 e2
    cases e1
    simp only [List.nil_append, run]
    rw [e2]
    rfl
  | cons a h ih =>
    intro c0 c c' k e1 e2
    simp only [List.cons_append, run] at e1 ⊢
    cases e : a.exec c0 with
    | error x => rw [e] at e1; cases e1
    | ok c1 =>
      rw [e] at e1
      exact ih e1 e2

theorem orderly_reach (h : Orderly closed c) : ∃ l : List (Call R), Reach l c := by
  induction h with
  | start => exact ⟨[], by simp, rfl⟩
  | call k _ hk e ih =>
    obtain ⟨l, hs, hr⟩ := ih
    refine ⟨l ++ [k], ?_, run_snoc l hr e⟩
    intro k' hk'
    rcases List.mem_append.mp hk' with h | h
    · exact hs k' h
    · rw [List.mem_singleton.mp h]; exact proper_sane hk

theorem orderly_sound (h : Orderly (R := R) closed c) : ∃ (g : Graph R) (val adj : Nat → R), Sound closed c g val adj := by
  induction h with
  | start => exact ⟨_, _, _, sound_init (fun _ => zero) fun _ => zero⟩
  | call k _ hk e ih =>
    obtain ⟨g, val, adj, S⟩ := ih
    obtain ⟨c1, e1, S1⟩ := S.exec hk
    rw [e1] at e
    cases e
    exact S1

/-! ## gradients -/

theorem code_live (hc : Commutes R) (f : Code R) : ∀ {s : St W} {g : Graph R} {val adj : Nat → R} {env : List Var}
    {ys : List R}, Inv s g val adj → (closed = false → Clean R s) → ValL ys env g val → f.Sane → f.Plain → f.Regular →
    f.Meets closed ys → Live (f.words ys) s g val adj (f.run env : M W (List Var)) HasVs := by
  induction f with
  | ret is =>
    intro s g val adj env ys h _ hy _ _ _ hm
    have hl := hy.length_eq
    unfold Code.run
    rw [if_pos (by rw [← hl]; exact hm)]
    exact Live.pure h (hy.nths (by rw [← hl]; exact hm)).has
  | make m k ih =>
    intro s g val adj env ys h hcl hy hs hp hr hm
    have hl := hy.length_eq
    obtain ⟨ha, hm, hk⟩ := hm
    rw [hl] at ha
    unfold Code.run
    rw [if_pos ha]
    refine Live.bind (make_live h hcl hy m ha hs.1 hr.1 hm) fun vs s1 g1 val1 adj1 e ev hv => ?_
    obtain ⟨g2, val2, adj2, ev2, hv2⟩ := make_gives hc h hy m ha hs.1 hp.1 vs s1 e
    have hy' : ValL (ys ++ m.plain ys) (env ++ vs) g1 val1 :=
      List.rel_append (ev.valL h hy) (ValL.ofRead ev.inv hv (hv2.read ev2.inv))
    exact ih ev.inv (fun hc => ev.keep.clean (hcl hc)) hy' hs.2 hp.2 hr.2 hk
  | look i k ih =>
    intro s g val adj env ys h hcl hy hs hp hr hm
    have hl := hy.length_eq
    obtain ⟨hi, hm⟩ := hm
    rw [hl] at hi
    unfold Code.run
    rw [if_pos hi]
    exact Live.read ((hy.entry hi).read h) (ih _ h hcl hy (hs _) (hp _) (hr _) hm)

/-- the table slots that the next `n` variables get hold chain procedures that leave a plain variable alone -/
def CleanN (R : Type) [Arith R] (n : Nat) (s : St W) : Prop :=
  ∀ k, s.vhead ≤ k → k < s.vhead + n → (s.varis k).chain.Takes 0 ([] : List R)

/-- `n` records from number `k` on, with chain procedures that leave a plain variable alone -/
def Leaves (k n : Nat) (g : Graph R) : Prop :=
  ∀ i < n, ∃ nd, g.nodes[k + i]? = some nd ∧ nd.chain.Takes 0 ([] : List R)

theorem live_inputs : ∀ (x : List R) {s : St W} {g : Graph R} {val adj : Nat → R}, Inv s g val adj →
    CleanN R x.length s →
    Live (6 * x.length) s g val adj (newVars x : M W (List Var)) fun r g' => HasVs r g' ∧ Leaves g.nodes.length x.length g' := by
  intro x
  induction x with
  | nil => intro s g val adj h _; exact Live.pure h ⟨by simp [HasVs], fun i hi => by simp at hi⟩
  | cons a x ih =>
    intro s g val adj h hl hcap
    have hl0 := hl s.vhead (Nat.le_refl _) (by simp)
    obtain ⟨s1, e1, gr⟩ := h.newVar_ok a (by simp only [List.length_cons] at hcap; omega)
    have ev : Evo anyPos s g val adj s1 (g.push ⟨s.tape.head, [], [], (s.varis s.vhead).chain, .plain⟩) _ _ :=
      Evo.ofGrown h gr rfl (fun _ => rfl) (fun _ _ => trivial)
    have hv1 := ev.inv.vhead
    have hv0 := h.vhead
    have hlen : (g.push (⟨s.tape.head, [], [], (s.varis s.vhead).chain, .plain⟩ : Node R)).nodes.length =
        g.nodes.length + 1 := by simp [Graph.push]
    rw [hlen] at hv1
    have hh : s1.tape.head = s.tape.head + 6 := by rw [gr.head]; rfl
    obtain ⟨r, s2, g2, val2, adj2, e2, ev2, ⟨l, hl2, hf⟩, hh2, hr, hq⟩ := ih ev.inv (fun k hk hk' => by
      rw [ev.keep.slots k hk]
      exact hl k (by omega) (by simp only [List.length_cons]; omega)) (by simp only [List.length_cons] at hcap; omega)
    refine ⟨⟨s.vhead⟩ :: r, s2, g2, val2, adj2, ?_, ev.trans ev2, ⟨⟨s.tape.head, [], [], (s.varis s.vhead).chain, .plain⟩ :: l,
      by rw [hl2]; simp [Graph.push], ?_⟩, ?_, ?_, ?_⟩
    · unfold newVars
      rw [List.mapM_cons, bind_ok e1]
      unfold newVars at e2
      rw [bind_ok e2]
      rfl
    · intro nd hn
      rcases List.mem_cons.mp hn with rfl | hn
      · exact Chain.Takes.fits hl0 _
      · exact hf nd hn
    · simp only [List.length_cons]; omega
    · intro v hv
      rcases List.mem_cons.mp hv with rfl | hv
      · refine ev2.hasV ?_
        rw [h.vhead]
        exact g.has_last _
      · exact hr v hv
    · intro i hi
      cases i with
      | zero =>
        refine ⟨⟨s.tape.head, [], [], (s.varis s.vhead).chain, .plain⟩, ?_, hl0⟩
        rw [hl2]
        simp [Graph.push]
      | succ i =>
        obtain ⟨nd, h1, h2⟩ := hq i (by simpa using hi)
        rw [hlen] at h1
        exact ⟨nd, by rw [← h1]; congr 1; omega, h2⟩

/-- begin a region, make the inputs, run the program -/
structure Began (c : Client W) (g : Graph R) (val adj : Nat → R) (n : Nat) (xv outs : List Var) (words : Nat)
    (s' : St W) (g' : Graph R) (val' adj' : Nat → R) : Prop where
  good : Good ⟨s', c.env ++ (xv ++ outs), c.env.length :: c.marks⟩ g' val' adj'
  fits : ∀ nd ∈ g'.nodes, nd.FitsAll
  pre : g.nodes <+: g'.nodes
  val : ∀ p < c.st.tape.head, val' p = val p
  head : s'.tape.head = c.st.tape.head + words
  lvl : s'.level = c.st.level + 1
  nv : s'.nestVari s'.level = g.nodes.length + 1
  nt : s'.nestTape s'.level = c.st.tape.head
  leaves : Leaves g.nodes.length n g'
  outer : ∀ k ≤ c.st.level, s'.nestVari k = c.st.nestVari k
  snug : Snug initTapeSize c.st.tape.size s'.tape.size (c.st.tape.head + words - 1)
  vsnug : Snug initVariStackSize c.st.nVaris s'.nVaris g'.nodes.length

theorem began (hc : Commutes R) (G : Good c g val adj) (hf : ∀ nd ∈ g.nodes, nd.FitsAll) {x ys : List R}
    (hcl : CleanN R x.length c.st) (hcl' : closed = false → Clean R c.st) (hl : c.st.level < maxNestedStack)
    {e : List Var} (hy : ValL ys e g val) {f : Code R} (hs : f.Sane) (hp : f.Plain) (hr : f.Regular)
    (hm : f.Meets closed (x ++ ys)) (hroom : c.st.tape.head + (6 * x.length + f.words (x ++ ys)) ≤ tapeLimit) :
    ∃ s0 xv s1 outs s2 g' val' adj', (beginNested : M W Unit) c.st = .ok ((), s0) ∧
      (newVars x : M W (List Var)) s0 = .ok (xv, s1) ∧ (f.run (xv ++ e) : M W (List Var)) s1 = .ok (outs, s2) ∧
      (vals outs : M W (List R)) s2 = .ok (f.plain (x ++ ys), s2) ∧
      Began c g val adj x.length xv outs (6 * x.length + f.words (x ++ ys)) s2 g' val' adj' := by
  obtain ⟨s0, e0⟩ : ∃ s0, (beginNested : M W Unit) c.st = .ok ((), s0) := ⟨_, beginNested_ok c.st hl⟩
  obtain ⟨G0, -, -, -, hst⟩ := G.begin (c' := ⟨s0, c.env, c.env.length :: c.marks⟩) (by unfold Call.step; simp only [e0])
  simp only at hst
  subst hst
  have i0 := G0.inv
  obtain ⟨xv, s1, g1, val1, adj1, e1, ev1, ⟨l1, hl1, hf1⟩, hh1, hx, hleaf⟩ := live_inputs x i0 hcl (by
    show c.st.tape.head + _ ≤ cap
    have : cap = tapeLimit := rfl
    omega)
  have hv1 : ValL x xv g1 val1 := by
    obtain ⟨g2, val2, adj2, ev2, hv2⟩ := gives_newVars i0 x xv s1 e1
    exact ValL.ofRead ev1.inv hx (hv2.read ev2.inv)
  have hh1' : s1.tape.head = c.st.tape.head + 6 * x.length := hh1
  have hy1 : ValL (x ++ ys) (xv ++ e) g1 val1 := List.rel_append hv1 (ev1.valL i0 hy)
  obtain ⟨outs, s2, g2, val2, adj2, e2, ev2, ⟨l2, hl2, hf2⟩, hh2, ho⟩ := code_live (closed := closed) hc f ev1.inv
    (fun hc => ev1.keep.clean (hcl' hc)) hy1 hs hp hr hm (by
      have : cap = tapeLimit := rfl
      omega)
  have ev := ev1.trans ev2
  refine ⟨_, xv, s1, outs, s2, g2, val2, adj2, e0, e1, e2, ?_, G0.ofEvo ev ?_, ?_, ?_, ev.val, ?_, ev.keep.level, ?_, ?_, ?_, ?_, ?_, ?_⟩
  · obtain ⟨g3, val3, adj3, ev3, hv3⟩ := code_gives hc f ev1.inv hy1 hs hp outs s2 e2
    exact hv3.read ev3.inv
  · intro v hv
    rcases List.mem_append.mp hv with hv | hv
    · exact ev2.hasV (hx v hv)
    · exact ho v hv
  · intro nd hn
    rw [hl2, hl1] at hn
    simp only [List.mem_append] at hn
    rcases hn with (hn | hn) | hn
    · exact hf nd hn
    · exact hf1 nd hn
    · exact hf2 nd hn
  · exact ⟨l1 ++ l2, by rw [hl2, hl1, List.append_assoc]⟩
  · omega
  · rw [ev.keep.nestVari, ev.keep.level]
    simp [G.inv.vhead]
  · rw [ev.keep.nestTape, ev.keep.level]
    simp
  · intro i hi
    obtain ⟨nd, h1, h2⟩ := hleaf i hi
    refine ⟨nd, ?_, h2⟩
    rw [hl2, List.getElem?_append_left (List.getElem?_eq_some_iff.mp h1).1]
    exact h1
  · intro k hk
    rw [ev.keep.nestVari]
    exact if_neg (by omega)
  · have hw : s2.tape.head = c.st.tape.head + (6 * x.length + f.words (x ++ ys)) := by omega
    rw [← hw]
    exact ev.keep.snug
  · have hw : s2.vhead - 1 = g2.nodes.length := by have := ev.inv.vhead; omega
    rw [← hw]
    exact ev.keep.vsnug

/-- the client after the region has been closed again -/
structure Back (c : Client W) (g : Graph R) (val : Nat → R) (n words : Nat) (s' : St W) (g' : Graph R) (val' adj' : Nat → R) :
    Prop where
  good : Good ⟨s', c.env, c.marks⟩ g' val' adj'
  nodes : g'.nodes = g.nodes
  val : ∀ p < c.st.tape.head, val' p = val p
  head : s'.tape.head = c.st.tape.head
  lvl : s'.level = c.st.level
  clean : CleanN R n s'
  outer : ∀ k ≤ c.st.level, s'.nestVari k = c.st.nestVari k
  snug : Snug initTapeSize c.st.tape.size s'.tape.size (c.st.tape.head + words - 1)
  vsnug : Snug initVariStackSize c.st.nVaris s'.nVaris ((c.st.tape.head + words - 1) / 6)

theorem Began.done {n words : Nat} {xv outs : List Var} (b : Began c g val adj n xv outs words s' g' val' adj')
    {m : Nat → W} {a : Nat → R} (hi : Inv (s'.withMem m) g' val' a)
    (hn : ∀ j, c.st.tape.head + words ≠ 12288 * 2 ^ j + 1) (h1 : 1 < c.st.tape.head + words) :
    ∃ t g1, (endNested : M W Unit) (s'.withMem m) = .ok ((), t) ∧ Back c g val n words t g1 val' a := by
  have G1 := b.good.upd hi
  have hfull : s'.tape.head ≤ s'.tape.size :=
    b.good.inv.ok.not_full (by rw [b.head]; exact h1) (fun k => by rw [b.head]; exact hn k)
  obtain ⟨c', e⟩ := G1.done_ok (Or.inr hfull)
  rcases G1.done e with ⟨h0, -⟩ | ⟨mk, ms, k, bk, hm, hlv, hv, hle, -, -, G', h2, h3, -, h5, hz2, h6, h7, hz1, h8⟩
  · exfalso
    have : s'.level = 0 := h0
    have := b.lvl
    omega
  · have hb := b.nv
    have hv' : s'.nestVari s'.level = k + 1 := hv
    have hk : k = g.nodes.length := by omega
    cases hm
    rw [List.take_left] at h2
    have e' : ∃ t, (endNested : M W Unit) (s'.withMem m) = .ok ((), t) ∧ c'.st = t := by
      unfold Call.step at e
      simp only at e
      split at e
      · rename_i u t ht
        cases e
        exact ⟨t, ht, rfl⟩
      · cases e
    obtain ⟨t, e', rfl⟩ := e'
    refine ⟨c'.st, g'.cut k bk, e', ⟨?_, ?_, b.val, ?_, ?_, ?_, ?_, ?_, ?_⟩⟩
    · have : (⟨c'.st, c.env, c.marks⟩ : Client W) = c' := by
        cases c'
        simp only at h2 h3
        rw [h2, h3]
      rw [this]
      exact G'
    · obtain ⟨l, hl⟩ := b.pre
      show g'.nodes.take k = _
      rw [hk, ← hl, List.take_left]
    · rw [h7]
      exact b.nt
    · have := G'.lvl
      rw [h3] at this
      rw [this]
      have := b.lvl
      have hlv' : s'.level = c.marks.length + 1 := hlv
      omega
    · intro j hj hj'
      rw [h5] at hj hj'
      rw [h6]
      obtain ⟨nd, q1, q2⟩ := b.leaves (j - (k + 1)) (by omega)
      have := b.good.inv.tab _ nd q1
      have hx : g.nodes.length + (j - (k + 1)) + 1 = j := by omega
      rw [hx] at this
      show ((s'.withMem m).varis j).chain.Takes 0 []
      show (s'.varis j).chain.Takes 0 []
      rw [this]
      exact q2
    · intro j hj
      rw [(h8 j (by
        show j ≠ s'.level
        have := b.lvl
        omega)).2]
      exact b.outer j hj
    · have hz : c'.st.tape.size = s'.tape.size := hz1
      rw [hz]
      exact b.snug
    · have hz : c'.st.nVaris = s'.nVaris := hz2
      have hlen : 6 * g'.nodes.length + 1 ≤ s'.tape.head := b.good.inv.wf.length_le b.good.inv.ok.head_pos
      rw [hz]
      exact b.vsnug.mono (by have := b.head; omega)

theorem Inv.head_gt (h : Inv s g val adj) (hn : g.nodes ≠ []) : 1 < s.tape.head := by
  obtain ⟨nd, hm⟩ := List.exists_mem_of_ne_nil _ hn
  have := h.wf.below nd hm
  simp only [Node.len] at this
  omega

theorem gradient_live (hc : Commutes R) (G : Good c g val adj) (hf : ∀ nd ∈ g.nodes, nd.FitsAll) {x ys : List R}
    (hcl : CleanN R x.length c.st) (hcl' : closed = false → Clean R c.st) (hl : c.st.level < maxNestedStack)
    {e : List Var} (hy : ValL ys e g val) {f : Code R} (hs : f.Sane) (hp : f.Plain) (hr : f.Regular)
    (hm : f.Meets closed (x ++ ys)) (ho : f.plain (x ++ ys) ≠ [])
    (hroom : c.st.tape.head + (6 * x.length + f.words (x ++ ys)) ≤ tapeLimit)
    (hn : ∀ j, c.st.tape.head + (6 * x.length + f.words (x ++ ys)) ≠ 12288 * 2 ^ j + 1) :
    ∃ r s' g' val' adj', gradient (f.scalar e) x c.st = .ok (r, s') ∧ Back c g val x.length (6 * x.length + f.words (x ++ ys)) s' g' val' adj' := by
  obtain ⟨s0, xv, s1, outs, s2, g', val', adj', e0, e1, e2, e3, b⟩ := began hc G hf hcl hcl' hl hy hs hp hr hm hroom
  cases outs with
  | nil =>
    have : (vals ([] : List Var) : M W (List R)) s2 = .ok ([], s2) := rfl
    rw [this] at e3
    exact absurd (Prod.mk.inj (Except.ok.inj e3)).1.symm ho
  | cons v os =>
    have hv : g'.Has v := b.good.has v (by simp)
    have ev := b.good.inv.varVal hv
    obtain ⟨m, eg, i⟩ := b.good.inv.grad_ok hv fun nd hn => b.fits nd hn _
    obtain ⟨df, ea⟩ : ∃ df, (adjs xv : M W (List R)) (s2.withMem m) = .ok (df, s2.withMem m) :=
      ⟨_, i.varAdjs (vs := xv) fun w hw => b.good.has w (by simp [hw])⟩
    obtain ⟨t, g1, et, B⟩ := b.done i hn (by
      rw [← b.head]
      exact b.good.inv.head_gt (by
        intro h0
        have := hv.2
        rw [h0] at this
        have := hv.1
        simp at *
        omega))
    refine ⟨(val' (g'.pos v), df), t, g1, val', _, ?_, B⟩
    unfold gradient
    have es : (f.scalar e xv : M W Var) s1 = .ok (v, s2) := by
      unfold Code.scalar
      rw [bind_ok e2]
      rfl
    rw [bind_ok e0, bind_ok e1, bind_ok es, bind_ok ev, bind_ok eg, bind_ok ea, bind_ok et]
    rfl

theorem jacLoop_live {k : Nat} (hf : ∀ nd ∈ g.nodes, nd.FitsAll) {xv : List Var} (hx : ∀ v ∈ xv, g.Has v) (hk : k ≤ g.nodes.length) :
    ∀ (outs : List Var) {t : St W} {a : Nat → R}, Inv t g val a → 0 < t.level → t.level ≤ maxNestedStack →
    t.nestVari t.level = k + 1 → (∀ v ∈ outs, g.Has v) →
    ∃ rows m a', (jacLoop xv outs : M W (List (List R))) t = .ok (rows, t.withMem m) ∧ Inv (t.withMem m) g val a' := by
  intro outs
  induction outs with
  | nil =>
    intro t a h _ _ _ _
    exact ⟨[], t.tape.mem, a, rfl, h⟩
  | cons v outs ih =>
    intro t a h hl0 hl hn ho
    obtain ⟨m, a1, e1, i1⟩ := zeroNested_any h hl0 hl hn hk
    obtain ⟨m2, e2, i2⟩ := i1.grad_ok (ho v (by simp)) fun nd hn => hf nd hn _
    obtain ⟨df, ea⟩ : ∃ df, (adjs xv : M W (List R)) ((t.withMem m).withMem m2) = .ok (df, (t.withMem m).withMem m2) :=
      ⟨_, i2.varAdjs (vs := xv) hx⟩
    obtain ⟨rows, m3, a3, e3, i3⟩ := ih (t := (t.withMem m).withMem m2) i2 hl0 hl hn
      (fun j hj => ho j (by simp [hj]))
    refine ⟨df :: rows, m3, a3, ?_, i3⟩
    unfold jacLoop
    rw [bind_ok e1, bind_ok e2, bind_ok ea, bind_ok e3]
    rfl

theorem jacobian_live (hc : Commutes R) (G : Good c g val adj) (hf : ∀ nd ∈ g.nodes, nd.FitsAll) {x ys : List R}
    (hcl : CleanN R x.length c.st) (hcl' : closed = false → Clean R c.st) (hl : c.st.level < maxNestedStack)
    {e : List Var} (hy : ValL ys e g val) {f : Code R} (hs : f.Sane) (hp : f.Plain) (hr : f.Regular)
    (hm : f.Meets closed (x ++ ys)) (hx : x ++ ys ≠ [])
    (hroom : c.st.tape.head + (6 * x.length + f.words (x ++ ys)) ≤ tapeLimit)
    (hn : ∀ j, c.st.tape.head + (6 * x.length + f.words (x ++ ys)) ≠ 12288 * 2 ^ j + 1) :
    ∃ r s' g' val' adj', jacobian (f.vector e) (f.plain (x ++ ys)).length x c.st = .ok (r, s') ∧
      Back c g val x.length (6 * x.length + f.words (x ++ ys)) s' g' val' adj' := by
  obtain ⟨s0, xv, s1, outs, s2, g', val', adj', e0, e1, e2, e3, b⟩ := began hc G hf hcl hcl' hl hy hs hp hr hm hroom
  have hlen : outs.length = (f.plain (x ++ ys)).length := by
    have ho : ∀ v ∈ outs, g'.Has v := fun v hv => b.good.has v (by simp [hv])
    exact (ValL.ofRead b.good.inv ho e3).length_eq.symm
  obtain ⟨rows, m, a, ej, i⟩ := jacLoop_live b.fits (xv := xv) (fun v hv => b.good.has v (by simp [hv]))
    b.pre.length_le outs b.good.inv (by rw [b.lvl]; omega) (by rw [b.lvl]; omega) b.nv
    (fun v hv => b.good.has v (by simp [hv]))
  have hne : g'.nodes ≠ [] := by
    intro h0
    cases x with
    | cons x0 x =>
      obtain ⟨nd, h1, -⟩ := b.leaves 0 (by simp)
      rw [h0] at h1
      simp at h1
    | nil =>
      cases hy with
      | nil => exact hx rfl
      | cons h1 _ =>
        have h2 := b.pre.length_le
        rw [h0] at h2
        have h3 := h1.has.1
        have h4 := h1.has.2
        simp at h2
        rw [h2] at h4
        simp at h4
        omega
  obtain ⟨t, g1, et, B⟩ := b.done i hn (by
    rw [← b.head]
    exact b.good.inv.head_gt hne)
  refine ⟨(f.plain (x ++ ys), rows), t, g1, val', _, ?_, B⟩
  unfold jacobian
  have ec : (confN (f.plain (x ++ ys)).length outs : M W (List Var)) s2 = .ok (outs, s2) := by
    unfold confN
    rw [if_pos hlen]
    rfl
  have ef : (f.vector e xv (f.plain (x ++ ys)).length : M W (List Var)) s1 = .ok (outs, s2) := e2
  rw [bind_ok e0, bind_ok e1, bind_ok ef, bind_ok ec, bind_ok e3, bind_ok ej, bind_ok et]
  rfl

/-- the tape and the table are as long as before, their storage holds what was in use between; every variable takes
six words or more -/
structure Slim (s s' : St W) (words : Nat) : Prop where
  head : s'.tape.head = s.tape.head
  vhead : s'.vhead = s.vhead
  level : s'.level = s.level
  snug : Snug initTapeSize s.tape.size s'.tape.size (s.tape.head + words - 1)
  vsnug : Snug initVariStackSize s.nVaris s'.nVaris ((s.tape.head + words - 1) / 6)
  form : s'.tape.size = 0 ∨ ∃ k, s'.tape.size = initTapeSize * 2 ^ k
  vform : s'.nVaris = 0 ∨ ∃ k, s'.nVaris = initVariStackSize * 2 ^ k

theorem Slim.refl (h : Inv s g val adj) (words : Nat) : Slim s s words :=
  ⟨rfl, rfl, rfl, Or.inl rfl, Or.inl rfl, h.ok.form, h.vform⟩

theorem Slim.mono {s s' : St W} {n m : Nat} (h : Slim s s' n) (hn : n ≤ m) : Slim s s' m :=
  ⟨h.head, h.vhead, h.level, h.snug.mono (by omega), h.vsnug.mono (by omega), h.form, h.vform⟩

theorem Slim.trans {s s1 s2 : St W} {n : Nat} (h : Slim s s1 n) (h' : Slim s1 s2 n) : Slim s s2 n := by
  have h1 := h'.snug
  have h2 := h'.vsnug
  rw [h.head] at h1 h2
  exact ⟨h'.head.trans h.head, h'.vhead.trans h.vhead, h'.level.trans h.level, h.snug.trans h1 (Nat.le_refl _),
    h.vsnug.trans h2 (Nat.le_refl _), h'.form, h'.vform⟩

theorem Back.slim {n words : Nat} (b : Back c g val n words s' g' val' adj') (h : Inv c.st g val adj) :
    Slim c.st s' words :=
  ⟨b.head, by have := b.good.inv.vhead; rw [b.nodes, ← h.vhead] at this; exact this, b.lvl, b.snug, b.vsnug,
    b.good.inv.ok.form, b.good.inv.vform⟩

theorem Back.valL {n words : Nat} (b : Back c g val n words s' g' val' adj') (h : Inv c.st g val adj) {ys : List R} {e : List Var}
    (hy : ValL ys e g val) : ValL ys e g' val' := by
  refine hy.imp fun y v hv => ⟨?_, ?_⟩
  · have := hv.has
    unfold Graph.Has at this ⊢
    rw [b.nodes]
    exact this
  · have hp : g'.pos v = g.pos v := by unfold Graph.pos; rw [b.nodes]
    rw [hp, b.val _ (Graph.pos_below h hv.has)]
    exact hv.eq

theorem ask_live (hc : Commutes R) {n : Nat} {ys : List R} {e : List Var} {q : Ask R} (G : Good c g val adj)
    (hf : ∀ nd ∈ g.nodes, nd.FitsAll) (hcl : CleanN R n c.st) (hcl' : closed = false → Clean R c.st)
    (hl : c.st.level < maxNestedStack) (hy : ValL ys e g val) (hn : q.inputs = n) (hq : q.Suits closed c.st.tape.head ys) :
    ∃ r s' g' val' adj', (q.call e : M W (Answer R)) c.st = .ok (r, s') ∧ q.book ys = some r ∧
      Back c g val n (q.words ys) s' g' val' adj' := by
  cases q with
  | gradient f x =>
    obtain ⟨hs, hp, hr, hm, ho, hroom, hfull⟩ := hq
    obtain rfl := hn
    obtain ⟨⟨y, df⟩, s', g', val', adj', e1, B⟩ := gradient_live hc G hf hcl hcl' hl hy hs hp hr hm ho hroom hfull
    refine ⟨.gradient y df, s', g', val', adj', ?_, ?_, B⟩
    · simp only [Ask.call]
      rw [bind_ok e1]
      rfl
    · simp only [Ask.book]
      rw [gradient_book hc G hs hp hr hy e1]
      rfl
  | jacobian f m x =>
    obtain ⟨hs, hp, hr, hm, hx, rfl, hroom, hfull⟩ := hq
    obtain rfl := hn
    obtain ⟨⟨y, df⟩, s', g', val', adj', e1, B⟩ := jacobian_live hc G hf hcl hcl' hl hy hs hp hr hm hx hroom hfull
    refine ⟨.jacobian y df, s', g', val', adj', ?_, ?_, B⟩
    · simp only [Ask.call]
      rw [bind_ok e1]
      rfl
    · simp only [Ask.book]
      rw [jacobian_book hc G hs hp hr hy e1]

theorem asks_live (hc : Commutes R) {n : Nat} {ys : List R} {e : List Var} : ∀ (l : List (Ask R)) {c : Client W}
    {g : Graph R} {val adj : Nat → R}, Good c g val adj → (∀ nd ∈ g.nodes, nd.FitsAll) → CleanN R n c.st →
    c.st.level < maxNestedStack → ValL ys e g val → (∀ q ∈ l, q.inputs = n ∧ q.Suits true c.st.tape.head ys) →
    ∃ rs s', (l.mapM fun q => (q.call e : M W (Answer R))) c.st = .ok (rs, s') ∧ (rs.map some = l.map fun q => q.book ys) ∧
      ∀ m, (∀ q ∈ l, q.words ys ≤ m) → Slim c.st s' m := by
  intro l
  induction l with
  | nil => intro c g val adj _ _ _ _ _ _; exact ⟨[], c.st, rfl, rfl, fun m _ => .refl ‹Good c g val adj›.inv _⟩
  | cons q l ih =>
    intro c g val adj G hf hcl hl hy hq
    obtain ⟨r, s1, g1, val1, adj1, e1, hb, B⟩ := ask_live (closed := true) hc G hf hcl (by simp) hl hy
      (hq q (by simp)).1 (hq q (by simp)).2
    obtain ⟨rs, s2, e2, hr, hz⟩ := ih B.good (by rw [B.nodes]; exact hf) B.clean (by show s1.level < _; rw [B.lvl]; exact hl)
      (B.valL G.inv hy) (fun p hp => by
        show p.inputs = n ∧ p.Suits true s1.tape.head ys
        rw [B.head]
        exact hq p (by simp [hp]))
    refine ⟨r :: rs, s2, ?_, by simp [hb, hr], fun m hm =>
      ((B.slim G.inv).mono (hm q (by simp))).trans (hz m fun p hp => hm p (by simp [hp]))⟩
    rw [List.mapM_cons, bind_ok e1]
    simp only at e2
    rw [bind_ok e2]
    rfl

end Fz
