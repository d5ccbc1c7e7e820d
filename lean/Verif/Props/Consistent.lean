import Verif.Proof.TwinRows
import Verif.Props.Reproduce
import Verif.Props.Storage
import Verif.Props.Sweeps
import Verif.Proof.ProgCode

/-!
# C43: sweeps and resets change adjoints only
# C44: row `i` of `jacobian` is the gradient of component `i`
# C45: after a reset, what earlier sweeps have left does not matter

In any arithmetic `R`.
-/

set_option linter.unusedSectionVars false

namespace Spec
open Fz

/-- sweeps and resets -/
def Call.onAdjoints {R : Type} : Call R → Bool
  | .grad _ | .gradNested _ | .zeroAll | .zeroNested => true
  | _ => false

end Spec

namespace Props
open Fz Spec

section generic
variable {W1 W2 W R : Type} [Arith R] [Rep W1 R] [LawfulRep W1 R] [Rep W2 R] [LawfulRep W2 R] [Rep W R] [LawfulRep W R]
variable {h1 h2 h : List (Call R)} {c1 : Client W1} {c2 : Client W2} {c c' : Client W} {e1 e2 : List Var} {ys : List R}

/-! ## C43 -/

theorem onAdjoints_good {g : Graph R} {val adj : Nat → R} (G : Good c g val adj) {k : Call R} (hk : k.onAdjoints = true)
    (hx : k.exec c = .ok c') : ∃ adj' : Nat → R, Good c' g val adj' ∧ ∃ m, c' = ⟨c.st.withMem m, c.env, c.marks⟩ := by
  unfold Call.exec at hx
  split at hx
  case isFalse => cases hx
  rename_i ha
  cases k with
  | grad i =>
    obtain ⟨-, G', m, e⟩ := G.grad (v := nth c.env i) (nth_mem (ha i (by simp [Call.args]))) hx
    exact ⟨_, G', m, e⟩
  | gradNested i =>
    obtain ⟨n, -, -, -, -, G', m, e⟩ := G.gradNested (v := nth c.env i) (nth_mem (ha i (by simp [Call.args]))) hx
    exact ⟨_, G', m, e⟩
  | zeroAll =>
    obtain ⟨a, G', -, m, e⟩ := G.zeroAll hx
    exact ⟨_, G', m, e⟩
  | zeroNested =>
    obtain ⟨n, a, -, -, -, G', -, -, m, e⟩ := G.zeroNested hx
    exact ⟨_, G', m, e⟩
  | _ => cases hk

theorem onAdjoints_run {g : Graph R} {val : Nat → R} : ∀ {l : List (Call R)} {c c' : Client W} {adj : Nat → R},
    Good c g val adj → (∀ k ∈ l, k.onAdjoints = true) → run l c = .ok c' →
    ∃ adj' : Nat → R, Good c' g val adj' ∧ ∃ m, c' = ⟨c.st.withMem m, c.env, c.marks⟩ := by
  intro l
  induction l with
  | nil => intro c c' adj G _ e; cases e; exact ⟨adj, G, c.st.tape.mem, rfl⟩
  | cons k l ih =>
    intro c c' adj G hl e
    rw [run_cons] at e
    cases e1 : k.exec c with
    | error _ => rw [e1] at e; cases e
    | ok d =>
      rw [e1] at e
      obtain ⟨a1, G1, m1, rfl⟩ := onAdjoints_good G (hl k (by simp)) e1
      obtain ⟨a2, G2, m2, rfl⟩ := ih G1 (fun k hk => hl k (by simp [hk])) e
      exact ⟨a2, G2, m2, rfl⟩

theorem onAdjoints_sane {l : List (Call R)} (hl : ∀ k ∈ l, k.onAdjoints = true) : ∀ k ∈ l, k.Sane := by
  intro k hk
  have := hl k hk
  cases k <;> first | trivial | cases this

/-- **C43**: any number of sweeps (`grad`, `grad_nested`) and resets (`set_zero_all_adj`, `set_zero_nested_adj`) leaves
the variables that exist, their values, their operands and data, the variable table, the nesting data, the length of
the tape and the variables of the program as they are.  Only adjoints change. -/
theorem C43_only_adjoints (hr : Reach h c) {l : List (Call R)} (hl : ∀ k ∈ l, k.onAdjoints = true)
    (hx : run l c = .ok c') :
    (∃ m : Nat → W, c' = ⟨{ c.st with tape := { c.st.tape with mem := m } }, c.env, c.marks⟩) ∧
    existing c'.st = existing c.st ∧
    ∀ v ∈ existing c.st, ∃ (w : View R) (a : R), seen c.st v = .ok w ∧ seen c'.st v = .ok { w with adj := a } := by
  obtain ⟨g, val, adj, G⟩ := hr.good
  obtain ⟨adj', G', m, rfl⟩ := onAdjoints_run G hl hx
  refine ⟨⟨m, rfl⟩, rfl, fun v hv => ?_⟩
  obtain ⟨nd, h1, -⟩ := ((mem_existing G.inv).mp hv).at
  exact ⟨_, adj' nd.pos, G.inv.seen h1, G'.inv.seen h1⟩

/-! ## C44 -/

/-- creating calls add variables with adjoint zero and leave the others -/
theorem makes_zero : ∀ {l : List (Call R)} {h : List (Call R)} {c c' : Client W}, Reach h c → (∀ k ∈ l, IsMake k) →
    run l c = .ok c' → (∀ v ∈ existing c.st, v ∈ existing c'.st ∧ seen (R := R) c'.st v = seen c.st v) ∧
      ∀ v ∈ existing c'.st, v ∉ existing c.st → ∃ w : View R, seen c'.st v = .ok w ∧ w.adj = Arith.zero := by
  intro l
  induction l with
  | nil =>
    intro h c c' hr _ e
    cases e
    exact ⟨fun v hv => ⟨hv, rfl⟩, fun v hv hn => absurd hv hn⟩
  | cons k l ih =>
    intro h c c' hr hl e
    obtain ⟨m, rfl, hs⟩ := hl k (by simp)
    rw [run_cons] at e
    cases e1 : (Call.make m).exec c with
    | error _ => rw [e1] at e; cases e
    | ok d =>
      rw [e1] at e
      have hr' := Reach.snoc hr (k := .make m) hs e1
      obtain ⟨i1, i2⟩ := ih hr' (fun k hk => hl k (by simp [hk])) e
      obtain ⟨k1, -⟩ := C06_undisturbed hr hs e1
      refine ⟨fun v hv => ⟨(i1 v (k1 v hv).1).1, (i1 v (k1 v hv).1).2.trans (k1 v hv).2.1⟩, fun v hv hn => ?_⟩
      by_cases hd : v ∈ existing d.st
      · rw [(i1 v hd).2]
        exact C04_all_results hr hs e1 hd hn
      · exact i2 v hv hd

/-- **C44**: row `i` of the Jacobian matrix, and value `i`, are exactly what `gradient` returns for component `i` of
the function at the same point, whatever the two programs have done before. -/
theorem C44_rows (r1 : Reach h1 c1) (r2 : Reach h2 c2) (m1 : ∀ v ∈ e1, v ∈ existing c1.st) (m2 : ∀ v ∈ e2, v ∈ c2.env)
    (q1 : vals e1 c1.st = .ok (ys, c1.st)) (q2 : vals e2 c2.st = .ok (ys, c2.st)) {f : Code R} (hf : f.Sane) (n : Nat)
    (x : List R) {z1 : List R × List (List R)} {z2 : R × List R} {s1 : St W1} {s2 : St W2} {i : Nat}
    (g1 : jacobian (f.vector e1) n x c1.st = .ok (z1, s1)) (g2 : gradient (f.entry i e2) x c2.st = .ok (z2, s2)) :
    z1.1[i]? = some z2.1 ∧ z1.2[i]? = some z2.2 := by
  obtain ⟨G1, v1, a1, G1⟩ := r1.good
  obtain ⟨G2, v2, a2, G2⟩ := r2.good
  replace m1 : ∀ v ∈ e1, _ := fun v hv => (mem_existing G1.inv).mp (m1 v hv)
  have m2' : ∀ v ∈ e2, _ := fun v hv => G2.has v (m2 v hv)
  obtain ⟨t1, u1, b1, d1⟩ := jacobian_body g1
  obtain ⟨t2, u2, b2, d2⟩ := gradient_body g2
  obtain ⟨k1, rfl, K1, T1⟩ := begun G1 b1
  obtain ⟨k2, rfl, K2, T2⟩ := begun G2 b2
  obtain ⟨B, a, b, hn, hn2, p1, p2, t, he⟩ := twin_start K1 K2 m1 m2' (same_vals G1 K1 m1 q1) (same_vals G2 K2 m2' q2)
    True (fun _ => T1) (fun _ => T2)
  have hB : B.nested := by rw [hn]; trivial
  unfold jacBody at d1
  unfold gradBody at d2
  obtain ⟨xv, j1, x1, d1⟩ := Fz.bind_inv d1
  obtain ⟨fv, j2, x2, d1⟩ := Fz.bind_inv d1
  obtain ⟨fv', j3, x3, d1⟩ := Fz.bind_inv d1
  obtain ⟨yv, j4, x4, d1⟩ := Fz.bind_inv d1
  obtain ⟨rows, j5, x5, d1⟩ := Fz.bind_inv d1
  cases d1
  obtain ⟨xw, l1, y1, d2⟩ := Fz.bind_inv d2
  obtain ⟨w, l2, y2, d2⟩ := Fz.bind_inv d2
  obtain ⟨yw, l3, y3, d2⟩ := Fz.bind_inv d2
  obtain ⟨_, l4, y4, d2⟩ := Fz.bind_inv d2
  obtain ⟨dw, l5, y5, d2⟩ := Fz.bind_inv d2
  cases d2
  unfold Code.entry at y2
  obtain ⟨outs, l2', y2, y2'⟩ := Fz.bind_inv y2
  cases ho : outs[i]? with
  | none => rw [ho] at y2'; cases y2'
  | some w0 =>
    rw [ho] at y2'
    cases y2'
    unfold confN at x3
    split at x3
    case isFalse => cases x3
    cases x3
    rw [← p1] at x1
    rw [← p2] at y1
    obtain ⟨a', b', rfl, rfl, s1', s2', t', hv⟩ := tt_newVarsI x t _ _ _ _ x1 y1
    obtain ⟨a'', b'', rfl, rfl, s1'', s2'', t'', hout⟩ := tt_code f hf t'
      (VarsRel.append t' hv.vl (he.later s1' s2')) _ _ _ _ x2 y2
    -- the adjoints of the second side
    have z2 : ∀ nd ∈ b''.g.nodes.drop B.n2, b''.adj nd.pos = Arith.zero := by
      obtain ⟨is, hi, rfl⟩ := names_of m2
      rw [p2] at y1
      obtain ⟨l, new, hl, hrun, -⟩ := begin_code_replay hi hf b2 y1 y2
      rw [run_cons, Fz.exec_begin b2] at hrun
      have hrb := Reach.snoc r2 (k := .begin) trivial (Fz.exec_begin b2)
      obtain ⟨-, hz⟩ := makes_zero hrb hl hrun
      intro nd hnd
      obtain ⟨j, hj⟩ := List.mem_iff_getElem?.mp hnd
      rw [List.getElem?_drop] at hj
      have hat : b''.g.At ⟨B.n2 + j + 1⟩ nd := ⟨by simp, by simpa using hj⟩
      have hlt := (List.getElem?_eq_some_iff.mp hj).1
      obtain ⟨v, e, hv⟩ := hz ⟨B.n2 + j + 1⟩ ((mem_existing t''.inv2).mpr ⟨by simp, by simpa using hlt⟩) (by
        rw [mem_existing K2.inv]
        rintro ⟨-, hc⟩
        simp only at hc
        omega)
      rw [t''.inv2.seen hat] at e
      cases e
      exact hv
    have hx := hv.later s1'' s2''
    have hgo : VarRel B a'' b'' (nth fv i) w ∧ fv[i]? = some (nth fv i) := by
      have hlt : i < fv.length := by rw [hout.length]; exact (List.getElem?_eq_some_iff.mp ho).1
      have := List.Forall₂.get hout hlt (hout.length ▸ hlt)
      rw [List.getElem?_eq_some_iff] at ho
      obtain ⟨ho1, ho2⟩ := ho
      have e : nth fv i = fv[i] := by simp [nth, List.getD_eq_getElem?_getD, List.getElem?_eq_getElem hlt]
      rw [e]
      refine ⟨?_, List.getElem?_eq_getElem hlt⟩
      simpa [ho2] using this
    have y3' := Var.val_st y3
    subst y3'
    have x4' := vals_st x4
    subst x4'
    refine ⟨?_, jacLoop_rows t'' hB z2 hx t''.inv1 rfl (t''.nest1 hB) hout x5 ho y4 y5⟩
    rw [t''.inv1.varVals hout.has1] at x4
    rw [t''.inv2.varVal hgo.1.has2] at y3
    injection x4 with x4
    injection x4 with x4 _
    injection y3 with y3
    injection y3 with y3 _
    rw [← x4, ← y3, List.getElem?_map, hgo.2, Option.map_some, t''.pr_val hgo.1.pr]

/-! ## C45 -/

/-- **C45**: `set_zero_all_adj` and then a sweep give the same adjoints whatever sweeps and resets were done before. -/
theorem C45_reset (hr : Reach h c) {l : List (Call R)} (hl : ∀ k ∈ l, k.onAdjoints = true) {i : Nat} {d d' : Client W}
    (hx : run [.zeroAll, .grad i] c = .ok d) (hx' : run (l ++ [.zeroAll, .grad i]) c = .ok d') :
    ∀ v ∈ existing c.st, ∃ w : View R, seen d.st v = .ok w ∧ seen d'.st v = .ok w := by
  obtain ⟨g, val, adj, G⟩ := hr.good
  have key : ∀ {c d : Client W} {adj : Nat → R}, Good c g val adj → run [.zeroAll, .grad i] c = .ok d →
      Good d g val (sweep val g.nodes (Fz.upd (fun _ => Arith.zero) (g.pos (nth c.env i)) Arith.one)) := by
    intro c d adj G hx
    rw [run_cons] at hx
    cases e1 : (Call.zeroAll : Call R).exec c with
    | error _ => rw [e1] at hx; cases hx
    | ok c1 =>
      rw [e1] at hx
      have e1' : c.keep (setZeroAllAdj (W := W)) = .ok c1 := by
        unfold Call.exec at e1
        rw [if_pos (by simp [Call.args])] at e1
        exact e1
      obtain ⟨a, G1, hz, m, rfl⟩ := G.zeroAll e1'
      have G1' : Good _ g val (fun _ => Arith.zero) :=
        { G1 with inv := { G1.inv with recs := fun nd hn => by rw [← hz nd hn]; exact G1.inv.recs nd hn } }
      have e2 : (Call.grad i : Call R).exec ⟨c.st.withMem m, c.env, c.marks⟩ = .ok d := by
        change run [Call.grad i] _ = _ at hx
        rw [run_cons] at hx
        cases e2 : (Call.grad i : Call R).exec ⟨c.st.withMem m, c.env, c.marks⟩ with
        | error _ => rw [e2] at hx; cases hx
        | ok d' => rw [e2] at hx; cases hx; rfl
      unfold Call.exec at e2
      split at e2
      case isFalse => cases e2
      rename_i ha
      exact (G1'.grad (v := nth c.env i) (nth_mem (ha i (by simp [Call.args]))) e2).2.1
  have D := key G hx
  rw [run_append] at hx'
  cases e : run l c with
  | error _ => rw [e] at hx'; cases hx'
  | ok c1 =>
    rw [e] at hx'
    obtain ⟨a1, G1, m1, rfl⟩ := onAdjoints_run G hl e
    have D' := key G1 hx'
    intro v hv
    obtain ⟨nd, h1, -⟩ := ((mem_existing G.inv).mp hv).at
    exact ⟨_, D.inv.seen h1, D'.inv.seen h1⟩

/-- two calls in a row -/
theorem run_two {k k' : Call R} {d : Client W} (hx : run [k, k'] c = .ok d) :
    ∃ c1 : Client W, k.exec c = .ok c1 ∧ k'.exec c1 = .ok d := by
  rw [run_cons] at hx
  cases e1 : k.exec c with
  | error _ => rw [e1] at hx; cases hx
  | ok c1 =>
    rw [e1] at hx
    change run [k'] c1 = _ at hx
    rw [run_cons] at hx
    cases e2 : k'.exec c1 with
    | error _ => rw [e2] at hx; cases hx
    | ok c2 => rw [e2] at hx; cases hx; exact ⟨c1, rfl, e2⟩

/-- **C45** in a region: `set_zero_nested_adj` and then `grad_nested` give the variables of the innermost region the same
adjoints whatever sweeps and resets were done before.  `n` is the first variable of the region. -/
theorem C45_nested (hr : Reach h c) {n : Nat} (hn : (currNestedVariHead : M W Nat) c.st = .ok (n, c.st))
    {l : List (Call R)} (hl : ∀ k ∈ l, k.onAdjoints = true) {i : Nat} {d d' : Client W}
    (hx : run [.zeroNested, .gradNested i] c = .ok d) (hx' : run (l ++ [.zeroNested, .gradNested i]) c = .ok d') :
    ∀ v : Var, n ≤ v.vi → v.vi < c.st.vhead → ∃ w : View R, seen d.st v = .ok w ∧ seen d'.st v = .ok w := by
  obtain ⟨g, val, adj, G⟩ := hr.good
  have key : ∀ {c0 d : Client W} {adj : Nat → R}, Good c0 g val adj → (∃ m, c0 = ⟨c.st.withMem m, c.env, c.marks⟩) →
      run [.zeroNested, .gradNested i] c0 = .ok d →
      ∃ b adj', n = b + 1 ∧ (∀ nd ∈ g.nodes.drop b, adj' nd.pos = Arith.zero) ∧
        ∀ hd, (∀ (k : Nat) (nd : Node R), k < b → g.nodes[k]? = some nd → nd.pos < hd) →
          Good d g val (sweep val (g.nodes.drop b) (Fz.upd (cutAt hd adj') (g.pos (nth c.env i)) Arith.one)) := by
    rintro c0 d adj G ⟨m0, rfl⟩ hx
    obtain ⟨c1, e1, e2⟩ := run_two hx
    have e1' : Client.keep ⟨c.st.withMem m0, c.env, c.marks⟩ (setZeroNestedAdj (W := W)) = .ok c1 := by
      unfold Call.exec at e1
      rw [if_pos (by simp [Call.args])] at e1
      exact e1
    obtain ⟨b, a, l0, hb, -, G1, hz, -, m, rfl⟩ := G.zeroNested e1'
    have hbn : n = b + 1 := by
      unfold currNestedVariHead at hn
      have l0' : 0 < c.st.level := l0
      have hmax : c.st.level ≤ maxNestedStack := G.max
      rw [bind_ok (get_ok _), if_pos l0'] at hn
      unfold rdNest at hn
      have hb' : c.st.nestVari c.st.level = b + 1 := hb
      rw [if_pos ⟨l0', hmax⟩, hb'] at hn
      cases hn
      rfl
    refine ⟨b, a, hbn, hz, fun hd old => ?_⟩
    have G1' := { G1 with inv := G1.inv.cutAdj old hz }
    unfold Call.exec at e2
    split at e2
    case isFalse => cases e2
    rename_i ha
    obtain ⟨b', -, hb', -, -, G2, -⟩ := G1'.gradNested (v := nth c.env i) (nth_mem (ha i (by simp [Call.args]))) e2
    have : b' = b := by
      have q1 : c.st.nestVari c.st.level = b + 1 := hb
      have q2 : c.st.nestVari c.st.level = b' + 1 := hb'
      omega
    subst this
    exact G2
  obtain ⟨b, a, hb, hz, D⟩ := key G ⟨c.st.tape.mem, rfl⟩ hx
  rw [run_append] at hx'
  cases e : run l c with
  | error _ => rw [e] at hx'; cases hx'
  | ok c1 =>
    rw [e] at hx'
    obtain ⟨a1, G1, hm1⟩ := onAdjoints_run G hl e
    obtain ⟨b', a', hb', hz', D'⟩ := key G1 hm1 hx'
    have : b' = b := by omega
    subst this
    intro v hv1 hv2
    have hvh := G.inv.vhead
    have hh : g.Has v := ⟨by omega, by omega⟩
    obtain ⟨nd, h1, -⟩ := hh.at
    have hlt : b' < g.nodes.length := by omega
    have hs := G.inv.wf.sorted
    have old : ∀ (k : Nat) (nd : Node R), k < b' → g.nodes[k]? = some nd → nd.pos < (g.nodes[b']).pos := by
      intro k nd hk e
      obtain ⟨hk', rfl⟩ := List.getElem?_eq_some_iff.mp e
      have := List.pairwise_iff_getElem.mp hs k b' hk' hlt hk
      simp only [Node.len] at this
      omega
    have new : ∀ x ∈ g.nodes.drop b', (g.nodes[b']).pos ≤ x.pos := by
      intro x hx
      obtain ⟨k, hk⟩ := List.mem_iff_getElem?.mp hx
      rw [List.getElem?_drop] at hk
      obtain ⟨hk', rfl⟩ := List.getElem?_eq_some_iff.mp hk
      rcases Nat.eq_zero_or_pos k with rfl | hk0
      · exact le_rfl
      · have := List.pairwise_iff_getElem.mp hs b' (b' + k) hlt hk' (by omega)
        simp only [Node.len] at this
        omega
    have hmem : nd ∈ g.nodes.drop b' := by
      apply List.mem_of_getElem? (i := v.vi - 1 - b')
      rw [List.getElem?_drop, ← h1.2]
      congr 1
      omega
    have e1 := (D _ old).inv.seen h1
    have e2 := (D' _ old).inv.seen h1
    refine ⟨_, e1, ?_⟩
    rw [e2]
    simp only [Node.view]
    congr 2
    refine sweep_from_eq val new (fun p hp => ?_) nd.pos (new nd hmem)
    by_cases hq : p = g.pos (nth c.env i)
    · subst hq; simp
    · rw [upd_ne _ _ hq, upd_ne _ _ hq, cutAt, cutAt, if_neg (by omega), if_neg (by omega)]

/-- sweeps and resets complete when the records fit -/
theorem adj_total {g : Graph R} {val : Nat → R} {n : Nat} (hf : ∀ nd ∈ g.nodes, nd.Fits val) (hle : n ≤ g.nodes.length) :
    ∀ {l : List (Call R)} {c : Client W} {adj : Nat → R}, Inv c.st g val adj → (∀ v ∈ c.env, g.Has v) →
      (∀ k ∈ l, k.onAdjoints = true ∧ (∀ i ∈ k.args, i < c.env.length) ∧ (k.global = true ∨ TopAt c.st n)) →
      ∃ m, run l c = .ok ⟨c.st.withMem m, c.env, c.marks⟩ := by
  intro l
  induction l with
  | nil => intro c adj _ _ _; exact ⟨c.st.tape.mem, rfl⟩
  | cons k l ih =>
    intro c adj i he hl
    obtain ⟨h1, h2, h3⟩ := hl k (by simp)
    have key : ∀ {op : M W Unit}, k.step c = c.keep op → (∃ m adj', op c.st = .ok ((), c.st.withMem m) ∧
        Inv (c.st.withMem m) g val adj') → ∃ m, run (k :: l) c = .ok ⟨c.st.withMem m, c.env, c.marks⟩ := by
      rintro op hs ⟨m, adj', e, i'⟩
      have ek : k.exec c = .ok ⟨c.st.withMem m, c.env, c.marks⟩ := by
        unfold Call.exec
        rw [if_pos h2, hs]
        unfold Client.keep
        rw [e]
      obtain ⟨m', e'⟩ := ih (c := ⟨c.st.withMem m, c.env, c.marks⟩) i' he fun k hk => hl k (by simp [hk])
      refine ⟨m', ?_⟩
      rw [run_cons, ek]
      exact e'
    have hvh := i.vhead
    cases k with
    | grad j =>
      have hh := nth_has he (h2 j (by simp [Call.args]))
      obtain ⟨m, e, i'⟩ := i.grad_ok hh hf
      exact key (op := (nth c.env j).grad) rfl ⟨m, _, e, i'⟩
    | gradNested j =>
      have ht : TopAt c.st n := by
        rcases h3 with h3 | h3
        · cases h3
        · exact h3
      have hh := nth_has he (h2 j (by simp [Call.args]))
      obtain ⟨m, e⟩ := gradNested_total i hh ht.1 ht.2.1 ht.2.2 hle fun nd hn => hf nd (List.mem_of_mem_drop hn)
      obtain ⟨-, m', em, i'⟩ := gradNested_run i (fun nd hn => Or.inr (hf nd hn)) hh ht.1 ht.2.1 ht.2.2 hle e
      rw [em] at e
      exact key (op := (nth c.env j).gradNested) rfl ⟨m', _, e, em ▸ i'⟩
    | zeroAll =>
      obtain ⟨m, a, e, i', -⟩ := i.setZeroAllAdj_ok
      exact key (op := setZeroAllAdj) rfl ⟨m, a, e, i'⟩
    | zeroNested =>
      have ht : TopAt c.st n := by
        rcases h3 with h3 | h3
        · cases h3
        · exact h3
      obtain ⟨m, a, e, i', -⟩ := Inv.zeroAdjLoop_ok n (g.nodes.length - n) i (by omega)
      refine key (op := setZeroNestedAdj) rfl ⟨m, a, ?_, i'⟩
      unfold setZeroNestedAdj
      have e2 : (rdNest c.st.nestVari c.st.level : M W Nat) c.st = .ok (n + 1, c.st) := by
        unfold rdNest; rw [if_pos ⟨ht.1, ht.2.1⟩, ht.2.2]; rfl
      rw [bind_ok (get_ok _), bind_ok e2, show c.st.vhead - (n + 1) = g.nodes.length - n by omega]
      exact e
    | _ => cases h1

end generic

/-! The hypotheses are met. -/

/-- for `C43_only_adjoints` and `C45_reset`: `demo`, which has left adjoints, and then sweeps from two variables -/
example : ∃ c d d' : Client ℝ, Reach demo c ∧ (∀ k ∈ ([.grad 2, .grad 0] : List (Call ℝ)), k.onAdjoints = true) ∧
    run [.zeroAll, .grad 2] c = .ok d ∧ run ([.grad 2, .grad 0] ++ [.zeroAll, .grad 2]) c = .ok d' := by
  obtain ⟨c, hr, hv, ha, hh, hl, ⟨v3, he⟩, g, val, adj, hf, hhas⟩ := demo_reach (W := ℝ)
  have hlen : c.env.length = 3 := by rw [he]; rfl
  have key : ∀ l : List (Call ℝ), (∀ k ∈ l, k = .zeroAll ∨ k = .grad 0 ∨ k = .grad 2) → ∃ d, run l c = .ok d := by
    intro l hl
    obtain ⟨m, e⟩ := adj_total (n := 0) hf.fits (by omega) (l := l) hf.inv hhas (by
      intro k hk
      rcases hl k hk with rfl | rfl | rfl <;> simp [Call.onAdjoints, Call.args, Call.global, hlen])
    exact ⟨_, e⟩
  obtain ⟨d, h1⟩ := key [.zeroAll, .grad 2] (by simp)
  obtain ⟨d', h2⟩ := key ([.grad 2, .grad 0] ++ [.zeroAll, .grad 2]) (by simp)
  exact ⟨c, d, d', hr, by simp [Call.onAdjoints], h1, h2⟩

/-- for `C45_nested`: after `demo` a region with a variable of its own, its product with an outer variable, and sweeps
of both kinds before the reset -/
example : ∃ c d d' : Client ℝ, Reach (demo ++ [.begin] ++ [.make (.newVals [5])] ++ [.make (.bin .mul 3 0)]) c ∧
    (currNestedVariHead : M ℝ Nat) c.st = .ok (4, c.st) ∧ c.st.vhead = 6 ∧
    (∀ k ∈ ([.grad 4, .gradNested 3] : List (Call ℝ)), k.onAdjoints = true) ∧
    run [.zeroNested, .gradNested 4] c = .ok d ∧
    run ([.grad 4, .gradNested 3] ++ [.zeroNested, .gradNested 4]) c = .ok d' := by
  obtain ⟨c, hr, he, hm, H⟩ := demo_here (W := ℝ)
  obtain ⟨e0, H0⟩ := H.begin (by simp [maxNestedStack])
  obtain ⟨s1, e1, H1⟩ := H0.newVar 5 (by simp [cap])
  obtain ⟨s2, e2, H2⟩ := H1.binary (v := ⟨4⟩) (w := ⟨1⟩) (by simp [Graph.Has, demoG, Graph.push])
    (by simp [Graph.Has, demoG, Graph.push]) (Arith.mul (R := ℝ)) .mulVV (by simp [cap])
  have e1' : (newVars [5] : M ℝ (List Var)) c.st.begun = .ok ([⟨4⟩], s1) := by
    unfold newVars
    rw [List.mapM_cons, bind_ok e1]
    rfl
  have H3 : Here s2 ⟨demoG.nodes ++ [⟨21, [], [], .dummy, .plain⟩, ⟨27, [21, 1], [], .mulVV, .plain⟩], []⟩
      (fun p => if p = 1 then 2 else if p = 7 then 3 else if p = 13 then 6 else if p = 21 then 5 else 10)
      (fun p => if p = 1 then 3 else if p = 7 then 2 else if p = 13 then 1 else 0) 35 [(21, 4)] unused := by
    refine H2.congr ?_ ?_
    · simp [Graph.push, Graph.pos, demoG, demoV, upd, Arith.mul]
      norm_num
    · simp [Graph.push, Graph.pos, demoG, demoA, upd, Arith.zero]
  obtain ⟨hl, ht, hv⟩ := H3.inner (l := [])
  have hfit : ∀ nd ∈ demoG.nodes ++ [⟨21, [], [], .dummy, .plain⟩, ⟨27, [21, 1], [], .mulVV, .plain⟩], nd.Fits
      (fun p => if p = 1 then (2 : ℝ) else if p = 7 then 3 else if p = 13 then 6 else if p = 21 then 5 else 10) := by
    intro nd hn
    simp only [demoG, List.cons_append, List.nil_append, List.mem_cons, List.not_mem_nil, or_false] at hn
    rcases hn with rfl | rfl | rfl | rfl | rfl <;> intro a
    · exact ⟨[], rfl⟩
    · exact ⟨[], rfl⟩
    · exact ⟨_, rfl⟩
    · exact ⟨[], rfl⟩
    · exact ⟨_, rfl⟩
  have e0' : (Call.begin (R := ℝ)).exec c = .ok ⟨c.st.begun, c.env, [3]⟩ := by
    unfold Call.exec
    rw [if_pos (by simp [Call.args])]
    unfold Call.step
    simp only [e0, hm, he]
    rfl
  have r1 := Reach.snoc hr (k := .begin) trivial e0'
  have r2 := Reach.snoc r1 (k := .make (.newVals [5])) trivial (exec_make (by simp [Make.args]) e1')
  have r3 := Reach.snoc r2 (k := .make (.bin .mul 3 0)) trivial
    (exec_make (vs := [⟨5⟩]) (by simp [Make.args, he]) (by
      rw [he]
      exact bind_ok (f := fun v => pure [v]) e2))
  have htop : TopAt s2 3 := ⟨by simp at hl; omega, by simp [maxNestedStack] at hl ⊢; omega, hv⟩
  have key : ∀ l : List (Call ℝ), (∀ k ∈ l, k = .zeroNested ∨ k = .grad 4 ∨ k = .gradNested 3 ∨ k = .gradNested 4) →
      ∃ d, run l (⟨s2, c.env ++ [⟨4⟩] ++ [⟨5⟩], [3]⟩ : Client ℝ) = .ok d := by
    intro l hl
    obtain ⟨m, e⟩ := adj_total (n := 3) hfit (by simp [demoG]) (l := l) (c := ⟨s2, c.env ++ [⟨4⟩] ++ [⟨5⟩], [3]⟩)
      H3.inv (by
        intro v hv
        rw [he] at hv
        simp only [List.cons_append, List.nil_append, List.mem_cons, List.not_mem_nil, or_false] at hv
        rcases hv with rfl | rfl | rfl | rfl | rfl <;> simp [Graph.Has, demoG]) (by
      intro k hk
      rcases hl k hk with rfl | rfl | rfl | rfl <;> simp [Call.onAdjoints, Call.args, Call.global, he, htop])
    exact ⟨_, e⟩
  obtain ⟨d, h1⟩ := key [.zeroNested, .gradNested 4] (by simp)
  obtain ⟨d', h2⟩ := key ([.grad 4, .gradNested 3] ++ [.zeroNested, .gradNested 4]) (by simp)
  refine ⟨_, d, d', r3, ?_, ?_, by simp [Call.onAdjoints], h1, h2⟩
  · unfold currNestedVariHead
    rw [bind_ok (get_ok _), if_pos htop.1]
    unfold rdNest
    rw [if_pos ⟨htop.1, htop.2.1⟩, hv]
    rfl
  · have := H3.inv.vhead
    simpa [demoG] using this

/-- `(x, e) ↦ (x*e₁, x + x*e₁)`, with three outer variables -/
def pairProg (outs : List Nat) : Prog := .op (.bin .mul 0 1) (.op (.bin .add 0 4) (.ret outs))

/-- for `C44_rows`: after `demo`, a function with two components that uses the variables of the caller -/
example : ∃ (c : Client ℝ) (z1 : List ℝ × List (List ℝ)) (z2 : ℝ × List ℝ) (s1 s2 : St ℝ), Reach demo c ∧ c.env ≠ [] ∧
    (pairProg [4, 5]).code.Sane ∧ jacobian ((pairProg [4, 5]).code.vector c.env) 2 [5] c.st = .ok (z1, s1) ∧
    gradient ((pairProg [4, 5]).code.entry 1 c.env) [5] c.st = .ok (z2, s2) := by
  obtain ⟨c, hr, hv, ha, hh, hl, ⟨v3, he⟩, g, val, adj, hf, hhas⟩ := demo_reach (W := ℝ)
  have hlen : c.env.length = 3 := by rw [he]; rfl
  have hy : [2, 3, 6] = c.env.map fun v => val (g.pos v) := by
    have := hf.inv.varVals hhas
    rw [hv] at this
    injection this with this
    injection this
  have hok : ∀ outs, (∀ i ∈ outs, i < 6) → (pairProg outs).Ok ([5] ++ [2, 3, 6]) := by
    intro outs ho
    simpa [pairProg, Prog.Ok, Instr.Ok, Instr.sem, Bin.domVV] using ho
  have hcost : ∀ outs, (pairProg outs).cost ([5] ++ [2, 3, 6]) = 16 := by
    intro outs
    simp [pairProg, Prog.cost, Instr.cost]
  have hroom : ∀ outs, Room c.st (pairProg outs) [5] [2, 3, 6] := by
    intro outs
    unfold Room
    rw [hh, hcost]
    simp [tapeLimit]
  have hnf : ∀ outs, NotFull c.st (6 * ([5] : List ℝ).length + (pairProg outs).cost ([5] ++ [2, 3, 6])) := by
    intro outs
    refine ⟨by rw [hh]; omega, fun j => ?_⟩
    rw [hh, hcost]
    have := Nat.one_le_two_pow (n := j)
    simp only [List.length_cons, List.length_nil]
    omega
  obtain ⟨y, df, s', e, -⟩ := jacobian_total (p := pairProg [4, 5]) (x := [5]) (ys := [2, 3, 6])
    (hf.weak (Or.inr trivial) fun _ => trivial) (by rw [hl]; simp [maxNestedStack]) hhas hy
    (hok _ (by simp)) (hroom _) (hnf _)
  obtain ⟨y2, df2, s2, e2, -⟩ := gradient_total (p := pairProg [5]) (x := [5]) (ys := [2, 3, 6])
    (hf.weak (Or.inr trivial) fun _ => trivial) (by rw [hl]; simp [maxNestedStack]) hhas hy
    (hok _ (by simp)) (hroom _) (by simp [pairProg, Prog.sem]) (hnf _)
  have hsc : ∀ outs, (∀ i ∈ outs, i < 6) → ∀ xv : List Var, xv.length = 1 →
      (pairProg outs).Scoped (xv ++ c.env).length := by
    intro outs ho xv hx
    simpa [pairProg, Prog.Scoped, Instr.names, Instr.arity, hx, hlen] using ho
  have hs : ((pairProg [4, 5]).sem ([5] ++ [2, 3, 6])).length = 2 := by simp [pairProg, Prog.sem]
  rw [hs] at e
  refine ⟨c, (y, df), (y2, df2), s', s2, hr, by rw [he]; simp, Prog.code_sane (by simp [pairProg, Prog.Sane, Instr.Sane]), ?_, ?_⟩
  · rw [← e]
    refine congrFun (jacobian_congr fun xv hx => ?_) _
    funext t
    exact Prog.code_run t (hsc _ (by simp) xv hx)
  · rw [← e2]
    refine congrFun (gradient_congr fun xv hx => ?_) _
    rw [Prog.code_entry (n := 2) (hsc _ (by simp) xv hx) (by simp [pairProg, Prog.Outs]) (by omega)]
    unfold Prog.scalarFn
    show ((Instr.run _ _ >>= fun vs => (Instr.run _ _ >>= fun vs' => pure _)) >>= _) = ((Instr.run _ _ >>= fun vs =>
      (Instr.run _ _ >>= fun vs' => pure _)) >>= _)
    simp only [Fz.bind_assoc']
    rfl

end Props
