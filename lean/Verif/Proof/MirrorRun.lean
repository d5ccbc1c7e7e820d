import Verif.Proof.MirrorSweep
import Verif.Proof.LiveRun
import Verif.Proof.Replay

/-!
# Histories with chain procedures left behind, and their twins
-/

set_option linter.unusedSectionVars false

namespace Fz
variable {W R : Type} [Arith R] [Rep W R]
open Arith Spec

section state
variable {T : Nat → Prop} {s t t' : St W}

theorem blind_begin : Blind T (beginNested : M W Unit) := by
  intro s t a t' h e
  unfold beginNested at e ⊢
  rw [h.level]
  dsimp only at e ⊢
  split at e
  · rename_i hl
    cases e
    rw [if_pos hl, h.vhead, h.nestVari, h.tape, h.nestTape]
    exact ⟨_, rfl, rfl, h.nVaris, rfl, rfl, rfl, rfl, h.idx, h.slot, h.tame⟩
  · cases e

theorem blind_rdNest (f : Nat → Nat) (k : Nat) : Blind T (rdNest f k : M W Nat) := .ite (.pure _) (blind_fail _)

theorem blind_end : Blind T (endNested : M W Unit) := by
  intro s t a t' h e
  unfold endNested at e ⊢
  rw [bind_ok (get_ok _)] at e ⊢
  rw [h.level, h.nestTape, h.nestVari]
  split at e
  · rename_i hl
    rw [if_pos hl]
    refine Mirrors.bind (T := T) (blind_rdNest _ _) (fun lo => .bind (blind_rdNest _ _) fun vlo =>
      .bind (blind_modTape _) fun _ => ?_) s t a t' h e
    intro s t a t' h e
    cases e
    refine ⟨_, rfl, rfl, h.nVaris, ?_, ?_, ?_, ?_, h.idx, h.slot, h.tame⟩
    · dsimp only; rw [h.tape]
    · dsimp only; rw [h.nestTape, h.level]
    · dsimp only; rw [h.nestVari, h.level]
    · dsimp only; rw [h.level]
  · rename_i hl
    rw [if_neg hl]
    cases e
    exact ⟨s, rfl, h⟩

theorem blind_assign1d : ∀ (vs : List Var) (ds : List R), Blind T (Var.assign1d vs ds : M W Unit)
  | [], _ => .pure _
  | _ :: _, [] => blind_fail _
  | v :: vs, d :: ds => .bind (blind_assign v d) fun _ => blind_assign1d vs ds

theorem blind_assignAll (d : R) : ∀ (vs : List Var), Blind T (Var.assign1dFrom0d vs d : M W Unit)
  | [] => .pure _
  | v :: vs => .bind (blind_assign v d) fun _ => blind_assignAll d vs

theorem blind_zeroLoop (lo : Nat) : ∀ n, Blind T (zeroAdjLoop (R := R) lo n : M W Unit)
  | 0 => .pure _
  | n + 1 => blind_getVari _ fun _ _ _ => .bind (blind_modTape _) fun _ => blind_zeroLoop lo n

theorem blind_zeroAll : Blind T (setZeroAllAdj (R := R) : M W Unit) := by
  intro s t a t' h e
  unfold setZeroAllAdj at e ⊢
  rw [bind_ok (get_ok _)] at e ⊢
  rw [h.vhead]
  exact blind_zeroLoop _ _ _ _ _ _ h e

theorem blind_zeroNested : Blind T (setZeroNestedAdj (R := R) : M W Unit) := by
  intro s t a t' h e
  unfold setZeroNestedAdj at e ⊢
  rw [bind_ok (get_ok _)] at e ⊢
  rw [h.vhead, h.level, h.nestVari]
  exact Mirrors.bind (T := T) (blind_rdNest _ _) (fun _ => blind_zeroLoop _ _) _ _ _ _ h e

/-- mark the free slots -/
def scrub (t : St W) : St W :=
  { t with varis := fun k => if t.vhead ≤ k ∧ k ≤ t.nVaris then ⟨(t.varis k).i, mark⟩ else t.varis k }

theorem Akin.scrub (h : Akin T s t) (hT : ∀ k, t.vhead ≤ k → T k) : Akin T s (scrub t) := by
  refine ⟨h.vhead, h.nVaris, h.tape, h.nestTape, h.nestVari, h.level, fun k => ?_, fun k => ?_, h.tame⟩
  · unfold Fz.scrub
    dsimp only
    split
    · exact h.idx k
    · exact h.idx k
  · unfold Fz.scrub
    dsimp only
    split
    · rename_i hk
      exact Or.inr ⟨rfl, h.tame k (hT k hk.1)⟩
    · exact h.slot k

end state

variable [LawfulRep W R] {s t t' : St W} {g : Graph R} {val adj : Nat → R}

theorem Inv.scrub (h : Inv t g val adj) : Inv (scrub t) g val adj := by
  refine ⟨h.ok, h.wf, h.vhead, h.vcap, h.vmax, h.vform, ?_, ?_, h.recs, h.blks⟩
  · intro k hk
    have hv := h.vhead
    unfold Fz.scrub
    dsimp only
    rw [if_neg]
    · exact h.vdef k hk
    · rintro ⟨h1, h2⟩
      rcases hk with rfl | hk
      · omega
      · have : t.nVaris < k := hk
        omega
  · intro k nd hk
    have hv := h.vhead
    have hlt := (List.getElem?_eq_some_iff.mp hk).1
    unfold Fz.scrub
    dsimp only
    rw [if_neg (by omega)]
    exact h.tab k nd hk

theorem mark_takes : mark.Takes 0 ([] : List R) :=
  takes_user ⟨rfl, Or.inl rfl, Or.inl rfl, by simp⟩

theorem Inv.scrub_clean (h : Inv t g val adj) : Clean R (Fz.scrub t) := by
  intro k hk
  have hk' : t.vhead ≤ k := hk
  by_cases hn : k ≤ t.nVaris
  · unfold Fz.scrub
    dsimp only
    rw [if_pos ⟨hk', hn⟩]
    exact mark_takes
  · rw [h.scrub.vdef k (Or.inr (by show t.nVaris < k; omega))]
    exact takes_dummy

theorem Good.scrub {d : Client W} (h : Good d g val adj) : Good ⟨Fz.scrub d.st, d.env, d.marks⟩ g val adj :=
  ⟨h.inv.scrub, h.cok, h.has, h.lvl, h.max, h.nest⟩

/-- the first slot that may be freed while the regions now open are closed -/
def base (d : Client W) : Nat := if d.marks = [] then d.st.vhead else d.st.nestVari 1

theorem NestOK.base_le {nv nt : Nat → Nat} : ∀ {ms : List Nat} {g : Graph R} {hd : Nat} {env : List Var},
    NestOK nv nt ms g hd env → ms ≠ [] → nv 1 ≤ g.nodes.length + 1
  | [], _, _, _, _, hne => (hne rfl).elim
  | [m], g, hd, env, h, _ => by
    obtain ⟨n, b, h1, h2, -⟩ := h
    simp only [List.length_nil, Nat.zero_add] at h1
    omega
  | m :: m' :: ms, g, hd, env, h, _ => by
    obtain ⟨n, b, h1, h2, h3, h4, h5, h6, h7, h8, h9⟩ := h
    have := NestOK.base_le h9 (by simp)
    simp only [Graph.cut, List.length_take] at this
    omega

theorem Good.base_le {d : Client W} (h : Good d g val adj) : base d ≤ d.st.vhead := by
  unfold base
  split
  · exact Nat.le_refl _
  · rename_i hm
    have := h.nest.base_le hm
    rw [h.inv.vhead]
    simpa [Graph.erase] using this

/-- `d` is the twin of `c` in which no chain procedure is left behind -/
structure Shadow (c d : Client W) (g : Graph R) (val adj : Nat → R) : Prop where
  env : d.env = c.env
  marks : d.marks = c.marks
  sound : Sound false d g val adj
  alike : Akin (fun k => base d ≤ k) c.st d.st

theorem shadow_init (val adj : Nat → R) : Shadow (Client.init : Client W) Client.init Graph.empty val adj :=
  ⟨rfl, rfl, sound_init val adj, .same fun _ _ => trivial⟩

variable {c d : Client W}

/-- both read the same values -/
theorem Shadow.vals (h : Shadow c d g val adj) {vs : List Var} (hv : ∀ v ∈ vs, v ∈ c.env) {ys : List R}
    (e : (Fz.vals vs : M W (List R)) c.st = .ok (ys, c.st)) : (Fz.vals vs : M W (List R)) d.st = .ok (ys, d.st) := by
  have e1 := h.sound.good.inv.varVals (vs := vs) fun v hm => h.sound.good.has v (by rw [h.env]; exact hv v hm)
  obtain ⟨s', e2, -⟩ := blind_vals _ _ _ _ _ h.alike e1
  rw [e] at e2
  cases e2
  exact e1

theorem Shadow.proper (h : Shadow c d g val adj) {k : Call R} (hk : k.Proper false c) : k.Proper false d := by
  obtain ⟨ha, hk⟩ := hk
  refine ⟨by rw [h.env]; exact ha, ?_⟩
  cases k with
  | make m =>
    obtain ⟨h1, h2, ys, h3, h4, h5⟩ := hk
    refine ⟨h1, h2, ys, ?_, h4, ?_⟩
    · rw [h.env]
      exact h.vals (fun v hv => hv) h3
    · rw [← h.alike.tape]
      exact h5
  | gradNested i => show d.marks ≠ []; rw [h.marks]; exact hk
  | zeroNested => show d.marks ≠ []; rw [h.marks]; exact hk
  | begin => show d.marks.length < 10; rw [h.marks]; exact hk
  | done => show d.marks = [] ∨ _; rw [h.marks, ← h.alike.tape]; exact hk
  | assignArr is ds => exact hk
  | _ => trivial

theorem keep_inv {m : M W Unit} {d' : Client W} (e : d.keep m = .ok d') :
    m d.st = .ok ((), d'.st) ∧ d'.env = d.env ∧ d'.marks = d.marks := by
  unfold Client.keep at e
  split at e
  · rename_i u s' he
    cases e
    exact ⟨he, rfl, rfl⟩
  · cases e

theorem Akin.taming {T' T : Nat → Prop} {s t : St W} (h : Akin T' s t) (ht : ∀ k, T k → (t.varis k).chain.Tame) :
    Akin T s t := by
  refine ⟨h.vhead, h.nVaris, h.tape, h.nestTape, h.nestVari, h.level, h.idx, h.slot, fun k hk => ?_⟩
  rcases h.slot k with e | ⟨-, e⟩
  · rw [e]; exact ht k hk
  · exact e

theorem ruleSuits_fits {n m : Nat} {r : URule} (h : ruleSuits n m r) : r.fits = true := by
  cases r with
  | fixed k l es => exact h.1
  | each l e => exact h.1

/-- calls that write to the tape only -/
theorem Shadow.side (h : Shadow c d g val adj) {k : Call R} {mL : Junk W R → M W Unit} {m : M W Unit}
    (hL : ∀ J, k.execL J c = c.keep (mL J)) {mem : Nat → W} (e : m d.st = .ok ((), d.st.withMem mem))
    {val' adj' : Nat → R} (hi : Inv (d.st.withMem mem) g val' adj')
    (hm : ∀ t', m d.st = .ok ((), t') → ∃ s', (∀ J, mL J c.st = .ok ((), s')) ∧ Akin (fun k => base d ≤ k) s' t') :
    ∃ c', (∀ J : Junk W R, k.execL J c = .ok c') ∧
      ∃ (d' : Client W) (g' : Graph R) (val' adj' : Nat → R), Shadow c' d' g' val' adj' := by
  obtain ⟨s', e', ha⟩ := hm _ e
  refine ⟨⟨s', c.env, c.marks⟩, fun J => by rw [hL J, keep_eq (e' J)], ⟨d.st.withMem mem, d.env, d.marks⟩, g, val', adj',
    h.env, h.marks, h.sound.upd hi, ha⟩

theorem Shadow.make (h : Shadow c d g val adj) {m : Make R} (hk : (Call.make m).ProperL c) :
    ∃ r s' t' g' val' adj', m.call c.env c.st = .ok (r, s') ∧ m.call d.env d.st = .ok (r, t') ∧
      Evo anyPos d.st g val adj t' g' val' adj' ∧ (∀ v ∈ r, g'.Has v) ∧
      (∀ ys : List R, (Fz.vals d.env : M W (List R)) d.st = .ok (ys, d.st) → t'.tape.head = d.st.tape.head + m.words ys) ∧
      Shadow ⟨s', c.env ++ r, c.marks⟩ ⟨t', d.env ++ r, d.marks⟩ g' val' adj' := by
  have hkd := h.proper hk.1
  have ha := hk.1.1
  have G := h.sound.good
  have hA := h.alike
  have hb := G.base_le
  obtain ⟨had, hs, hr, ys, hy, hm, hroom⟩ := hkd
  obtain ⟨r, t', g', val', adj', e, ev, ⟨l, hl, hf⟩, hh, hq⟩ :=
    make_live G.inv h.sound.clean (ValL.ofRead G.inv G.has hy) m had hs hr hm hroom
  have hu : ∀ x r is ds, m = .user x r is ds → r.fits = true := by
    rintro x r is ds rfl
    exact ruleSuits_fits hm
  have hS : Sound false ⟨t', d.env ++ r, d.marks⟩ g' val' adj' := by
    refine ⟨G.ofEvo ev hq, ?_, fun _ => ev.keep.clean (h.sound.clean rfl)⟩
    intro nd hn
    rw [hl] at hn
    rcases List.mem_append.mp hn with hn | hn
    · exact h.sound.fits nd hn
    · exact hf nd hn
  obtain ⟨s', e', ha'⟩ : ∃ s', m.call d.env c.st = .ok (r, s') ∧
      Akin (fun k => base ⟨t', d.env ++ r, d.marks⟩ ≤ k) s' t' := by
    by_cases hp : m.product = true
    · have h0 : d.marks = [] := by rw [h.marks]; exact hk.2 hp
      obtain ⟨s', e', ha'⟩ := blind_make (T := fun _ => False) m d.env (fun _ _ hF => hF) hu _ _ _ _
        (hA.weaken fun _ hF => hF.elim) e
      refine ⟨s', e', ha'.taming fun k hk => ?_⟩
      have hk' : t'.vhead ≤ k := by simpa [base, h0] using hk
      rw [ev.keep.slots k hk']
      exact hA.tame' (by
        show base d ≤ k
        have := ev.keep.vhead
        omega)
    · obtain ⟨s', e', ha'⟩ := blind_make (T := fun k => base d ≤ k) m d.env (fun h => (hp h).elim) hu _ _ _ _ hA e
      refine ⟨s', e', ha'.weaken fun k hk => ?_⟩
      refine Nat.le_trans ?_ hk
      unfold base
      dsimp only
      split
      · exact ev.keep.vhead
      · rw [ev.keep.nestVari]
  refine ⟨r, s', t', g', val', adj', by rw [← h.env]; exact e', e, ev, hq, fun ys' hy' => ?_, by rw [h.env], h.marks, hS,
    ha'⟩
  rw [hy] at hy'
  cases hy'
  exact hh

theorem Shadow.exec (h : Shadow c d g val adj) {k : Call R} (hk : k.ProperL c) :
    ∃ c', (∀ J : Junk W R, k.execL J c = .ok c') ∧
      ∃ (d' : Client W) (g' : Graph R) (val' adj' : Nat → R), Shadow c' d' g' val' adj' := by
  have hkd := h.proper hk.1
  have ha := hk.1.1
  have had := hkd.1
  have G := h.sound.good
  have hA := h.alike
  have hb := G.base_le
  obtain ⟨-, hkd⟩ := hkd
  cases k with
  | make m =>
    obtain ⟨r, s', t', g', val', adj', e, -, -, -, -, S⟩ := h.make hk
    refine ⟨_, fun J => ?_, _, _, _, _, S⟩
    unfold Call.execL
    rw [if_pos ha]
    simp only [Call.step, e]
  | assign i v =>
    rw [h.env] at had
    obtain ⟨m, e, i'⟩ := G.inv.assign_ok (G.has _ (by rw [h.env]; exact nth_mem (ha i (by simp [Call.args])))) v
    refine h.side (mL := fun _ => (nth c.env i).assign v) (fun J => ?_) e i' fun t' e => ?_
    · unfold Call.execL
      rw [if_pos ha]
      rfl
    · obtain ⟨s', e', ha'⟩ := blind_assign _ _ _ _ _ _ hA e
      exact ⟨s', fun _ => e', ha'⟩
  | assignArr is ds =>
    obtain ⟨m, val', e, i'⟩ := assign1d_live (is.map (nth c.env)) ds G.inv
      (by
        intro v hv
        obtain ⟨i, hi, rfl⟩ := List.mem_map.mp hv
        exact G.has _ (by rw [h.env]; exact nth_mem (ha i hi))) (by simpa using Nat.le_of_eq hkd)
    refine h.side (mL := fun _ => Var.assign1d (is.map (nth c.env)) ds) (fun J => ?_) e i' fun t' e => ?_
    · unfold Call.execL
      rw [if_pos ha]
      rfl
    · obtain ⟨s', e', ha'⟩ := blind_assign1d _ _ _ _ _ _ hA e
      exact ⟨s', fun _ => e', ha'⟩
  | assignAll is v =>
    obtain ⟨m, val', e, i'⟩ := assign1dFrom0d_live v (is.map (nth c.env)) G.inv
      (by
        intro v hv
        obtain ⟨i, hi, rfl⟩ := List.mem_map.mp hv
        exact G.has _ (by rw [h.env]; exact nth_mem (ha i hi)))
    refine h.side (mL := fun _ => Var.assign1dFrom0d (is.map (nth c.env)) v) (fun J => ?_) e i' fun t' e => ?_
    · unfold Call.execL
      rw [if_pos ha]
      rfl
    · obtain ⟨s', e', ha'⟩ := blind_assignAll _ _ _ _ _ _ hA e
      exact ⟨s', fun _ => e', ha'⟩
  | grad i =>
    have hv : g.Has (nth c.env i) := G.has _ (by rw [h.env]; exact nth_mem (ha i (by simp [Call.args])))
    obtain ⟨m, e, i'⟩ := G.inv.grad_ok hv fun nd hn => h.sound.fits nd hn _
    refine h.side (mL := fun J => (nth c.env i).gradL J) (fun J => ?_) e i' fun t' e =>
      gradL_mirror hA G.inv (fun nd hn => h.sound.fits nd hn _) hv e
    unfold Call.execL
    rw [if_pos ha]
  | gradNested i =>
    have hm : nth c.env i ∈ d.env := by rw [h.env]; exact nth_mem (ha i (by simp [Call.args]))
    obtain ⟨m, a, e, i'⟩ := G.gradNested_any h.sound.fits hkd hm
    have hl := G.level_pos hkd
    obtain ⟨mk, ms, n, b, -, -, r1, -⟩ := G.region hl
    refine h.side (mL := fun J => (nth c.env i).gradNestedL J) (fun J => ?_) e i' fun t' e =>
      gradNestedL_mirror hA G.inv (fun nd hn => h.sound.fits nd hn _) (G.has _ hm) hl G.max (by omega) e
    unfold Call.execL
    rw [if_pos ha]
  | zeroAll =>
    obtain ⟨m, a, e, i', -⟩ := G.inv.setZeroAllAdj_ok
    refine h.side (mL := fun _ => setZeroAllAdj (R := R)) (fun J => ?_) e i' fun t' e => ?_
    · unfold Call.execL
      rw [if_pos ha]
      rfl
    · obtain ⟨s', e', ha'⟩ := blind_zeroAll _ _ _ _ hA e
      exact ⟨s', fun _ => e', ha'⟩
  | zeroNested =>
    have hl := G.level_pos hkd
    obtain ⟨mk, ms, n, b, hm, hlv, r1, r2, -⟩ := G.region hl
    obtain ⟨m, a, e, i'⟩ := zeroNested_any G.inv hl G.max r1 r2
    refine h.side (mL := fun _ => setZeroNestedAdj (R := R)) (fun J => ?_) e i' fun t' e => ?_
    · unfold Call.execL
      rw [if_pos ha]
      rfl
    · obtain ⟨s', e', ha'⟩ := blind_zeroNested _ _ _ _ hA e
      exact ⟨s', fun _ => e', ha'⟩
  | begin =>
    have hl : d.st.level < maxNestedStack := by rw [G.lvl]; exact hkd
    obtain ⟨t0, e0⟩ : ∃ t0, (beginNested : M W Unit) d.st = .ok ((), t0) := ⟨_, beginNested_ok d.st hl⟩
    obtain ⟨G0, -, -, -, hst⟩ := G.begin (c' := ⟨t0, d.env, d.env.length :: d.marks⟩) (by unfold Call.step; simp only [e0])
    simp only at hst
    obtain ⟨s0, e1, h1⟩ := blind_begin _ _ _ _ hA e0
    refine ⟨⟨s0, c.env, c.env.length :: c.marks⟩, fun J => ?_, ⟨t0, d.env, d.env.length :: d.marks⟩, g, val, adj, h.env,
      by rw [h.env, h.marks], ⟨G0, h.sound.fits, fun _ => ?_⟩, ?_⟩
    · unfold Call.execL
      rw [if_pos ha]
      simp only [Call.step, e1]
    · have := h.sound.clean rfl
      unfold Clean at this ⊢
      rw [hst]
      exact this
    · have : base ⟨t0, d.env, d.env.length :: d.marks⟩ = base d := by
        have hlv := G.lvl
        unfold base
        rw [hst]
        cases hm : d.marks with
        | nil =>
          rw [hm] at hlv
          simp only [List.length_nil] at hlv
          simp [hlv]
        | cons m ms =>
          rw [hm] at hlv
          simp [hlv]
      rw [this]
      exact h1
  | done =>
    obtain ⟨d', e⟩ := G.done_ok hkd
    have e' : ∃ t, (endNested : M W Unit) d.st = .ok ((), t) ∧ d'.st = t := by
      unfold Call.step at e
      simp only at e
      split at e
      · rename_i u t ht
        cases e
        exact ⟨t, ht, rfl⟩
      · cases e
    obtain ⟨t, e1, rfl⟩ := e'
    obtain ⟨s', e2, h2⟩ := blind_end _ _ _ _ hA e1
    have hcl : ∀ J : Junk W R, (Call.done : Call R).execL J c = .ok ⟨s', d'.env, d'.marks⟩ := by
      intro J
      unfold Call.execL
      rw [if_pos ha]
      unfold Call.step at e ⊢
      simp only [e1] at e
      simp only [e2]
      have e3 := Except.ok.inj e
      rw [← congrArg Client.env e3, ← congrArg Client.marks e3, h.env, h.marks]
    rcases G.done e with ⟨hl0, rfl⟩ | ⟨m, ms, n, b, hm, hlv, hv, hle, -, -, G', h3, h4, -, h5, h6, h7, -, -, h8⟩
    · refine ⟨_, hcl, ⟨Fz.scrub d'.st, d'.env, d'.marks⟩, g, val, adj, rfl, rfl, ⟨G.scrub, h.sound.fits, fun _ =>
        G.inv.scrub_clean⟩, ?_⟩
      exact h2.scrub fun k hk => Nat.le_trans hb hk
    · have hb' := G'.base_le
      have hbe : base d' = base d := by
        unfold base
        rw [h4, hm]
        cases ms with
        | nil =>
          simp only [List.length_nil, Nat.zero_add] at hlv
          simp only [if_true, reduceCtorEq, if_false]
          rw [h5, ← hv, hlv]
        | cons m' ms =>
          simp only [reduceCtorEq, if_false]
          simp only [List.length_cons] at hlv
          exact (h8 1 (by omega)).2
      refine ⟨_, hcl, ⟨Fz.scrub d'.st, d'.env, d'.marks⟩, _, val, adj, rfl, rfl, ⟨G'.scrub,
        fun nd hn => h.sound.fits nd (List.mem_of_mem_take hn), fun _ => G'.inv.scrub_clean⟩, ?_⟩
      have : base ⟨Fz.scrub d'.st, d'.env, d'.marks⟩ = base d' := rfl
      rw [this, hbe]
      exact h2.scrub fun k hk => by omega

/-! ## gradients -/

section asks
variable {T : Nat → Prop}

theorem code_mirror (hc : Commutes R) (f : Code R) : ∀ {s t t' : St W} {g : Graph R} {val adj : Nat → R} {env : List Var}
    {ys : List R} {outs : List Var}, Akin T s t → Inv t g val adj → Clean R t → ValL ys env g val → f.Sane → f.Plain →
    f.Regular → f.Meets false ys → f.NoProduct → t.tape.head + f.words ys ≤ cap →
    (f.run env : M W (List Var)) t = .ok (outs, t') →
    ∃ s', (f.run env : M W (List Var)) s = .ok (outs, s') ∧ Akin T s' t' := by
  induction f with
  | ret is =>
    intro s t t' g val adj env ys outs hA h _ hy _ _ _ hm _ _ e
    have hl := hy.length_eq
    unfold Code.run at e ⊢
    rw [if_pos (by rw [← hl]; exact hm)] at e ⊢
    cases e
    exact ⟨s, rfl, hA⟩
  | make m k ih =>
    intro s t t' g val adj env ys outs hA h hcl hy hs hp hr hm hn hroom e
    have hl := hy.length_eq
    obtain ⟨ha, hm, hk⟩ := hm
    rw [hl] at ha
    unfold Code.run at e ⊢
    rw [if_pos ha] at e ⊢
    simp only [Code.words] at hroom
    obtain ⟨vs, t1, g1, val1, adj1, e1, ev, -, hh, hv⟩ :=
      make_live h (closed := false) (fun _ => hcl) hy m ha hs.1 hr.1 hm (by omega)
    obtain ⟨g2, val2, adj2, ev2, hv2⟩ := make_gives hc h hy m ha hs.1 hp.1 vs t1 e1
    have hy' : ValL (ys ++ m.plain ys) (env ++ vs) g1 val1 :=
      List.rel_append (ev.valL h hy) (ValL.ofRead ev.inv hv (hv2.read ev2.inv))
    rw [bind_ok e1] at e
    obtain ⟨s1, e1', h1⟩ := blind_make (T := T) m env (fun h => by rw [hn.1] at h; cases h) (by
      rintro x r is ds rfl
      exact ruleSuits_fits hm) _ _ _ _ hA e1
    rw [bind_ok e1']
    exact ih h1 ev.inv (ev.keep.clean hcl) hy' hs.2 hp.2 hr.2 hk hn.2 (by omega) e
  | look i k ih =>
    intro s t t' g val adj env ys outs hA h hcl hy hs hp hr hm hn hroom e
    have hl := hy.length_eq
    obtain ⟨hi, hm⟩ := hm
    rw [hl] at hi
    have hrd := (hy.entry hi).read h
    obtain ⟨s1, e1', h1⟩ := blind_val _ _ _ _ _ hA hrd
    unfold Code.run at e ⊢
    rw [if_pos hi] at e ⊢
    rw [bind_ok hrd] at e
    rw [bind_ok e1']
    exact ih _ h1 h hcl hy (hs _) (hp _) (hr _) hm (hn _) hroom e

/-- the region begins, the inputs are made, the function is evaluated -/
theorem Shadow.began (hc : Commutes R) (h : Shadow c d g val adj) {x ys : List R} (hl : d.st.level < maxNestedStack)
    {e : List Var} (hy : ValL ys e g val) {f : Code R} (hs : f.Sane) (hp : f.Plain) (hr : f.Regular)
    (hm : f.Meets false (x ++ ys)) (hn : f.NoProduct)
    (hroom : d.st.tape.head + (6 * x.length + f.words (x ++ ys)) ≤ tapeLimit) :
    ∃ s0 t0 xv s1 t1 outs s2 t2 g' val' adj',
      ((beginNested : M W Unit) c.st = .ok ((), s0) ∧ (beginNested : M W Unit) d.st = .ok ((), t0)) ∧
      ((newVars x : M W (List Var)) s0 = .ok (xv, s1) ∧ (newVars x : M W (List Var)) t0 = .ok (xv, t1)) ∧
      ((f.run (xv ++ e) : M W (List Var)) s1 = .ok (outs, s2) ∧ (f.run (xv ++ e) : M W (List Var)) t1 = .ok (outs, t2)) ∧
      (Fz.vals outs : M W (List R)) s2 = .ok (f.plain (x ++ ys), s2) ∧
      Began d g val adj x.length xv outs (6 * x.length + f.words (x ++ ys)) t2 g' val' adj' ∧
      Akin (fun k => base d ≤ k) s2 t2 := by
  have G := h.sound.good
  obtain ⟨t0, e0⟩ : ∃ t0, (beginNested : M W Unit) d.st = .ok ((), t0) := ⟨_, beginNested_ok d.st hl⟩
  obtain ⟨G0, -, -, -, hst⟩ := G.begin (c' := ⟨t0, d.env, d.env.length :: d.marks⟩) (by unfold Call.step; simp only [e0])
  simp only at hst
  have i0 := G0.inv
  have hcl0 : Clean R t0 := by
    have := h.sound.clean rfl
    unfold Clean at this ⊢
    rw [hst]
    exact this
  obtain ⟨xv, t1, g1, val1, adj1, e1, ev1, -, hh1, hx, -⟩ := live_inputs x i0 (fun k hk _ => hcl0 k hk) (by
    rw [hst]
    show d.st.tape.head + _ ≤ cap
    have : cap = tapeLimit := rfl
    omega)
  have hv1 : ValL x xv g1 val1 := by
    obtain ⟨g2, val2, adj2, ev2, hv2⟩ := gives_newVars i0 x xv t1 e1
    exact ValL.ofRead ev1.inv hx (hv2.read ev2.inv)
  have hy1 : ValL (x ++ ys) (xv ++ e) g1 val1 := List.rel_append hv1 (ev1.valL i0 hy)
  obtain ⟨t0', xv', t1', outs, t2, g', val', adj', e0', e1', e2, e3, b⟩ := Fz.began (closed := false) hc G h.sound.fits
    (fun k hk _ => h.sound.clean rfl k hk) (fun _ => h.sound.clean rfl) hl hy hs hp hr hm hroom
  rw [e0] at e0'
  cases e0'
  rw [e1] at e1'
  cases e1'
  obtain ⟨s0, f0, a0⟩ := blind_begin _ _ _ _ h.alike e0
  obtain ⟨s1, f1, a1⟩ := blind_newVars _ _ _ _ _ a0 e1
  have hd0 : t0.tape.head = d.st.tape.head := by rw [hst]
  obtain ⟨s2, f2, a2⟩ := code_mirror hc f a1 ev1.inv (ev1.keep.clean hcl0) hy1 hs hp hr hm hn (by
    have : cap = tapeLimit := rfl
    have : t1.tape.head = t0.tape.head + 6 * x.length := hh1
    omega) e2
  obtain ⟨s3, f3, -⟩ := blind_vals _ _ _ _ _ a2 e3
  obtain rfl := vals_st f3
  exact ⟨s0, t0, xv, s1, t1, outs, _, t2, g', val', adj', ⟨f0, e0⟩, ⟨f1, e1⟩, ⟨f2, e2⟩, f3, b, a2⟩

/-- what is left when the region has been closed again -/
theorem Shadow.back (h : Shadow c d g val adj) {n words : Nat} {s' t' : St W} {g' : Graph R} {val' adj' : Nat → R}
    (B : Back d g val n words t' g' val' adj') (hA : Akin (fun k => base d ≤ k) s' t') :
    Shadow ⟨s', c.env, c.marks⟩ ⟨Fz.scrub t', d.env, d.marks⟩ g' val' adj' := by
  have hb := h.sound.good.base_le
  have hv : t'.vhead = d.st.vhead := by rw [B.good.inv.vhead, h.sound.good.inv.vhead, B.nodes]
  have hbe : base ⟨Fz.scrub t', d.env, d.marks⟩ = base d := by
    unfold base
    split
    · exact hv
    · rename_i hm
      have := h.sound.good.level_pos hm
      exact B.outer 1 (by omega)
  refine ⟨h.env, h.marks, ⟨B.good.scrub, by rw [B.nodes]; exact h.sound.fits, fun _ => B.good.inv.scrub_clean⟩, ?_⟩
  rw [hbe]
  exact hA.scrub fun k hk => by omega

theorem jacLoopL_mirror {k : Nat} (hf : ∀ nd ∈ g.nodes, nd.FitsAll) {xv : List Var}
    (hx : ∀ v ∈ xv, g.Has v) (hk : k ≤ g.nodes.length) :
    ∀ (outs : List Var) {s t : St W} {a : Nat → R}, Akin T s t → Inv t g val a → 0 < t.level → t.level ≤ maxNestedStack →
    t.nestVari t.level = k + 1 → (∀ v ∈ outs, g.Has v) →
    ∃ rows m a' s', (∀ J : Junk W R, (jacLoopL J xv outs : M W (List (List R))) s = .ok (rows, s')) ∧
      (jacLoop xv outs : M W (List (List R))) t = .ok (rows, t.withMem m) ∧
      Akin T s' (t.withMem m) ∧ Inv (t.withMem m) g val a' := by
  intro outs
  induction outs with
  | nil =>
    intro s t a hA h _ _ _ _
    exact ⟨[], t.tape.mem, a, s, fun _ => rfl, rfl, hA, h⟩
  | cons v outs ih =>
    intro s t a hA h hl0 hl hn ho
    obtain ⟨m, a1, e1, i1⟩ := zeroNested_any h hl0 hl hn hk
    obtain ⟨m2, e2, i2⟩ := i1.grad_ok (ho v (by simp)) fun nd hn => hf nd hn _
    obtain ⟨df, ea⟩ : ∃ df, (adjs xv : M W (List R)) ((t.withMem m).withMem m2) = .ok (df, (t.withMem m).withMem m2) :=
      ⟨_, i2.varAdjs (vs := xv) hx⟩
    obtain ⟨s1, f1, A1⟩ := blind_zeroNested _ _ _ _ hA e1
    obtain ⟨s2, f2, A2⟩ := gradL_mirror A1 i1 (fun nd hn => hf nd hn _) (ho v (by simp)) e2
    obtain ⟨s3, f3, A3⟩ := blind_adjs _ _ _ _ _ A2 ea
    obtain ⟨rows, m3, a3, s4, f4, e4, A4, i4⟩ := ih (t := (t.withMem m).withMem m2) A3 i2 hl0 hl hn
      (fun j hj => ho j (by simp [hj]))
    refine ⟨df :: rows, m3, a3, s4, fun J => ?_, ?_, A4, i4⟩
    · unfold jacLoopL
      rw [bind_ok f1, bind_ok (f2 J), bind_ok f3, bind_ok (f4 J)]
      rfl
    · unfold jacLoop
      rw [bind_ok e1, bind_ok e2, bind_ok ea, bind_ok e4]
      rfl

theorem Shadow.ask (hc : Commutes R) (h : Shadow c d g val adj) {is : List Nat} {ys : List R} {q : Ask R}
    (hq : q.ProperL c is ys) :
    ∃ r s', (∀ J : Junk W R, (q.callL J (is.map (nth c.env)) : M W (Answer R)) c.st = .ok (r, s')) ∧ q.book ys = some r ∧
      Slim c.st s' (q.words ys) ∧
      (Fz.vals (is.map (nth c.env)) : M W (List R)) s' = .ok (ys, s') ∧
      ∃ (d' : Client W) (g' : Graph R) (val' adj' : Nat → R), Shadow ⟨s', c.env, c.marks⟩ d' g' val' adj' := by
  obtain ⟨hl, hi, hv, hq, hn⟩ := hq
  have G := h.sound.good
  have hmem : ∀ v ∈ is.map (nth c.env), v ∈ c.env := by
    intro v hv
    obtain ⟨i, hi', rfl⟩ := List.mem_map.mp hv
    exact nth_mem (hi i hi')
  have hy : ValL ys (is.map (nth c.env)) g val :=
    ValL.ofRead G.inv (fun v hv => G.has v (by rw [h.env]; exact hmem v hv)) (h.vals hmem hv)
  have hl' : d.st.level < maxNestedStack := by
    rw [G.lvl, h.marks]
    exact hl
  rw [h.alike.tape] at hq
  obtain ⟨r, t', g', val', adj', e, hb, B⟩ := ask_live (closed := false) hc G h.sound.fits
    (fun k hk _ => h.sound.clean rfl k hk) (fun _ => h.sound.clean rfl) hl' hy rfl hq
  suffices hh : ∃ s', (∀ J : Junk W R, (q.callL J (is.map (nth c.env)) : M W (Answer R)) c.st = .ok (r, s')) ∧
      Akin (fun k => base d ≤ k) s' t' by
    obtain ⟨s', hs, hA⟩ := hh
    refine ⟨r, s', hs, hb, ?_, ?_, _, _, _, _, h.back B hA⟩
    · have B' := B.slim G.inv
      exact ⟨by rw [hA.tape, B'.head, h.alike.tape], by rw [hA.vhead, B'.vhead, h.alike.vhead],
        by rw [hA.level, B'.level, h.alike.level], by rw [hA.tape, h.alike.tape]; exact B'.snug,
        by rw [hA.nVaris, h.alike.nVaris, h.alike.tape]; exact B'.vsnug, by rw [hA.tape]; exact B'.form,
        by rw [hA.nVaris]; exact B'.vform⟩
    obtain ⟨s2, e2, -⟩ := blind_vals _ _ _ _ _ hA ((B.valL G.inv hy).read B.good.inv)
    obtain rfl := vals_st e2
    exact e2
  cases q with
  | gradient f x =>
    obtain ⟨hs, hp, hr, hm, ho, hroom, hfull⟩ := hq
    obtain ⟨s0, t0, xv, s1, t1, outs, s2, t2, g2, val2, adj2, ⟨e0, e0'⟩, ⟨e1, e1'⟩, ⟨e2, e2'⟩, e3, b, A2⟩ :=
      h.began hc hl' hy hs hp hr hm hn hroom
    simp only [Ask.call] at e
    obtain ⟨⟨y, df⟩, t3, e4, e5⟩ := bind_inv e
    cases e5
    unfold Fz.gradient at e4
    rw [bind_ok e0', bind_ok e1'] at e4
    obtain ⟨fv, t4, q1, w1⟩ := bind_inv e4
    unfold Code.scalar at q1
    rw [bind_ok e2'] at q1
    cases outs with
    | nil => cases q1
    | cons v os =>
      cases q1
      have hv : g2.Has fv := b.good.has fv (by simp)
      obtain ⟨y', t5, q2, w2⟩ := bind_inv w1
      obtain ⟨s5, p2, A5⟩ := blind_val _ _ _ _ _ A2 q2
      obtain rfl := Var.val_st q2
      obtain ⟨_, t6, q3, w3⟩ := bind_inv w2
      obtain ⟨s6, p3, A6⟩ := gradL_mirror A5 b.good.inv (fun nd hn => b.fits nd hn _) hv q3
      obtain ⟨df', t7, q4, w4⟩ := bind_inv w3
      obtain ⟨s7, p4, A7⟩ := blind_adjs _ _ _ _ _ A6 q4
      obtain ⟨_, t8, q5, w5⟩ := bind_inv w4
      obtain ⟨s8, p5, A8⟩ := blind_end _ _ _ _ A7 q5
      cases w5
      refine ⟨s8, fun J => ?_, A8⟩
      simp only [Ask.callL]
      have es : (f.scalar (is.map (nth c.env)) xv : M W Var) s1 = .ok (fv, s2) := by
        unfold Code.scalar
        rw [bind_ok e2]
        rfl
      have : gradientL J (f.scalar (is.map (nth c.env))) x c.st = .ok ((y, df), s8) := by
        unfold gradientL
        rw [bind_ok e0, bind_ok e1, bind_ok es, bind_ok p2, bind_ok (p3 J), bind_ok p4, bind_ok p5]
        rfl
      rw [bind_ok this]
      rfl
  | jacobian f m x =>
    obtain ⟨hs, hp, hr, hm, hx, rfl, hroom, hfull⟩ := hq
    obtain ⟨s0, t0, xv, s1, t1, outs, s2, t2, g2, val2, adj2, ⟨e0, e0'⟩, ⟨e1, e1'⟩, ⟨e2, e2'⟩, e3, b, A2⟩ :=
      h.began hc hl' hy hs hp hr hm hn hroom
    simp only [Ask.call] at e
    obtain ⟨⟨y, df⟩, t3, e4, e5⟩ := bind_inv e
    cases e5
    unfold Fz.jacobian at e4
    rw [bind_ok e0', bind_ok e1'] at e4
    obtain ⟨fv, t4, q1, w6⟩ := bind_inv e4
    unfold Code.vector at q1
    rw [e2'] at q1
    cases q1
    obtain ⟨fv, t5, q2, w7⟩ := bind_inv w6
    obtain ⟨s5, p2, A5⟩ := blind_confN _ _ _ _ _ _ A2 q2
    have : t5 = t2 ∧ fv = outs := by
      unfold confN at q2
      split at q2
      · cases q2; exact ⟨rfl, rfl⟩
      · cases q2
    obtain ⟨rfl, rfl⟩ := this
    obtain ⟨y', t6, q3, w8⟩ := bind_inv w7
    obtain ⟨s6, p3, A6⟩ := blind_vals _ _ _ _ _ A5 q3
    obtain rfl := vals_st q3
    obtain ⟨rows, mem, a, s7, p4, q4, A7, -⟩ := jacLoopL_mirror b.fits (xv := xv)
      (fun v hv => b.good.has v (by simp [hv])) b.pre.length_le fv A6 b.good.inv (by rw [b.lvl]; omega) (by rw [b.lvl]; omega)
      b.nv (fun v hv => b.good.has v (by simp [hv]))
    rw [bind_ok q4] at w8
    obtain ⟨_, t8, q5, w9⟩ := bind_inv w8
    obtain ⟨s8, p5, A8⟩ := blind_end _ _ _ _ A7 q5
    cases w9
    refine ⟨s8, fun J => ?_, A8⟩
    simp only [Ask.callL]
    have es : (f.vector (is.map (nth c.env)) xv (f.plain (x ++ ys)).length : M W (List Var)) s1 = .ok (fv, s2) := by
      unfold Code.vector
      exact e2
    have : jacobianL J (f.vector (is.map (nth c.env))) (f.plain (x ++ ys)).length x c.st = .ok ((y, df), s8) := by
      unfold jacobianL
      rw [bind_ok e0, bind_ok e1, bind_ok es, bind_ok p2, bind_ok p3, bind_ok (p4 J), bind_ok p5]
      rfl
    rw [bind_ok this]
    rfl

end asks

end Fz
