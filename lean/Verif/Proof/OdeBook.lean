import Verif.Proof.MirrorOde
import Verif.Proof.OdeReach
import Verif.Proof.Textbook
import Verif.Spec.OdeBook

/-!
# The sensitivity right-hand side by the book
-/

set_option linter.unusedSectionVars false

namespace Fz
open Arith Spec

variable {W R : Type} [Arith R] [Rep W R] [LawfulRep W R]
variable {s s' t t' : St W} {g g' : Graph R} {val adj val' adj' : Nat → R} {c d : Client W}

/-! ## what the loops write -/

/-- component `i` of the vectors `js` -/
def putDots (a : List R) (S : List (List R)) (i : Nat) (js : List Nat) (out : Nat → Nat → R) : Nat → Nat → R :=
  fun j' i' => if i' = i ∧ j' ∈ js then fdot a (S.getD j' []) else out j' i'

/-- the part of the parameters is added -/
def putPars (b : List R) (i : Nat) (js : List Nat) (out : Nat → Nat → R) : Nat → Nat → R :=
  fun j' i' => if i' = i ∧ j' ∈ js then out j' i' +. b.getD j' zero else out j' i'

theorem sensDots_puts {yvar : List Var} {S : List (List R)} (h : Inv t g val adj) (hy : ∀ v ∈ yvar, g.Has v) (i : Nat) :
    ∀ (js : List Nat) (out : Nat → Nat → R), (∀ j ∈ js, ∃ v, S[j]? = some v ∧ v.length = yvar.length) →
    (sensDots yvar S i js out : M W (Nat → Nat → R)) t =
      .ok (putDots (yvar.map fun v => adj (g.pos v)) S i js out, t) := by
  intro js
  induction js with
  | nil =>
    intro out _
    have : putDots (yvar.map fun v => adj (g.pos v)) S i [] out = out := by funext j k; simp [putDots]
    rw [this]
    rfl
  | cons j js ih =>
    intro out hS
    obtain ⟨v, hv, hl⟩ := hS j (by simp)
    have e1 : (deref S[j]? : M W (List R)) t = .ok (v, t) := by rw [hv]; rfl
    have e2 : (confN (yvar.map fun v => adj (g.pos v)).length v : M W (List R)) t = .ok (v, t) := by
      unfold confN; rw [if_pos (by simpa using hl)]; rfl
    unfold sensDots
    rw [bind_ok e1, bind_ok (h.varAdjs hy), bind_ok e2, ih _ fun l hl => hS l (by simp [hl])]
    congr 2
    funext j' i'
    unfold putDots put
    by_cases hi : i' = i
    · subst hi
      by_cases hj : j' ∈ js
      · simp [hj]
      · by_cases hjj : j' = j
        · subst hjj
          simp [hj, List.getD_eq_getElem?_getD, hv]
        · simp [hj, hjj]
    · simp [hi]

theorem sensPars_puts {pvar : List Var} (h : Inv t g val adj) (hp : ∀ v ∈ pvar, g.Has v) (i : Nat) :
    ∀ (js : List Nat) (out : Nat → Nat → R), js.Nodup → (∀ j ∈ js, j < pvar.length) →
    (sensPars pvar 0 i js out : M W (Nat → Nat → R)) t =
      .ok (putPars (pvar.map fun v => adj (g.pos v)) i js out, t) := by
  intro js
  induction js with
  | nil =>
    intro out _ _
    have : putPars (pvar.map fun v => adj (g.pos v)) i [] out = out := by funext j k; simp [putPars]
    rw [this]
    rfl
  | cons j js ih =>
    intro out hnd hS
    have hj := hS j (by simp)
    obtain ⟨hnj, hnd⟩ := List.nodup_cons.mp hnd
    have e1 : (deref pvar[j]? : M W Var) t = .ok (pvar[j], t) := by rw [List.getElem?_eq_getElem hj]; rfl
    unfold sensPars
    rw [bind_ok e1, bind_ok (h.varAdj (hp _ (List.getElem_mem hj))), ih _ hnd fun l hl => hS l (by simp [hl])]
    congr 2
    funext j' i'
    unfold putPars put
    by_cases hi : i' = i
    · subst hi
      by_cases hjs : j' ∈ js
      · have : j' ≠ j := fun h => hnj (h ▸ hjs)
        simp [hjs, this]
      · by_cases hjj : j' = j
        · subst hjj
          simp [hjs, List.getD_eq_getElem?_getD, hj]
        · simp [hjs, hjj]
    · simp [hi]

/-! ## the rows complete, with and without checks -/

theorem sensRowsL_any {T : Nat → Prop} {k : Nat} (hf : ∀ nd ∈ g.nodes, nd.FitsAll) {yv pv : List Var} {S : List (List R)}
    (hy : ∀ v ∈ yv, g.Has v) (hp : ∀ v ∈ pv, g.Has v) (hk : k ≤ g.nodes.length) {ns m : Nat} {par : Bool}
    (hS : ∀ j < ns, ∃ v, S[j]? = some v ∧ v.length = yv.length) (hm : par = true → m = ns ∧ m ≤ pv.length) :
    ∀ (outs : List Var) (i : Nat) (out : Nat → Nat → R) {s t : St W} {a : Nat → R}, Akin T s t → Inv t g val a →
    0 < t.level → t.level ≤ maxNestedStack → t.nestVari t.level = k + 1 → (∀ v ∈ outs, g.Has v) →
    ∃ out' mem a' s', (∀ J : Junk W R, (sensRowsL J yv pv S ns m par i outs out : M W (Nat → Nat → R)) s = .ok (out', s')) ∧
      (sensRows yv pv S ns m par i outs out : M W (Nat → Nat → R)) t = .ok (out', t.withMem mem) ∧
      Akin T s' (t.withMem mem) ∧ Inv (t.withMem mem) g val a' := by
  intro outs
  induction outs with
  | nil =>
    intro i out s t a hA h _ _ _ _
    exact ⟨out, t.tape.mem, a, s, fun _ => rfl, rfl, hA, h⟩
  | cons v outs ih =>
    intro i out s t a hA h hl0 hl hn ho
    have hv := ho v (by simp)
    obtain ⟨m1, e1⟩ := gradNested_total h hv hl0 hl hn hk fun nd hd => hf nd (List.mem_of_mem_drop hd) _
    obtain ⟨-, m1', e1', i1⟩ := gradNested_run h (fun nd hd => Or.inr (hf nd hd _)) hv hl0 hl hn hk e1
    obtain ⟨s1, f1, A1⟩ := gradNestedL_mirror hA h (fun nd hd => hf nd hd _) hv hl0 hl (by omega) e1
    obtain ⟨o2, e2⟩ : ∃ o2, (sensDots yv S i (List.range ns) out : M W (Nat → Nat → R)) (t.withMem m1) =
      .ok (o2, t.withMem m1) := ⟨_, sensDots_puts i1 hy i (List.range ns) out (fun j hj => hS j (List.mem_range.mp hj))⟩
    obtain ⟨s2, f2, A2⟩ := blind_sensDots _ _ _ _ _ _ _ _ _ A1 e2
    obtain ⟨o3, e3⟩ : ∃ o3, (if par then sensPars pv (ns - m) i (List.range m) o2 else
        pure o2 : M W (Nat → Nat → R)) (t.withMem m1) = .ok (o3, t.withMem m1) := by
      cases par with
      | false => exact ⟨_, rfl⟩
      | true =>
        obtain ⟨rfl, hm⟩ := hm rfl
        rw [Nat.sub_self, if_pos rfl]
        exact ⟨_, sensPars_puts i1 hp i _ _ List.nodup_range fun j hj => by have := List.mem_range.mp hj; omega⟩
    have hb : Blind T (if par then sensPars pv (ns - m) i (List.range m) o2 else pure o2 : M W (Nat → Nat → R)) :=
      .ite (blind_sensPars _ _ _ _ _) (.pure _)
    obtain ⟨s3, f3, A3⟩ := hb _ _ _ _ A2 e3
    obtain ⟨m4, a4, e4, i4⟩ := zeroNested_any i1 hl0 hl hn hk
    obtain ⟨s4, f4, A4⟩ := blind_zeroNested _ _ _ _ A3 e4
    obtain ⟨o5, m5, a5, s5, f5, e5, A5, i5⟩ := ih (i + 1) o3 A4 i4 hl0 hl hn fun v hv => ho v (by simp [hv])
    refine ⟨o5, m5, a5, s5, fun J => ?_, ?_, A5, i5⟩
    · unfold sensRowsL
      rw [bind_ok (f1 J), bind_ok f2, bind_ok f3, bind_ok f4, f5 J]
    · unfold sensRows
      rw [bind_ok e1, bind_ok e2, bind_ok e3, bind_ok e4, e5]
      rfl

/-! ## and what they give -/

variable {Z : Prop} {n0 : Nat} {T : List (Step R)}

theorem Booked.rowN (h : Booked Z n0 T s g val adj) {s1 s2 : St W} {adj1 : Nat → R} (hi : Inv s1 g val adj1)
    (ht : TopAt s1 n0) (hz : ∀ (k : Nat) nd, g.nodes[n0 + k]? = some nd → adj1 nd.pos = Arith.zero) {o : Num R} {v : Var}
    (ho : NumAt n0 o v g val) (e : (v.gradNested : M W Unit) s1 = .ok ((), s2)) :
    ∃ m adj2, s2 = s1.withMem m ∧ Inv s2 g val adj2 ∧ AdjRel n0 g adj2 (backFrom 0 T (seed o.ref)) := by
  have hl := h.len
  obtain ⟨hf, m, rfl, i⟩ := gradNested_run hi (fun nd hn => Or.inl (h.cok nd hn)) ho.valR.has ht.1 ht.2.1 ht.2.2
    (by omega) e
  refine ⟨m, _, rfl, i, fun k nd hn => ?_⟩
  exact h.sweeps hf (h.seeded hz ho) T.length 0 (by omega) k nd hn

/-- entry `j` of a row of the result -/
def entryOf (par : Bool) (n : Nat) (S : List (List R)) (row : List R) (j : Nat) : R :=
  if par then fdot (row.take n) (S.getD j []) +. row.getD (2 * n + j) zero else fdot (row.take n) (S.getD j [])

theorem book_sensRows (h : Booked Z n0 T s g val adj) {xs : List (Num R)} {yv fv pv : List Var}
    (hx : NumsAt n0 xs (yv ++ fv ++ pv) g val) {N : Nat} (hn : xs.map Num.ref = (List.range N).map some)
    (hfv : fv.length = yv.length) {S : List (List R)} {ns m : Nat} {par : Bool}
    (hS : ∀ j < ns, ∃ v, S[j]? = some v ∧ v.length = yv.length) (hm : par = true → m = ns ∧ m ≤ pv.length)
    {os : List (Num R)} {ov : List Var}
    (ho : NumsAt n0 os ov g val) : ∀ {s1 s2 : St W} {adj1 : Nat → R} {i : Nat} {out out' : Nat → Nat → R},
    Inv s1 g val adj1 → TopAt s1 n0 → (∀ (k : Nat) nd, g.nodes[n0 + k]? = some nd → adj1 nd.pos = Arith.zero) →
    (sensRows yv pv S ns m par i ov out : M W (Nat → Nat → R)) s1 = .ok (out', s2) →
    (∀ j k, k < i → out' j k = out j k) ∧
      (∀ j < ns, ∀ k (hk : k < os.length), out' j (i + k) = entryOf par yv.length S (rowOf T N os[k]) j) ∧
      ∃ mem adj2, s2 = s1.withMem mem ∧ Inv s2 g val adj2 := by
  induction ho with
  | nil =>
    intro s1 s2 adj1 i out out' hi _ _ e
    cases e
    exact ⟨fun _ _ _ => rfl, fun j _ k hk => by simp at hk, _, adj1, (St.withMem_self _).symm, hi⟩
  | @cons o v os ov ho _ ih =>
    intro s1 s2 adj1 i out out' hi ht hz e
    unfold sensRows at e
    obtain ⟨_, s3, e3, k3⟩ := bind_inv e
    obtain ⟨o4, s4, e4, k4⟩ := bind_inv k3
    obtain ⟨o5, s5, e5, k5⟩ := bind_inv k4
    obtain ⟨_, s6, e6, k6⟩ := bind_inv k5
    have hl := h.len
    obtain ⟨m3, adj3, rfl, i3, r3⟩ := h.rowN hi ht hz ho e3
    have hrow := hx.adjs r3 hn
    have hhas : ∀ w ∈ yv ++ fv ++ pv, g.Has w := hx.valL.has
    rw [sensDots_puts i3 (fun w hw => hhas w (by simp [hw])) i (List.range ns) out
      (fun j hj => hS j (List.mem_range.mp hj))] at e4
    cases e4
    have hy : (yv.map fun w => adj3 (g.pos w)) = (rowOf T N o).take yv.length := by
      unfold rowOf
      rw [← hrow, List.append_assoc, List.map_append, List.take_left' (by simp)]
    have hp : ∀ j < pv.length, (pv.map fun w => adj3 (g.pos w)).getD j zero = (rowOf T N o).getD (2 * yv.length + j) zero := by
      intro j hj
      unfold rowOf
      rw [← hrow, List.map_append, List.getD_append_right _ _ _ _ (by simp; omega)]
      congr 1
      simp
      omega
    have hs5 : s5 = s1.withMem m3 ∧ (∀ j k, k ≠ i → o5 j k = out j k) ∧
        ∀ j < ns, o5 j i = entryOf par yv.length S (rowOf T N o) j := by
      cases par with
      | false =>
        cases e5
        refine ⟨rfl, fun j k hk => by simp [putDots, hk], fun j hj => ?_⟩
        simp only [putDots, List.mem_range, hj, and_self, if_true, entryOf, Bool.false_eq_true, if_false]
        rw [hy]
      | true =>
        obtain ⟨rfl, hm⟩ := hm rfl
        simp only [if_true] at e5
        rw [Nat.sub_self, sensPars_puts i3 (fun w hw => hhas w (by simp [hw])) i _ _ List.nodup_range fun j hj => by
          have := List.mem_range.mp hj; omega] at e5
        cases e5
        refine ⟨rfl, fun j k hk => by simp [putDots, putPars, hk], fun j hj => ?_⟩
        simp only [putDots, putPars, List.mem_range, hj, and_self, if_true, entryOf]
        rw [hy, hp j (by omega)]
    obtain ⟨rfl, q1, q2⟩ := hs5
    obtain ⟨m6, adj6, rfl, i6, z6, -⟩ := TopAt.zero_inv i3 (ht.mem _) (by omega) e6
    obtain ⟨p1, p2, m7, adj7, rfl, i7⟩ := ih i6 ((ht.mem _).mem _) (fun k nd hk => z6 nd (mem_drop_iff.mpr ⟨k, hk⟩)) k6
    refine ⟨fun j k hk => ?_, fun j hj k hk => ?_, _, adj7, rfl, i7⟩
    · rw [p1 j k (by omega), q1 j k (by omega)]
    · cases k with
      | zero =>
        rw [Nat.add_zero, p1 j i (by omega), q2 j hj]
        rfl
      | succ k =>
        have := p2 j hj k (by simpa using hk)
        rw [show i + (k + 1) = i + 1 + k by omega, this]
        rfl

end Fz
