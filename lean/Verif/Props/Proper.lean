import Verif.Proof.LiveRun
import Verif.Props.Textbook

/-!
# C52: correct calls do not fail

`Spec/Proper.lean` says what a caller has to observe.  Then no call fails: no error stop, no array access out of
bounds, no nonconformable arrays; for every interpretation of `real64`, after every history of correct calls.
-/

set_option linter.unusedSectionVars false

namespace Props
open Fz Spec

section generic
variable {W R : Type} [Arith R] [Rep W R] [LawfulRep W R]
variable {closed : Bool} {c : Client W}

/-- **C52**: after every history of correct calls, every correct call completes. -/
theorem C52_call (h : Orderly (R := R) closed c) {k : Call R} (hk : k.Proper closed c) : ∃ c', k.exec c = .ok c' := by
  obtain ⟨g, val, adj, S⟩ := orderly_sound h
  obtain ⟨c', e, -⟩ := S.exec hk
  exact ⟨c', e⟩

/-- **C52**: a correct creating call completes, adds the variables with the numbers of plain reals, and takes exactly
the words of tape that `Make.words` counts; so room can be planned. -/
theorem C52_make (hc : Commutes R) (h : Orderly (R := R) closed c) {m : Make R} (hk : (Call.make m).Proper closed c)
    (hp : m.Plain) {ys : List R} (hy : (vals c.env : M W (List R)) c.st = .ok (ys, c.st)) :
    ∃ c', (Call.make m).exec c = .ok c' ∧ Orderly (R := R) closed c' ∧
      (vals c'.env : M W (List R)) c'.st = .ok (ys ++ m.plain ys, c'.st) ∧
      c'.st.tape.head = c.st.tape.head + m.words ys ∧ c'.marks = c.marks := by
  obtain ⟨g, val, adj, S⟩ := orderly_sound h
  have hk' := hk
  obtain ⟨ha, hs, hr, ys', hy', hm, hroom⟩ := hk
  rw [hy] at hy'
  obtain rfl : ys = ys' := (Prod.mk.inj (Except.ok.inj hy')).1
  have hv := ValL.ofRead S.good.inv S.good.has hy
  obtain ⟨r, s', g', val', adj', e, ev, -, hh, hr'⟩ := make_live S.good.inv S.clean hv m ha hs hr hm hroom
  obtain ⟨g2, val2, adj2, ev2, hv2⟩ := make_gives hc S.good.inv hv m ha hs hp r s' e
  have ex : (Call.make m).exec c = .ok ⟨s', c.env ++ r, c.marks⟩ := by
    unfold Call.exec
    rw [if_pos ha]
    simp only [Call.step, e]
  have ho := Orderly.call _ h hk' ex
  simp only [Call.closes, Bool.or_false] at ho
  have hl : ValL (ys ++ m.plain ys) (c.env ++ r) g2 val2 := List.rel_append (ev2.valL S.good.inv hv) hv2
  exact ⟨_, ex, ho, hl.read ev2.inv, hh, rfl⟩

/-- the histories of correct calls are histories in the sense of the other properties -/
theorem C52_reach (h : Orderly (R := R) closed c) : ∃ l : List (Call R), Reach l c := orderly_reach h

/-- **C52**: after every history of correct calls that has closed no nested region, a correct call of `gradient` or
`jacobian` completes and returns the numbers of the book. -/
theorem C52_ask (hc : Commutes R) (h : Orderly (R := R) false c) (hl : c.marks.length < 10) {e : List Var}
    (he : ∀ v ∈ e, v ∈ c.env) {ys : List R} (hy : (vals e : M W (List R)) c.st = .ok (ys, c.st)) {q : Ask R}
    (hq : q.Suits false c.st.tape.head ys) :
    ∃ r s', (q.call e : M W (Answer R)) c.st = .ok (r, s') ∧ q.book ys = some r := by
  obtain ⟨g, val, adj, S⟩ := orderly_sound h
  obtain ⟨r, s', -, -, -, e1, hb, -⟩ := ask_live (n := q.inputs) hc S.good S.fits (fun k hk _ => S.clean rfl k hk) S.clean
    (by rw [S.good.lvl]; exact hl) (ValL.ofRead S.good.inv (fun v hv => S.good.has v (he v hv)) hy) rfl hq
  exact ⟨r, s', e1, hb⟩

/-- **C52**: then any number of correct calls of `gradient` and `jacobian` in a row, with the same number of inputs,
complete and return the numbers of the book. -/
theorem C52_asks (hc : Commutes R) (h : Orderly (R := R) false c) (hl : c.marks.length < 10) {e : List Var}
    (he : ∀ v ∈ e, v ∈ c.env) {ys : List R} (hy : (vals e : M W (List R)) c.st = .ok (ys, c.st)) {n : Nat}
    {l : List (Ask R)} (hq : ∀ q ∈ l, q.inputs = n ∧ q.Suits true c.st.tape.head ys) :
    ∃ rs s', (l.mapM fun q => (q.call e : M W (Answer R))) c.st = .ok (rs, s') ∧
      rs.map some = l.map fun q => q.book ys := by
  obtain ⟨g, val, adj, S⟩ := orderly_sound h
  obtain ⟨rs, s', e1, hb, -⟩ := asks_live hc l S.good S.fits (fun k hk _ => S.clean rfl k hk) (by rw [S.good.lvl]; exact hl)
    (ValL.ofRead S.good.inv (fun v hv => S.good.has v (he v hv)) hy) hq
  exact ⟨rs, s', e1, hb⟩

end generic

/-! The hypotheses are met: two variables and their product, a sweep, a region begun and closed. -/

/-- a state reached by correct calls -/
theorem orderly_three {W : Type} [Rep W ℝ] [LawfulRep W ℝ] : ∃ c : Client W, Orderly (R := ℝ) false c ∧
    (vals c.env : M W (List ℝ)) c.st = .ok ([2, 3, 6], c.st) ∧ c.st.tape.head = 21 ∧ c.marks = [] := by
  have e0 : (vals (Client.init : Client W).env : M W (List ℝ)) (Client.init : Client W).st = .ok ([], Client.init.st) := rfl
  obtain ⟨c1, -, o1, v1, h1, m1⟩ := C52_make (m := .new 2) commutes_real (Orderly.start (W := W))
    ⟨by simp [Call.args, Make.args], trivial, trivial, [], e0, rfl, by
      simp [Client.init, St.init, Tape.init, Make.words, tapeLimit]⟩ trivial e0
  have l1 : c1.st.tape.head = 7 := h1
  obtain ⟨c2, -, o2, v2, h2, m2⟩ := C52_make (m := .new 3) commutes_real o1
    ⟨by simp [Call.args, Make.args], trivial, trivial, _, v1, rfl, by simp [l1, Make.words, tapeLimit]⟩ trivial v1
  have l2 : c2.st.tape.head = 13 := by rw [h2, l1]; rfl
  have n2 : c2.env.length = 2 := by
    obtain ⟨g, val, adj, S⟩ := orderly_sound o2
    simpa [Make.plain] using (ValL.ofRead S.good.inv S.good.has v2).length_eq.symm
  obtain ⟨c3, -, o3, v3, h3, m3⟩ := C52_make (m := .bin .mul 0 1) commutes_real o2
    ⟨by simp [Call.args, Make.args, n2], trivial, trivial, _, v2, trivial, by simp [l2, Make.words, tapeLimit]⟩ trivial v2
  refine ⟨c3, o3, ?_, by rw [h3, l2]; rfl, by rw [m3, m2, m1]; rfl⟩
  rw [v3]
  norm_num [Make.plain, Bin.plain, num, Arith.mul]

/-- a region begun and closed after it -/
example {W : Type} [Rep W ℝ] [LawfulRep W ℝ] : ∃ c c1 c2 c3 : Client W, Orderly (R := ℝ) false c ∧
    (Call.grad 2 : Call ℝ).exec c = .ok c1 ∧ (Call.begin : Call ℝ).exec c1 = .ok c2 ∧
    (Call.done : Call ℝ).exec c2 = .ok c3 ∧ Orderly (R := ℝ) true c3 := by
  obtain ⟨c, o, v, hh, hm⟩ := orderly_three (W := W)
  obtain ⟨g, val, adj, S⟩ := orderly_sound o
  have n : c.env.length = 3 := by simpa using (ValL.ofRead S.good.inv S.good.has v).length_eq.symm
  have p1 : (Call.grad 2 : Call ℝ).Proper false c := ⟨by simp [Call.args, n], trivial⟩
  obtain ⟨c1, e1⟩ := C52_call o p1
  have o1 : Orderly (R := ℝ) false c1 := .call _ o p1 e1
  have x1 := e1
  unfold Call.exec at x1
  rw [if_pos p1.1] at x1
  obtain ⟨-, G1, m, rfl⟩ := S.good.grad (nth_mem (by omega)) x1
  have p2 : (Call.begin : Call ℝ).Proper false ⟨c.st.withMem m, c.env, c.marks⟩ := ⟨by simp [Call.args], by simp [hm]⟩
  obtain ⟨c2, e2⟩ := C52_call o1 p2
  have o2 : Orderly (R := ℝ) false c2 := .call _ o1 p2 e2
  have x2 := e2
  unfold Call.exec at x2
  rw [if_pos p2.1] at x2
  obtain ⟨G2, -, -, -, hst⟩ := G1.begin x2
  have hd : c2.st.tape.head = 21 := by rw [hst]; exact hh
  have p3 : (Call.done : Call ℝ).Proper false c2 := ⟨by simp [Call.args], Or.inr (G2.inv.ok.not_full (by omega) fun k => by
    have := Nat.one_le_two_pow (n := k)
    intro h
    rw [hd, show initTapeSize = 12288 from rfl] at h
    omega)⟩
  obtain ⟨c3, e3⟩ := C52_call o2 p3
  exact ⟨c, _, c2, c3, o, e1, e2, e3, .call _ o2 p3 e3⟩

/-- three calls of `gradient` and `jacobian` in a row; the function uses the first variable of the caller, with value 2 -/
example {W : Type} [Rep W ℝ] [LawfulRep W ℝ] : ∃ (c : Client W) (rs : List (Answer ℝ)) (s' : St W), Orderly (R := ℝ) false c ∧
    (vals c.env : M W (List ℝ)) c.st = .ok ([2, 3, 6], c.st) ∧
    ([Ask.gradient (mulCode 0 1 4) [5], .jacobian (mulCode 0 1 4) 1 [7], .gradient (mulCode 0 0 4) [8]].mapM
      fun q => (q.call c.env : M W (Answer ℝ))) c.st = .ok (rs, s') ∧ rs.length = 3 := by
  obtain ⟨c, o, v, hh, hm⟩ := orderly_three (W := W)
  have full : ∀ j, 35 ≠ 12288 * 2 ^ j + 1 := fun j => by
    have := Nat.one_le_two_pow (n := j)
    omega
  have suit : ∀ a b : Nat, a < 4 → b < 4 → ∀ x : ℝ, (Ask.gradient (mulCode a b 4) [x]).Suits true c.st.tape.head [2, 3, 6] := by
    intro a b ha hb x
    rw [hh]
    refine ⟨⟨trivial, trivial⟩, ⟨trivial, trivial⟩, ⟨trivial, trivial⟩, ?_, ?_, ?_, ?_⟩
    · simp [mulCode, Code.Meets, Make.args, Make.Meets, Make.plain, ha, hb]
    · simp [mulCode, Code.plain]
    · simp [mulCode, Code.words, Make.words, tapeLimit]
    · simpa [mulCode, Code.words, Make.words] using full
  obtain ⟨rs, s', e, hr⟩ := C52_asks (n := 1) commutes_real o (by simp [hm]) (fun _ h => h) v
    (l := [.gradient (mulCode 0 1 4) [5], .jacobian (mulCode 0 1 4) 1 [7], .gradient (mulCode 0 0 4) [8]]) (by
      intro q hq
      simp only [List.mem_cons, List.not_mem_nil, or_false] at hq
      rcases hq with rfl | rfl | rfl
      · exact ⟨rfl, suit 0 1 (by omega) (by omega) 5⟩
      · obtain ⟨h1, h2, h3, h4, -, h6, h7⟩ := suit 0 1 (by omega) (by omega) 7
        exact ⟨rfl, h1, h2, h3, h4, by simp, by simp [mulCode, Code.plain], h6, h7⟩
      · exact ⟨rfl, suit 0 0 (by omega) (by omega) 8⟩)
  refine ⟨c, rs, s', o, v, e, ?_⟩
  simpa using congrArg List.length hr

end Props
