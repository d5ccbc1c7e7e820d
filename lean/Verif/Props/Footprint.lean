import Verif.Spec.Footprint
import Verif.Props.Lenient
import Verif.Props.Storage

/-!
# C65: memory in long runs

A sampler or an optimizer calls `gradient` millions of times.  The memory it takes is that of the largest single call.
-/

set_option linter.unusedSectionVars false

namespace Props
open Fz Spec

variable {W R : Type} [Arith R] [Rep W R] [LawfulRep W R] {c c' : Client W}

theorem slim_frugal {s s' : St W} {n : Nat} (hp : 1 ≤ s.tape.head) (h : Slim s s' n) : Frugal s s' n :=
  ⟨h.head, by simp only [existing, h.vhead], fun k h1 h2 => snug_least h.snug h.form h1 (by
      show _ ≤ 12288 * 2 ^ k
      omega),
    fun k h1 h2 => snug_least h.vsnug h.vform h1 (by simp only [initVariStackSize]; omega)⟩

/-- **C65**: after every history of correct calls that has closed no nested region, any number of correct calls of
`gradient` and `jacobian` in a row, with the same number of inputs, leave the tape as long as it was, and the storage
grows to what the largest of them needs. -/
theorem C65_asks (hc : Commutes R) (h : Orderly (R := R) false c) (hl : c.marks.length < 10) {e : List Var}
    (he : ∀ v ∈ e, v ∈ c.env) {ys : List R} (hy : (vals e : M W (List R)) c.st = .ok (ys, c.st)) {n : Nat}
    {l : List (Ask R)} (hq : ∀ q ∈ l, q.inputs = n ∧ q.Suits true c.st.tape.head ys) :
    ∃ rs s', (l.mapM fun q => (q.call e : M W (Answer R))) c.st = .ok (rs, s') ∧
      ∀ w, (∀ q ∈ l, q.words ys ≤ w) → Frugal c.st s' w := by
  obtain ⟨g, val, adj, S⟩ := orderly_sound h
  obtain ⟨rs, s', e1, -, hz⟩ := asks_live hc l S.good S.fits (fun k hk _ => S.clean rfl k hk)
    (by rw [S.good.lvl]; exact hl) (ValL.ofRead S.good.inv (fun v hv => S.good.has v (he v hv)) hy) hq
  exact ⟨rs, s', e1, fun w hw => slim_frugal S.good.inv.ok.head_pos (hz w hw)⟩

theorem asks_slim (hc : Commutes R) {is : List Nat} {ys : List R} : ∀ {l : List (Ask R)} {c : Client W}, OrderlyL R c →
    (∀ q ∈ l, q.ProperL c is ys) →
    ∃ rs s', (∀ J : Junk W R, (l.mapM fun q => (q.callL J (is.map (nth c.env)) : M W (Answer R))) c.st = .ok (rs, s')) ∧
      ∀ w, (∀ q ∈ l, q.words ys ≤ w) → Slim c.st s' w := by
  intro l
  induction l with
  | nil =>
    intro c h _
    obtain ⟨d, g, val, adj, S⟩ := orderlyL_shadow hc h
    refine ⟨[], c.st, fun _ => rfl, fun w _ => ⟨rfl, rfl, rfl, Or.inl rfl, Or.inl rfl, ?_, ?_⟩⟩
    · rw [S.alike.tape]; exact S.sound.good.inv.ok.form
    · rw [S.alike.nVaris]; exact S.sound.good.inv.vform
  | cons q l ih =>
    intro c h hq
    obtain ⟨d, g, val, adj, S⟩ := orderlyL_shadow hc h
    have hq0 := hq q (by simp)
    obtain ⟨r, s1, e1, -, hh, hv, -⟩ := S.ask hc hq0
    obtain ⟨rs, s2, e2, hz⟩ := ih (c := ⟨s1, c.env, c.marks⟩) (.ask (fun _ _ _ _ => Arith.zero) q is ys r h hq0 (e1 _))
      (fun p hp => by
        obtain ⟨h1, h2, h3, h4, h5⟩ := hq p (by simp [hp])
        exact ⟨h1, h2, hv, by rw [hh.head]; exact h4, h5⟩)
    refine ⟨r :: rs, s2, fun J => ?_, fun w hw => (hh.mono (hw q (by simp))).trans (hz w fun p hp => hw p (by simp [hp]))⟩
    rw [List.mapM_cons, bind_ok (e1 J)]
    have := e2 J
    simp only at this
    rw [bind_ok this]
    rfl

/-- **C65**, built without checks of array shapes: after every history of correct calls, any number of correct calls of
`gradient` and `jacobian`, each with its own function and number of inputs, complete, leave the tape as long as it was,
and the storage grows to what the largest of them needs. -/
theorem C65_asks_unchecked (hc : Commutes R) {is : List Nat} {ys : List R} {l : List (Ask R)} (h : OrderlyL R c)
    (hq : ∀ q ∈ l, q.ProperL c is ys) :
    ∃ rs s', (∀ J : Junk W R, (l.mapM fun q => (q.callL J (is.map (nth c.env)) : M W (Answer R))) c.st = .ok (rs, s')) ∧
      ∀ w, (∀ q ∈ l, q.words ys ≤ w) → Frugal c.st s' w := by
  obtain ⟨rs, s', e, hz⟩ := asks_slim hc h hq
  obtain ⟨d, g, val, adj, S⟩ := orderlyL_shadow hc h
  exact ⟨rs, s', e, fun w hw => slim_frugal (by rw [S.alike.tape]; exact S.sound.good.inv.ok.head_pos) (hz w hw)⟩

/-- calls that create nothing leave the capacities alone -/
theorem size_same {h : List (Call R)} (hr : Reach h c) {k : Call R} (hx : k.exec c = .ok c')
    (hk : ∀ m, k ≠ .make m) : c'.st.tape.size = c.st.tape.size ∧ c'.st.nVaris = c.st.nVaris := by
  obtain ⟨g, val, adj, G⟩ := hr.good
  unfold Call.exec at hx
  split at hx
  case isFalse => cases hx
  rename_i ha
  have hn : ∀ i ∈ k.args, nth c.env i ∈ c.env := fun i hi => nth_mem (ha i hi)
  have hns : ∀ {is : List Nat}, (∀ i ∈ is, i ∈ k.args) → ∀ v ∈ is.map (nth c.env), v ∈ c.env := by
    intro is his v hv
    obtain ⟨i, hi, rfl⟩ := List.mem_map.mp hv
    exact hn i (his i hi)
  cases k with
  | make m => exact absurd rfl (hk m)
  | assign i d => obtain ⟨-, m, rfl⟩ := G.assign (hn i (by simp [Call.args])) d hx; exact ⟨rfl, rfl⟩
  | assignArr is ds => obtain ⟨-, ⟨m, rfl⟩, -⟩ := G.assignArr (hns fun i hi => hi) ds hx; exact ⟨rfl, rfl⟩
  | assignAll is d => obtain ⟨-, m, rfl⟩ := G.assignAll (hns fun i hi => hi) d hx; exact ⟨rfl, rfl⟩
  | grad i => obtain ⟨-, -, m, rfl⟩ := G.grad (hn i (by simp [Call.args])) hx; exact ⟨rfl, rfl⟩
  | gradNested i =>
    obtain ⟨_, -, -, -, -, -, m, rfl⟩ := G.gradNested (hn i (by simp [Call.args])) hx
    exact ⟨rfl, rfl⟩
  | zeroAll => obtain ⟨_, -, -, m, rfl⟩ := G.zeroAll hx; exact ⟨rfl, rfl⟩
  | zeroNested => obtain ⟨_, _, -, -, -, -, -, -, m, rfl⟩ := G.zeroNested hx; exact ⟨rfl, rfl⟩
  | begin => obtain ⟨-, -, -, -, e⟩ := G.begin hx; rw [e]; exact ⟨rfl, rfl⟩
  | done =>
    rcases G.done hx with ⟨_, rfl⟩ | ⟨_, _, _, _, _, _, _, _, _, _, _, _, _, _, _, e1, _, _, e2, _⟩
    · exact ⟨rfl, rfl⟩
    · exact ⟨e2, e1⟩

/-- **C65**: the storage is determined by what was in use at the worst moment, not by the length of the run: calls of the
library, with nested regions opened and closed, make the storage and the variable table no larger than that. -/
theorem C65_peak (a b : Nat) {ks : List (Call R)} : ∀ {h : List (Call R)} {c c' : Client W}, Reach h c →
    (∀ k ∈ ks, k.Sane) → run ks c = .ok c' → StaysIn (12288 * 2 ^ a) (1024 * 2 ^ b) ks c →
    (c.st.tape.size ≤ 12288 * 2 ^ a → c'.st.tape.size ≤ 12288 * 2 ^ a) ∧
    (c.st.nVaris ≤ 1024 * 2 ^ b → c'.st.nVaris ≤ 1024 * 2 ^ b) := by
  induction ks with
  | nil => intro h c c' _ _ e _; cases e; exact ⟨id, id⟩
  | cons k ks ih =>
    intro h c c' hr hs e hw
    cases hk : k.exec c with
    | error x => simp only [run, hk] at e; cases e
    | ok c1 =>
      have e2 : run ks c1 = .ok c' := by simp only [run, hk] at e; exact e
      have hw1 := hw.2.2 c1 hk
      have hb : c1.st.tape.head - 1 ≤ 12288 * 2 ^ a ∧ (existing c1.st).length ≤ 1024 * 2 ^ b := by
        cases ks with
        | nil => exact hw1
        | cons _ _ => exact ⟨hw1.1, hw1.2.1⟩
      have hk1 := hs k (by simp)
      obtain ⟨i1, i2⟩ := ih (Reach.snoc hr hk1 hk) (fun q hq => hs q (by simp [hq])) e2 hw1
      by_cases hm : ∃ m, k = .make m
      · obtain ⟨m, rfl⟩ := hm
        obtain ⟨j1, j2⟩ := C34_smallest hr hk1 hk
        exact ⟨fun h0 => i1 (j1 a h0 hb.1), fun h0 => i2 (j2 b h0 hb.2)⟩
      · obtain ⟨j1, j2⟩ := size_same hr hk fun m hm' => hm ⟨m, hm'⟩
        rw [← j1, ← j2]
        exact ⟨i1, i2⟩

/-! The hypotheses are met. -/

/-- `x ↦ x · 2` any number of times, after two variables and their product: the storage stays at 12288 words and 1024
variables -/
example {W : Type} [Rep W ℝ] [LawfulRep W ℝ] (m : Nat) : ∃ (c : Client W) (rs : List (Answer ℝ)) (s' : St W),
    Orderly (R := ℝ) false c ∧
    ((List.replicate m (Ask.gradient (mulCode 0 1 4) [5])).mapM fun q => (q.call c.env : M W (Answer ℝ))) c.st = .ok (rs, s') ∧
    (c.st.tape.size ≤ 12288 → s'.tape.size ≤ 12288) ∧ (c.st.nVaris ≤ 1024 → s'.nVaris ≤ 1024) := by
  obtain ⟨c, o, v, hh, hm⟩ := orderly_three (W := W)
  have full : ∀ j, 35 ≠ 12288 * 2 ^ j + 1 := fun j => by
    have := Nat.one_le_two_pow (n := j)
    omega
  have suit : (Ask.gradient (mulCode 0 1 4) [5]).Suits true c.st.tape.head [2, 3, 6] := by
    rw [hh]
    refine ⟨⟨trivial, trivial⟩, ⟨trivial, trivial⟩, ⟨trivial, trivial⟩, ?_, ?_, ?_, ?_⟩
    · simp [mulCode, Code.Meets, Make.args, Make.Meets, Make.plain]
    · simp [mulCode, Code.plain]
    · simp [mulCode, Code.words, Make.words, tapeLimit]
    · simpa [mulCode, Code.words, Make.words] using full
  obtain ⟨rs, s', e, hf⟩ := C65_asks (n := 1) commutes_real o (by simp [hm]) (fun _ h => h) v
    (l := List.replicate m (.gradient (mulCode 0 1 4) [5])) (by
      intro q hq
      obtain rfl := List.eq_of_mem_replicate hq
      exact ⟨rfl, suit⟩)
  have F := hf 14 (by
    intro q hq
    obtain rfl := List.eq_of_mem_replicate hq
    simp [Ask.words, mulCode, Code.words, Make.words])
  exact ⟨c, rs, s', o, e, fun h => F.words 0 h (by rw [hh]; omega), fun h => F.table 0 h (by rw [hh]; omega)⟩

/-- the same without checks of array shapes, with functions of one and of three inputs -/
example {W : Type} [Rep W ℝ] [LawfulRep W ℝ] (m : Nat) : ∃ (c : Client W) (rs : List (Answer ℝ)) (s' : St W), OrderlyL ℝ c ∧
    (∀ J : Junk W ℝ, ((List.replicate m (Ask.gradient (mulCode 0 0 2) [5]) ++ [Ask.gradient (mulCode 0 2 4) [1, 2, 3]]).mapM
      fun q => (q.callL J ([0].map (nth c.env)) : M W (Answer ℝ))) c.st = .ok (rs, s')) ∧
    (c.st.tape.size ≤ 12288 → s'.tape.size ≤ 12288) ∧ (c.st.nVaris ≤ 1024 → s'.nVaris ≤ 1024) := by
  obtain ⟨c, o, v, hh, hm, hn⟩ := orderlyL_three (W := W)
  have v0 : (vals ([0].map (nth c.env)) : M W (List ℝ)) c.st = .ok ([2], c.st) := by
    obtain ⟨d, g, val, adj, S⟩ := orderlyL_shadow commutes_real o
    have hv := ValL.ofRead S.sound.good.inv (by rw [← S.env]; exact S.sound.good.has) (S.vals (fun _ h => h) v)
    have h1 := (hv.nths (is := [0]) (by simp [hn])).read S.sound.good.inv
    obtain ⟨s2, e2, -⟩ := blind_vals _ _ _ _ _ S.alike h1
    have := vals_st e2
    subst this
    rw [e2]
    simp [num]
  have full : ∀ n ≤ 100, ∀ j, n ≠ 12288 * 2 ^ j + 1 := fun n hn j => by
    have := Nat.one_le_two_pow (n := j)
    omega
  have suit : ∀ (a b : Nat) (x : List ℝ), a < x.length + 1 → b < x.length + 1 → x.length ≤ 4 →
      (Ask.gradient (mulCode a b (x.length + 1)) x).ProperL c [0] [2] := by
    intro a b x ha hb hx
    refine ⟨by simp [hm], by simp [hn], v0, ?_, rfl, trivial⟩
    rw [hh]
    refine ⟨⟨trivial, trivial⟩, ⟨trivial, trivial⟩, ⟨trivial, trivial⟩, ?_, ?_, ?_, ?_⟩
    · simp [mulCode, Code.Meets, Make.args, Make.Meets, Make.plain]
      omega
    · simp [mulCode, Code.plain]
    · simp [mulCode, Code.words, Make.words, tapeLimit]
      omega
    · simp only [mulCode, Code.words, Make.words]
      exact full _ (by omega)
  obtain ⟨rs, s', e, hf⟩ := C65_asks_unchecked commutes_real (is := [0]) (ys := [2])
    (l := List.replicate m (.gradient (mulCode 0 0 2) [5]) ++ [.gradient (mulCode 0 2 4) [1, 2, 3]]) o (by
      intro q hq
      rcases List.mem_append.mp hq with hq | hq
      · obtain rfl := List.eq_of_mem_replicate hq
        exact suit 0 0 [5] (by simp) (by simp) (by simp)
      · obtain rfl := List.mem_singleton.mp hq
        exact suit 0 2 [1, 2, 3] (by simp) (by simp) (by simp))
  have F := hf 26 (by
    intro q hq
    rcases List.mem_append.mp hq with hq | hq
    · obtain rfl := List.eq_of_mem_replicate hq
      simp [Ask.words, mulCode, Code.words, Make.words]
    · obtain rfl := List.mem_singleton.mp hq
      simp [Ask.words, mulCode, Code.words, Make.words])
  exact ⟨c, rs, s', o, e, fun h => F.words 0 h (by rw [hh]; omega), fun h => F.table 0 h (by rw [hh]; omega)⟩

/-- a region with one variable, opened and closed -/
example {W : Type} [Rep W ℝ] [LawfulRep W ℝ] : ∃ c' : Client W,
    run [Call.begin, .make (.new (5 : ℝ)), .done] (Client.init : Client W) = .ok c' ∧
    StaysIn (12288 * 2 ^ 0) (1024 * 2 ^ 0) [Call.begin, .make (.new (5 : ℝ)), .done] (Client.init : Client W) ∧
    c'.st.tape.size ≤ 12288 ∧ c'.st.nVaris ≤ 1024 := by
  have p1 : (Call.begin : Call ℝ).Proper false (Client.init : Client W) := ⟨by simp [Call.args], by simp [Client.init]⟩
  obtain ⟨c1, e1⟩ := C52_call .start p1
  have o1 : Orderly (R := ℝ) false c1 := .call _ .start p1 e1
  have q1 : c1 = ⟨Client.init.st.begun, [], [0]⟩ := by
    have : (Call.begin : Call ℝ).exec (Client.init : Client W) = .ok ⟨Client.init.st.begun, [], [0]⟩ :=
      exec_begin (c := (Client.init : Client W)) (beginNested_ok (Client.init : Client W).st (by
        simp [Client.init, St.init, maxNestedStack]))
    rw [this] at e1
    exact (Except.ok.inj e1).symm
  have v1 : (vals c1.env : M W (List ℝ)) c1.st = .ok ([], c1.st) := by rw [q1]; rfl
  have h1 : c1.st.tape.head = 1 := by rw [q1]; rfl
  have x1 : (existing c1.st).length = 0 := by rw [q1]; rfl
  have p2 : (Call.make (.new (5 : ℝ))).Proper false c1 := ⟨by simp [Call.args, Make.args], trivial, trivial, [], v1, rfl, by
    simp [h1, Make.words, tapeLimit]⟩
  obtain ⟨c2, e2, o2, v2, h2, -⟩ := C52_make commutes_real o1 p2 trivial v1
  have h2' : c2.st.tape.head = 7 := by rw [h2, h1]; rfl
  obtain ⟨g2, val2, adj2, S2⟩ := orderly_sound o2
  have p3 : (Call.done : Call ℝ).Proper false c2 := ⟨by simp [Call.args], Or.inr (S2.good.inv.ok.not_full (by omega) fun k => by
    have := Nat.one_le_two_pow (n := k)
    intro h
    rw [h2', show initTapeSize = 12288 from rfl] at h
    omega)⟩
  obtain ⟨c3, e3⟩ := C52_call o2 p3
  have o3 := Orderly.call _ o2 p3 e3
  have count : ∀ {b} {c : Client W}, Orderly (R := ℝ) b c → c.st.tape.head ≤ 7 → (existing c.st).length ≤ 1024 * 2 ^ 0 := by
    intro b c o hd
    obtain ⟨g, val, adj, S⟩ := orderly_sound o
    have := S.good.inv.wf.length_le S.good.inv.ok.head_pos
    have := S.good.inv.vhead
    simp only [existing, List.length_map, List.length_range]
    omega
  have h3 : c3.st.tape.head ≤ 7 := by
    have x := e3
    unfold Call.exec at x
    rw [if_pos p3.1] at x
    rcases S2.good.done x with ⟨-, rfl⟩ | ⟨_, _, _, _, _, _, _, _, _, _, _, _, _, hle, _, _, _, e, _⟩
    · omega
    · omega
  have hrun : run [Call.begin, .make (.new (5 : ℝ)), .done] (Client.init : Client W) = .ok c3 := by
    rw [run_one e1, run_one e2, run_one e3]
    rfl
  have hw : StaysIn (12288 * 2 ^ 0) (1024 * 2 ^ 0) [Call.begin, .make (.new (5 : ℝ)), .done] (Client.init : Client W) := by
    refine ⟨by simp [Client.init, St.init, Tape.init], by simp [existing, Client.init, St.init], fun d1 k1 => ?_⟩
    rw [e1] at k1
    cases k1
    refine ⟨by omega, by omega, fun d2 k2 => ?_⟩
    rw [e2] at k2
    cases k2
    refine ⟨by omega, count o2 (by omega), fun d3 k3 => ?_⟩
    rw [e3] at k3
    cases k3
    exact ⟨by omega, count o3 h3⟩
  obtain ⟨a1, a2⟩ := C65_peak (R := ℝ) 0 0 (h := []) ⟨by simp, rfl⟩ (by simp [Call.Sane, Make.Sane]) hrun hw
  exact ⟨c3, hrun, hw, a1 (by simp [Client.init, St.init, Tape.init]), a2 (by simp [Client.init, St.init])⟩

end Props
