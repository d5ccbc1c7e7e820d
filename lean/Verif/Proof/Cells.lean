import Verif.Spec.Cells
import Verif.Proof.ChainStep
import Verif.Proof.Nested

/-!
# A tape and the list of its items
-/

set_option linter.unusedSectionVars false

namespace Fz
open Spec

variable {W R : Type} [Arith R] [Rep W R] [LawfulRep W R]

/-- the words of an item -/
def cellWords : Cell R → List W
  | .record v a op dop => Tape.recWords v a op dop
  | .ints l => l.map Rep.ofNat
  | .reals d => Tape.realWords d

def cellSmall : Cell R → Prop
  | .record _ _ op _ => Small op
  | .ints l => Small l
  | .reals _ => True

/-- number of words of all items -/
def total (cs : List (Cell R)) : Nat := (cs.map Cell.len).sum

theorem cellWords_length (c : Cell R) : (cellWords c : List W).length = c.len := by
  cases c <;> simp [cellWords, Cell.len, Tape.recWords_length, Tape.realWords_length]

def allWords (cs : List (Cell R)) : List W := cs.flatMap cellWords

theorem allWords_length (cs : List (Cell R)) : (allWords cs : List W).length = total cs := by
  induction cs with
  | nil => rfl
  | cons c cs ih =>
    simp only [allWords, total, List.flatMap_cons, List.length_append, cellWords_length, List.map_cons, List.sum_cons] at *
    omega

theorem start_eq (cs : List (Cell R)) (k : Nat) : start cs k = 1 + total (cs.take k) := rfl

theorem total_append (a b : List (Cell R)) : total (a ++ b) = total a + total b := by
  simp [total]

/-- the tape holds the items -/
structure Holds (s : Tapes W) (cs : List (Cell R)) : Prop where
  ok : s.2.OK
  words : HasWords s.2.mem 1 (allWords cs)
  head : s.2.head = 1 + total cs
  small : ∀ c ∈ cs, cellSmall c
  ids : s.1 = (List.range cs.length).map (start cs)

theorem holds_init : Holds (R := R) (([], Tape.init) : Tapes W) [] :=
  ⟨Tape.ok_init, HasWords.nil, rfl, by simp, rfl⟩

theorem starts_append (cs new : List (Cell R)) : (List.range (cs ++ new).length).map (start (cs ++ new)) =
    (List.range cs.length).map (start cs) ++ (List.range new.length).map fun j => total cs + start new j := by
  rw [List.length_append, List.range_add, List.map_append, List.map_map]
  congr 1
  · refine List.map_congr_left fun k hk => ?_
    simp only [List.mem_range] at hk
    rw [start_eq, start_eq, List.take_append_of_le_length (by omega)]
  · refine List.map_congr_left fun k _ => ?_
    simp only [Function.comp_apply, start_eq]
    rw [List.take_append, List.take_of_length_le (by omega), Nat.add_sub_cancel_left, total_append]
    omega

/-- new items at the end -/
theorem Holds.push {ids : List Nat} {t t' : Tape W} {cs new : List (Cell R)} (h : Holds (ids, t) cs)
    (x : Tape.Ext t t' (allWords new)) (hs : ∀ c ∈ new, cellSmall c) :
    Holds (ids ++ (List.range new.length).map fun j => total cs + start new j, t') (cs ++ new) := by
  refine ⟨x.ok, ?_, ?_, ?_, ?_⟩
  · show HasWords t'.mem 1 (allWords (cs ++ new))
    have e : (allWords (cs ++ new) : List W) = allWords cs ++ allWords new := by simp [allWords]
    have hh : t.head = 1 + (allWords cs : List W).length := by rw [allWords_length]; exact h.head
    rw [e, x.mem, HasWords.append, ← hh]
    exact ⟨h.words.overlay_of_disjoint (Or.inl (by rw [← hh])), HasWords.overlay_self⟩
  · show t'.head = _
    rw [x.head, allWords_length, show t.head = _ from h.head, total_append]
    omega
  · intro c hc
    rcases List.mem_append.mp hc with hc | hc
    · exact h.small c hc
    · exact hs c hc
  · show ids ++ _ = _
    rw [starts_append, show ids = _ from h.ids]

theorem Holds.push_one {ids : List Nat} {t t' : Tape W} {cs : List (Cell R)} {c : Cell R} (h : Holds (ids, t) cs)
    (x : Tape.Ext t t' (cellWords c)) (hs : cellSmall c) : Holds (ids ++ [t.head], t') (cs ++ [c]) := by
  have := h.push (new := [c]) (t' := t') (by simpa [allWords] using x) (by simpa using hs)
  have e : t.head = total cs + 1 := by rw [show t.head = _ from h.head]; omega
  simpa [start, e] using this

theorem take_set {α : Type} (l : List α) (k : Nat) (x : α) (h : k < l.length) :
    l.set k x = l.take k ++ x :: l.drop (k + 1) := by
  rw [List.set_eq_take_append_cons_drop, if_pos h]

theorem split_at {α : Type} {l : List α} {k : Nat} {c : α} (h : l[k]? = some c) : l = l.take k ++ c :: l.drop (k + 1) := by
  obtain ⟨h1, rfl⟩ := List.getElem?_eq_some_iff.mp h
  rw [List.getElem_cons_drop, List.take_append_drop]

/-- a part of an item changed -/
theorem Holds.put {ids : List Nat} {t : Tape W} {cs : List (Cell R)} (h : Holds (ids, t) cs) {k : Nat} {c c' : Cell R}
    (hk : cs[k]? = some c) {x old new y : List W} (e : cellWords c = x ++ old ++ y) (e' : cellWords c' = x ++ new ++ y)
    (hl : new.length = old.length) (hs : cellSmall c → cellSmall c') :
    t.wrSec (start cs k + x.length) new = .ok { t with mem := overlay t.mem (start cs k + x.length) new } ∧
    Holds (ids, { t with mem := overlay t.mem (start cs k + x.length) new }) (cs.set k c') := by
  obtain ⟨hk1, hk2⟩ := List.getElem?_eq_some_iff.mp hk
  have hcs : cs = cs.take k ++ c :: cs.drop (k + 1) := split_at hk
  have hlen : c'.len = c.len := by
    have h1 := cellWords_length (W := W) c
    have h2 := cellWords_length (W := W) c'
    rw [e] at h1
    rw [e'] at h2
    simp only [List.length_append] at h1 h2
    omega
  have htot : total (cs.set k c') = total cs := by
    rw [take_set cs k c' hk1, total_append]
    conv_rhs => rw [hcs, total_append]
    simp [total, hlen]
  have hw := h.words
  have hA : start cs k = 1 + (allWords (cs.take k) : List W).length := by rw [allWords_length]; rfl
  have hsplit : (allWords cs : List W) = allWords (cs.take k) ++ (x ++ old ++ y) ++ allWords (cs.drop (k + 1)) := by
    conv_lhs => rw [hcs]
    simp [allWords, e]
  have hhead := h.head
  have hhead' := allWords_length (W := W) cs
  rw [hsplit] at hhead'
  simp only [List.length_append] at hhead'
  have hle := h.ok.head_le
  simp only at hhead hle
  rw [hsplit] at hw
  simp only [HasWords.append, List.length_append] at hw
  obtain ⟨⟨w1, ⟨w2, w3⟩, w4⟩, w5⟩ := hw
  refine ⟨Tape.wrSec_ok new t _ (by rw [hA]; omega) (by rw [hA]; omega), ?_, ?_, ?_, ?_, ?_⟩
  · refine ⟨h.ok.head_pos, h.ok.head_le, h.ok.size_le, fun i hi => ?_, h.ok.form⟩
    simp only at hi
    show overlay t.mem _ new i = _
    rcases hi with hi | hi
    · rw [overlay_lt (by rw [hA]; omega)]
      exact h.ok.zero i (Or.inl hi)
    · rw [overlay_ge (by rw [hA]; omega)]
      exact h.ok.zero i (Or.inr hi)
  · show HasWords (overlay t.mem _ new) 1 _
    have hsplit' : (allWords (cs.set k c') : List W) =
        allWords (cs.take k) ++ (x ++ new ++ y) ++ allWords (cs.drop (k + 1)) := by
      rw [take_set cs k c' hk1]
      simp [allWords, e']
    rw [hsplit']
    simp only [HasWords.append, List.length_append]
    refine ⟨⟨w1.overlay_of_disjoint (Or.inl (by rw [hA]; omega)),
      ⟨w2.overlay_of_disjoint (Or.inl (by rw [hA])), ?_⟩, ?_⟩, ?_⟩
    · rw [hA]
      exact HasWords.overlay_self
    · rw [hl]
      exact w4.overlay_of_disjoint (Or.inr (by rw [hA]; omega))
    · rw [hl]
      exact w5.overlay_of_disjoint (Or.inr (by rw [hA]; omega))
  · show t.head = _
    rw [htot]
    exact h.head
  · intro d hd
    rw [take_set cs k c' hk1] at hd
    rcases List.mem_append.mp hd with hd | hd
    · exact h.small d (List.mem_of_mem_take hd)
    · rcases List.mem_cons.mp hd with rfl | hd
      · exact hs (h.small c (by rw [← hk2]; exact List.getElem_mem hk1))
      · exact h.small d (List.mem_of_mem_drop hd)
  · show ids = _
    rw [show ids = _ from h.ids, List.length_set]
    refine List.map_congr_left fun j _ => ?_
    rw [start_eq, start_eq, List.take_set]
    congr 1
    by_cases hj : k < (cs.take j).length
    · have e1 : (cs.take j)[k]? = some c := by
        rw [List.length_take] at hj
        rw [List.getElem?_take_of_lt (by omega), hk]
      conv_lhs => rw [split_at e1]
      rw [take_set _ k c' hj, total_append, total_append]
      simp [total, hlen]
    · rw [List.set_eq_of_length_le (by omega)]

theorem Holds.id_at {ids : List Nat} {t : Tape W} {cs : List (Cell R)} (h : Holds (ids, t) cs) {k : Nat}
    (hk : k < cs.length) : ids.getD k 0 = start cs k := by
  rw [show ids = _ from h.ids]
  simp [hk]

/-- every item is read as it is -/
theorem Holds.read {s : Tapes W} {cs : List (Cell R)} (h : Holds s cs) {k : Nat} {c : Cell R}
    (hk : cs[k]? = some c) : HasWords s.2.mem (start cs k) (cellWords c) ∧
      start cs k + c.len ≤ s.2.size + 1 := by
  obtain ⟨hk1, hk2⟩ := List.getElem?_eq_some_iff.mp hk
  have hcs : cs = cs.take k ++ c :: cs.drop (k + 1) := split_at hk
  have hsplit : (allWords cs : List W) = allWords (cs.take k) ++ (cellWords c ++ allWords (cs.drop (k + 1))) := by
    conv_lhs => rw [hcs]
    simp [allWords]
  have hw := h.words
  rw [hsplit, HasWords.append, HasWords.append, allWords_length] at hw
  refine ⟨hw.2.1, ?_⟩
  have h1 := h.head
  have h2 := h.ok.head_le
  have h3 : total cs = total (cs.take k) + (c.len + total (cs.drop (k + 1))) := by
    conv_lhs => rw [hcs]
    simp [total]
  rw [start_eq]
  omega

theorem Holds.recIn {s : Tapes W} {cs : List (Cell R)} (h : Holds s cs) {k : Nat} {v a : R} {op : List Nat} {dop : List R}
    (hk : cs[k]? = some (.record v a op dop)) : Tape.RecIn s.2 (start cs k) v a op dop := by
  obtain ⟨h1, h2⟩ := h.read hk
  refine ⟨by rw [start_eq]; omega, h2, h.ok.size_le, fun o ho => ?_, h1⟩
  have := h.small _ (List.mem_of_getElem? hk) o ho
  simp only [int32Max]
  omega

theorem Tape.RecIn.operandInfo {t : Tape W} {p : Nat} {v a : R} {op : List Nat} {dop : List R}
    (hr : Tape.RecIn t p v a op dop) : t.operandInfo p (op.length + 2) = .ok (op.length :: op ++ [dop.length]) := by
  have hw := hr.words
  unfold Tape.recWords at hw
  simp only [HasWords.append, List.length_cons, List.length_nil] at hw
  have h2' := hr.fit
  have h3' := hr.szle
  have := Tape.rdSec_ok (t := t) (R := R) (op.length :: op ++ [dop.length]) (p := p + 4) (by omega)
    (by simp; omega) (by simpa using hw.2.1) (by
      intro n hn
      simp only [List.cons_append, List.mem_cons, List.mem_append, List.not_mem_nil, or_false] at hn
      rcases hn with rfl | hn | rfl
      · omega
      · exact hr.small n hn
      · omega)
  simpa [Tape.operandInfo] using this

theorem Holds.readAt {s : Tapes W} {cs : List (Cell R)} (h : Holds s cs) {k : Nat} {c : Cell R}
    (hk : cs[k]? = some c) : c.ReadAt s.2 (start cs k) := by
  obtain ⟨h1, h2⟩ := h.read hk
  have hp : 1 ≤ start cs k := by rw [start_eq]; omega
  cases c with
  | record v a op dop =>
    have hr := h.recIn hk
    exact ⟨hr.valAt, hr.adjAt, hr.nOperand, hr.operandIndex, hr.operandInfo, hr.nDataOperand, hr.dataOperand⟩
  | ints l =>
    refine Tape.rdSec_ok (R := R) l hp (by simpa [Cell.len] using h2) h1 fun n hn => ?_
    have := h.small _ (List.mem_of_getElem? hk) n hn
    simp only [int32Max]
    omega
  | reals d =>
    simp only [Cell.len] at h2
    exact ⟨Tape.getRealArrayAt_ok d hp (by omega) h1, fun j hj =>
      Tape.getRealAt_ok (by omega) (by omega) (HasWords.real h1 j hj)⟩

theorem blank_words : (cellWords (Cell.blank : Cell R) : List W) = List.replicate 6 (Rep.ofNat 0) := by
  simp [cellWords, Cell.blank, Tape.recWords, Tape.realWords, LawfulRep.lo_zero, LawfulRep.hi_zero, List.replicate]

theorem blanks_words (n : Nat) : (allWords (List.replicate n (Cell.blank : Cell R)) : List W) =
    List.replicate (6 * n) (Rep.ofNat 0) := by
  induction n with
  | zero => rfl
  | succ n ih =>
    rw [List.replicate_succ]
    simp only [allWords, List.flatMap_cons] at ih ⊢
    rw [ih, blank_words, ← List.replicate_add]
    congr 1
    omega

theorem blanks_total (n : Nat) : total (List.replicate n (Cell.blank : Cell R)) = 6 * n := by
  simp [total, Cell.blank, Cell.len]
  omega

theorem blanks_start (n j : Nat) (h : j ≤ n) : start (List.replicate n (Cell.blank : Cell R)) j = 1 + 6 * j := by
  rw [start_eq, List.take_replicate, blanks_total, Nat.min_eq_left h]

/-- `push_n` -/
theorem pushN_ok {t : Tape W} (h : t.OK) (n : Nat) (hn : t.head + 6 * n ≤ cap) :
    ∃ t', t.pushN n = .ok (t.head, t') ∧ Tape.Ext t t' (List.replicate (6 * n) (Rep.ofNat 0)) := by
  obtain ⟨sz, e, a, b, c, ne, sg, fm⟩ := Tape.alloc_ok t (n * minRecSize) h (by simp only [minRecSize]; omega)
  have x := (h.resize b c fm).advance (6 * n) (by simp only [minRecSize] at a ⊢; omega) ne
  refine ⟨_, ?_, x.resize b ?_⟩
  · unfold Tape.pushN
    rw [e]
    rfl
  · simp only [minRecSize, Nat.mul_comm] at sg ⊢
    exact sg

theorem push1_eq (t : Tape W) : t.push1 = t.pushN 1 := rfl

theorem pushReal2d_eq (t : Tape W) (m : Mat R) : t.pushReal2d m = t.pushRealArray m.flat := by
  unfold Tape.pushReal2d Tape.pushRealArray
  rw [Inv.flat_length]

theorem realWords_append (a b : List R) : (Tape.realWords (a ++ b) : List W) = Tape.realWords a ++ Tape.realWords b := by
  simp [Tape.realWords]

/-- an item of an array of reals changed from `j` on -/
theorem Holds.put_reals {ids : List Nat} {t : Tape W} {cs : List (Cell R)} (h : Holds (ids, t) cs) {k j : Nat}
    {x ds : List R} (hk : cs[k]? = some (.reals x)) (hj : j + ds.length ≤ x.length) :
    ∃ t', t.wrSec (start cs k + 2 * j) (Tape.realWords ds) = .ok t' ∧
      Holds (ids, t') (cs.set k (.reals (splice x j ds))) := by
  have e : x = x.take j ++ (x.drop j).take ds.length ++ x.drop (j + ds.length) := by
    rw [List.append_assoc]
    conv_lhs => rw [← List.take_append_drop j x, ← List.take_append_drop ds.length (x.drop j)]
    rw [List.drop_drop]
  have := h.put (c' := .reals (splice x j ds)) hk (x := Tape.realWords (x.take j))
    (old := Tape.realWords ((x.drop j).take ds.length)) (new := Tape.realWords ds)
    (y := Tape.realWords (x.drop (j + ds.length)))
    (by
      show Tape.realWords x = _
      conv_lhs => rw [e]
      simp only [realWords_append])
    (by simp only [cellWords, splice, realWords_append])
    (by
      simp only [Tape.realWords_length, List.length_take, List.length_drop]
      omega) (fun _ => trivial)
  rw [Tape.realWords_length, List.length_take, Nat.min_eq_left (by omega)] at this
  exact ⟨_, this.1, this.2⟩

theorem total_does {o : TapeOp R} {cs cs' : List (Cell R)} (h : o.does cs = some cs') : total cs ≤ total cs' := by
  have hset : ∀ {k : Nat} {c c' : Cell R}, cs[k]? = some c → c'.len = c.len → total (cs.set k c') = total cs := by
    intro k c c' hk hl
    obtain ⟨h1, -⟩ := List.getElem?_eq_some_iff.mp hk
    rw [take_set cs k c' h1, total_append]
    conv_rhs => rw [split_at hk, total_append]
    simp [total, hl]
  cases o <;> simp only [TapeOp.does] at h
  case setVal k d =>
    split at h <;> cases h
    rename_i v a op dop hk
    exact (hset (c' := .record d a op dop) hk rfl).ge
  case setAdj k d =>
    split at h <;> cases h
    rename_i v a op dop hk
    exact (hset (c' := .record v d op dop) hk rfl).ge
  case setReal k j d =>
    split at h
    · rename_i hk
      split at h <;> cases h
      exact (hset hk (by simp [Cell.len])).ge
    · cases h
  case setReals k j ds =>
    split at h
    · rename_i hk
      split at h <;> cases h
      rename_i hl
      refine (hset hk ?_).ge
      simp only [Cell.len, splice, List.length_append, List.length_take, List.length_drop]
      omega
    · cases h
  all_goals
    first
    | (cases h; rw [total_append]; omega)
    | (split at h <;> cases h; rw [total_append]; omega)

theorem noted_ok {ids : List Nat} {r : Except Err (Nat × Tape W)} {id : Nat} {t : Tape W} (h : r = .ok (id, t)) :
    noted ids r = .ok (ids ++ [id], t) := by rw [h]; rfl

/-- one procedure -/
theorem Holds.run {s : Tapes W} {cs cs' : List (Cell R)} (h : Holds s cs) {o : TapeOp R} (hd : o.does cs = some cs')
    (room : 1 + total cs' ≤ cap) : ∃ s', o.run s = .ok s' ∧ Holds s' cs' := by
  obtain ⟨ids, t⟩ := s
  have hh : t.head = 1 + total cs := h.head
  have one : ∀ {c : Cell R} {r : Except Err (Nat × Tape W)}, cs' = cs ++ [c] → cellSmall c →
      (t.head + c.len ≤ cap → ∃ t', r = .ok (t.head, t') ∧ Tape.Ext t t' (cellWords c)) →
      ∃ s', noted ids r = .ok s' ∧ Holds s' cs' := by
    intro c r e hs hr
    subst e
    rw [total_append] at room
    obtain ⟨t', e, x⟩ := hr (by rw [hh]; simp [total] at room ⊢; omega)
    exact ⟨_, noted_ok e, h.push_one x hs⟩
  cases o <;> simp only [TapeOp.does] at hd
  case push1 =>
    cases hd
    refine one (c := Cell.blank) rfl (by simp [cellSmall, Cell.blank, Small]) fun hl => ?_
    rw [push1_eq, blank_words]
    exact pushN_ok h.ok 1 hl
  case pushN n =>
    cases hd
    rw [total_append, blanks_total] at room
    obtain ⟨t', e, x⟩ := pushN_ok h.ok n (by rw [show t.head = _ from hh]; omega)
    have := h.push (new := List.replicate n Cell.blank) (t' := t') (by rw [blanks_words]; exact x) (by
      intro c hc
      rw [List.eq_of_mem_replicate hc]
      simp [cellSmall, Cell.blank, Small])
    refine ⟨_, ?_, this⟩
    show (t.pushN n >>= _) = _
    rw [e]
    show Except.ok _ = _
    simp only [List.length_replicate]
    congr 3
    refine List.map_congr_left fun j hj => ?_
    rw [blanks_start n j (by simpa using (List.mem_range.mp hj).le), hh]
    omega
  case pushInts l =>
    split at hd <;> cases hd
    rename_i hs
    exact one rfl hs fun hl => Tape.pushIntArray_ok h.ok l hl
  case pushReals d =>
    cases hd
    exact one (c := .reals d) rfl trivial fun hl => Tape.pushRealArray_ok h.ok d hl
  case pushMatrix m =>
    cases hd
    refine one (c := .reals m.flat) rfl trivial fun hl => ?_
    rw [pushReal2d_eq]
    exact Tape.pushRealArray_ok h.ok m.flat hl
  case pushVal d =>
    cases hd
    exact one (c := .record d Arith.zero [] []) rfl (by simp [cellSmall, Small]) fun hl =>
      Tape.pushVal_ok h.ok d (by simpa [Cell.len] using hl)
  case pushValOp d op =>
    split at hd <;> cases hd
    rename_i hs
    exact one (c := .record d Arith.zero op []) rfl hs fun hl => Tape.pushValOp_ok h.ok d op (by simpa [Cell.len] using hl)
  case pushValDop d dop =>
    cases hd
    exact one (c := .record d Arith.zero [] dop) rfl (by simp [cellSmall, Small]) fun hl =>
      Tape.pushValDop_ok h.ok d dop (by simpa [Cell.len] using hl)
  case pushValOpDop d op dop =>
    split at hd <;> cases hd
    rename_i hs
    exact one (c := .record d Arith.zero op dop) rfl hs fun hl => Tape.pushValOpDop_ok h.ok d op dop hl
  case setVal k d =>
    split at hd <;> cases hd
    rename_i v a op dop hk
    have hk1 := (List.getElem?_eq_some_iff.mp hk).1
    obtain ⟨e, hh⟩ := h.put (c' := .record d a op dop) hk (x := []) (old := [Rep.lo v, Rep.hi v])
      (new := [Rep.lo d, Rep.hi d]) (y := [Rep.lo a, Rep.hi a] ++
        (([op.length] ++ op ++ [dop.length]).map Rep.ofNat ++ Tape.realWords dop))
      (by simp [cellWords, Tape.recWords]) (by simp [cellWords, Tape.recWords]) rfl id
    refine ⟨_, ?_, hh⟩
    show (t.setValAt (ids.getD k 0) d >>= _) = _
    rw [h.id_at hk1]
    simp only [Tape.setValAt, Tape.setRealAt, List.length_nil, Nat.add_zero] at e ⊢
    rw [e]
    rfl
  case setAdj k d =>
    split at hd <;> cases hd
    rename_i v a op dop hk
    have hk1 := (List.getElem?_eq_some_iff.mp hk).1
    obtain ⟨e, hh⟩ := h.put (c' := .record v d op dop) hk (x := [Rep.lo v, Rep.hi v]) (old := [Rep.lo a, Rep.hi a])
      (new := [Rep.lo d, Rep.hi d]) (y := (([op.length] ++ op ++ [dop.length]).map Rep.ofNat ++ Tape.realWords dop))
      (by simp [cellWords, Tape.recWords]) (by simp [cellWords, Tape.recWords]) rfl id
    refine ⟨_, ?_, hh⟩
    show (t.setAdjAt (ids.getD k 0) d >>= _) = _
    rw [h.id_at hk1]
    simp only [Tape.setAdjAt, Tape.setRealAt, List.length_cons, List.length_nil, Nat.zero_add, Nat.reduceAdd] at e ⊢
    rw [e]
    rfl
  case setReal k j d =>
    split at hd
    · rename_i x hk
      split at hd <;> cases hd
      rename_i hj
      have hk1 := (List.getElem?_eq_some_iff.mp hk).1
      obtain ⟨t', e, hh⟩ := h.put_reals (j := j) (ds := [d]) hk (by simp; omega)
      have es : splice x j [d] = x.set j d := by
        rw [take_set x j d hj]
        simp [splice]
      rw [es] at hh
      refine ⟨_, ?_, hh⟩
      show (t.setRealAt (ids.getD k 0 + 2 * j) d >>= _) = _
      rw [h.id_at hk1]
      have e' : t.setRealAt (start cs k + 2 * j) d = .ok t' := e
      rw [e']
      rfl
    · cases hd
  case setReals k j ds =>
    split at hd
    · rename_i x hk
      split at hd <;> cases hd
      rename_i hj
      have hk1 := (List.getElem?_eq_some_iff.mp hk).1
      obtain ⟨t', e, hh⟩ := h.put_reals hk hj
      refine ⟨_, ?_, hh⟩
      show (t.setRealArrayAt (ids.getD k 0 + 2 * j) ds >>= _) = _
      rw [h.id_at hk1]
      unfold Tape.setRealArrayAt
      rw [e]
      rfl
    · cases hd

theorem total_doAll {os : List (TapeOp R)} {cs cs' : List (Cell R)} (h : doAll os cs = some cs') : total cs ≤ total cs' := by
  induction os generalizing cs with
  | nil => cases h; exact le_rfl
  | cons o os ih =>
    simp only [doAll, Option.bind_eq_some_iff] at h
    obtain ⟨c1, h1, h2⟩ := h
    exact (total_does h1).trans (ih h2)

/-- all procedures -/
theorem Holds.runAll {os : List (TapeOp R)} {s : Tapes W} {cs cs' : List (Cell R)} (h : Holds s cs)
    (hd : doAll os cs = some cs') (room : 1 + total cs' ≤ cap) : ∃ s', Spec.runAll os s = .ok s' ∧ Holds s' cs' := by
  induction os generalizing s cs with
  | nil => cases hd; exact ⟨s, rfl, h⟩
  | cons o os ih =>
    simp only [doAll, Option.bind_eq_some_iff] at hd
    obtain ⟨c1, h1, h2⟩ := hd
    obtain ⟨s1, e1, g1⟩ := h.run h1 (by have := total_doAll h2; omega)
    obtain ⟨s2, e2, g2⟩ := ih g1 h2
    refine ⟨s2, ?_, g2⟩
    simp only [Spec.runAll]
    rw [e1]
    exact e2

end Fz
