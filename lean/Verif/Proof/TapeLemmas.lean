import Verif.Model.Grad
import Mathlib.Order.Basic
import Mathlib.Algebra.Order.Group.Nat
import Mathlib.Tactic.Common

/-!
# Word-level lemmas about the tape
-/

set_option linter.unusedSectionVars false

namespace Fz
variable {W R : Type} [Arith R] [Rep W R]

/-- room for growth: the storage doubles from 12288 words; 12288 * 2^17 is the last size that is an
`int32`.  An allocation request succeeds if and only if it ends below this position. -/
def cap : Nat := 1610612737

/-- `ws` written over `mem` from position `i` on -/
def overlay (mem : Nat → W) (i : Nat) (ws : List W) : Nat → W := fun k =>
  if k < i then mem k else (ws[k - i]?).getD (mem k)

theorem overlay_lt {mem : Nat → W} {i : Nat} {ws : List W} {k : Nat} (h : k < i) :
    overlay mem i ws k = mem k := by simp [overlay, h]

theorem overlay_ge {mem : Nat → W} {i : Nat} {ws : List W} {k : Nat} (h : i + ws.length ≤ k) :
    overlay mem i ws k = mem k := by
  have h1 : ¬ k < i := by omega
  have h2 : ws[k - i]? = none := by simp; omega
  simp [overlay, h1, h2]

theorem overlay_get {mem : Nat → W} {i : Nat} {ws : List W} {j : Nat} (h : j < ws.length) :
    overlay mem i ws (i + j) = ws[j] := by
  have h1 : ¬ i + j < i := by omega
  simp [overlay, h, h1]

theorem overlay_nil (mem : Nat → W) (i : Nat) : overlay mem i ([] : List W) = mem := by
  funext k; simp [overlay]

namespace Tape

theorem rd_ok {t : Tape W} {i : Nat} (h1 : 1 ≤ i) (h2 : i ≤ t.size) : t.rd i = .ok (t.mem i) := by
  simp [rd, h1, h2]

theorem wr_ok {t : Tape W} {i : Nat} {w : W} (h1 : 1 ≤ i) (h2 : i ≤ t.size) :
    t.wr i w = .ok { t with mem := fun k => if k = i then w else t.mem k } := by
  simp [wr, h1, h2]

theorem wrSec_ok (ws : List W) : ∀ (t : Tape W) (i : Nat), 1 ≤ i → i + ws.length ≤ t.size + 1 →
    t.wrSec i ws = .ok { t with mem := overlay t.mem i ws } := by
  induction ws with
  | nil => intro t i _ _; simp [wrSec, overlay_nil]; rfl
  | cons w ws ih =>
    intro t i h1 h2
    simp only [List.length_cons] at h2
    have hw : t.wr i w = .ok { t with mem := fun k => if k = i then w else t.mem k } :=
      wr_ok h1 (by omega)
    rw [wrSec, hw]
    show Tape.wrSec _ (i + 1) ws = _
    rw [ih _ (i + 1) (by omega) (by simp; omega)]
    congr 2
    funext k
    simp only [overlay]
    by_cases hk : k < i
    · have : k < i + 1 := by omega
      simp [hk, this]; omega
    · by_cases hki : k = i
      · subst hki; simp
      · have h3 : ¬ k < i + 1 := by omega
        have h4 : k - i = (k - (i + 1)) + 1 := by omega
        simp [hk, h3, hki, h4]

/-- what every operation keeps: the head is inside the storage, the storage size is an `int32`,
and all words from the head on are zero -/
structure OK (t : Tape W) : Prop where
  head_pos : 1 ≤ t.head
  head_le : t.head ≤ t.size + 1
  size_le : t.size ≤ int32Max
  zero : ∀ i, i = 0 ∨ t.head ≤ i → t.mem i = Rep.ofNat 0
  /-- the storage grows by doubling from its initial size -/
  form : t.size = 0 ∨ ∃ k, t.size = initTapeSize * 2 ^ k

theorem ok_init : (Tape.init : Tape W).OK := by
  constructor <;> simp [Tape.init, int32Max]

/-- a store that had `old` places and has `new` now is no larger than needed for `need` places: it was
not enlarged, or it has its first size `base`, or half of it would not do -/
def _root_.Fz.Snug (base old new need : Nat) : Prop := new = old ∨ new = base ∨ new < 2 * need

theorem _root_.Fz.Snug.trans {base a b c n m : Nat} (h : Snug base a b n) (h' : Snug base b c m) (hn : n ≤ m) :
    Snug base a c m := by
  unfold Snug at *
  omega

theorem _root_.Fz.Snug.mono {base a b n m : Nat} (h : Snug base a b n) (hn : n ≤ m) : Snug base a b m := by
  unfold Snug at *
  omega

theorem allocLoop_ok (t : Tape W) (n : Nat) (h : t.OK) (hs : t.size ≠ 0) (hn : t.head + n ≤ cap) :
    ∃ sz, t.allocLoop n = .ok { t with size := sz } ∧ t.head + n ≤ sz + 1 ∧ t.size ≤ sz ∧
      sz ≤ int32Max ∧ (sz = t.size ∨ sz < 2 * (t.head + n - 1)) ∧ ∃ k, sz = t.size * 2 ^ k := by
  fun_induction allocLoop t n with
  | case1 t h1 h2 => omega
  | case2 t h1 h2 h3 ih =>
    have hz : ∀ i, t.size < i → t.mem i = Rep.ofNat 0 := fun i hi =>
      h.zero i (Or.inr (by have := h.head_le; omega))
    have hmem : (fun i => if i ≤ t.size then t.mem i else Rep.ofNat 0) = t.mem := by
      funext i
      split
      · rfl
      · rw [hz i (by omega)]
    simp only [dite_eq_ite] at ih
    rw [hmem] at ih ⊢
    have hok : Tape.OK { t with size := 2 * t.size } :=
      ⟨h.head_pos, by have := h.head_le; simp; omega, h3, h.zero, by
        rcases h.form with f | ⟨k, f⟩
        · exact absurd f h2
        · right; exact ⟨k + 1, by simp only [f, Nat.pow_succ]; ac_rfl⟩⟩
    obtain ⟨sz, e, a, b, c, g, k, f⟩ := ih hok (by show 2 * t.size ≠ 0; omega) hn
    have b' : 2 * t.size ≤ sz := b
    refine ⟨sz, e, a, by omega, c, ?_, k + 1, ?_⟩
    swap
    · rw [f, Nat.pow_succ]; ac_rfl
    rcases g with g | g
    · right; rw [g]; omega
    · exact Or.inr g
  | case3 t h1 h2 h3 =>
    exfalso
    rcases h.form with f | ⟨k, f⟩
    · exact h2 f
    · by_cases hk : k ≤ 16
      · have : 2 ^ k ≤ 2 ^ 16 := Nat.pow_le_pow_right (by omega) hk
        simp only [int32Max, initTapeSize, minRecSize, initVariStackSize] at *
        omega
      · have : 2 ^ 17 ≤ 2 ^ k := Nat.pow_le_pow_right (by omega) (by omega)
        simp only [cap, initTapeSize, minRecSize, initVariStackSize] at *
        omega
  | case4 t h1 =>
    refine ⟨t.size, rfl, by omega, Nat.le_refl _, h.size_le, Or.inl rfl, 0, by simp⟩

theorem alloc_ok (t : Tape W) (n : Nat) (h : t.OK) (hn : t.head + n ≤ cap) :
    ∃ sz, t.alloc n = .ok { t with size := sz } ∧ t.head + n ≤ sz + 1 ∧ t.size ≤ sz ∧
      sz ≤ int32Max ∧ sz ≠ 0 ∧ Snug initTapeSize t.size sz (t.head + n - 1) ∧ ∃ k, sz = initTapeSize * 2 ^ k := by
  unfold alloc
  split
  · rename_i h0
    have hh : t.head = 1 := by have := h.head_pos; have := h.head_le; omega
    have hmem : (fun _ => Rep.ofNat 0) = t.mem := by
      funext i
      rw [h.zero i (by omega)]
    rw [hmem]
    have hok : Tape.OK { t with size := initTapeSize } :=
      ⟨h.head_pos, by simp [hh], by simp [initTapeSize, minRecSize, initVariStackSize, int32Max],
        h.zero, Or.inr ⟨0, by simp⟩⟩
    obtain ⟨sz, e, a, b, c, g, k, f⟩ := allocLoop_ok _ n hok
      (by simp [initTapeSize, minRecSize, initVariStackSize]) hn
    refine ⟨sz, e, a, by omega, c, ?_, g.elim (fun g => Or.inr (Or.inl g)) fun g => Or.inr (Or.inr g), k, f⟩
    simp [initTapeSize, minRecSize, initVariStackSize] at b; omega
  · rename_i h0
    obtain ⟨sz, e, a, b, c, g, k, f⟩ := allocLoop_ok t n h h0 hn
    refine ⟨sz, e, a, b, c, by omega, g.imp_right Or.inr, ?_⟩
    rcases h.form with f' | ⟨k', f'⟩
    · exact absurd f' h0
    · exact ⟨k' + k, by rw [f, f', Nat.pow_add]; ac_rfl⟩

/-- the converse: a request that ends above `cap` fails -/
theorem allocLoop_fail (t : Tape W) (n : Nat) (hs : t.size ≤ 1610612736) (hn : cap < t.head + n)
    (hf : ∃ k, t.size = initTapeSize * 2 ^ k) : t.allocLoop n = .error .overflow := by
  fun_induction allocLoop t n with
  | case1 t h1 h2 => rfl
  | case2 t h1 h2 h3 ih =>
    simp only [dite_eq_ite] at ih
    obtain ⟨k, f⟩ := hf
    refine ih ?_ hn ⟨k + 1, by show 2 * t.size = _; rw [f, Nat.pow_succ]; ac_rfl⟩
    show 2 * t.size ≤ _
    by_cases hk : k ≤ 16
    · have : 2 ^ k ≤ 2 ^ 16 := Nat.pow_le_pow_right (by omega) hk
      simp only [initTapeSize, minRecSize, initVariStackSize] at f
      omega
    · have : 2 ^ 17 ≤ 2 ^ k := Nat.pow_le_pow_right (by omega) (by omega)
      simp only [int32Max, initTapeSize, minRecSize, initVariStackSize] at *
      omega
  | case3 t h1 h2 h3 => rfl
  | case4 t h1 => simp only [cap] at hn; omega

theorem OK.size_le' {t : Tape W} (h : t.OK) : t.size ≤ 1610612736 := by
  rcases h.form with f | ⟨k, f⟩
  · omega
  · have := h.size_le
    by_cases hk : k ≤ 17
    · have : 2 ^ k ≤ 2 ^ 17 := Nat.pow_le_pow_right (by omega) hk
      simp only [initTapeSize, minRecSize, initVariStackSize] at f
      omega
    · have : 2 ^ 18 ≤ 2 ^ k := Nat.pow_le_pow_right (by omega) (by omega)
      simp only [int32Max, initTapeSize, minRecSize, initVariStackSize] at *
      omega

theorem alloc_fail (t : Tape W) (n : Nat) (h : t.OK) (hn : cap < t.head + n) :
    t.alloc n = .error .overflow := by
  unfold alloc
  split
  · exact allocLoop_fail _ n (by simp [initTapeSize, minRecSize, initVariStackSize]) hn ⟨0, by simp⟩
  · rename_i h0
    refine allocLoop_fail t n h.size_le' hn ?_
    rcases h.form with f | f
    · exact absurd f h0
    · exact f

/-- the head never passes `cap` -/
theorem OK.head_le_cap {t : Tape W} (h : t.OK) : t.head ≤ cap := by
  have := h.head_le
  have := h.size_le'
  simp only [cap]; omega

/-- `t'` extends `t` by the words `ws` at the head -/
structure Ext (t t' : Tape W) (ws : List W) : Prop where
  ok : t'.OK
  head : t'.head = t.head + ws.length
  mem : t'.mem = overlay t.mem t.head ws
  size : t.size ≤ t'.size
  ne : t'.size ≠ 0
  snug : Snug initTapeSize t.size t'.size (t'.head - 1)

theorem realWords_length (d : List R) : (realWords d : List W).length = 2 * d.length := by
  induction d with
  | nil => rfl
  | cons a d ih => simp only [realWords, List.flatMap_cons, List.length_append] at *; simp [ih]; omega

/-- writing `ws` at the head and advancing the head -/
theorem ext_of_write {t : Tape W} (h : t.OK) {sz : Nat} (ws : List W)
    (h1 : t.head + ws.length ≤ sz + 1) (h2 : t.size ≤ sz) (h3 : sz ≤ int32Max) (h4 : sz ≠ 0)
    (hs : Snug initTapeSize t.size sz (t.head + ws.length - 1)) (hf : ∃ k, sz = initTapeSize * 2 ^ k) :
    Ext t { head := t.head + ws.length, size := sz, mem := overlay t.mem t.head ws } ws := by
  refine ⟨⟨?_, ?_, h3, ?_, Or.inr hf⟩, rfl, rfl, h2, h4, hs⟩
  · have := h.head_pos; simp; omega
  · simpa using h1
  · intro i hi
    simp only at hi
    show overlay t.mem t.head ws i = _
    rcases hi with hi | hi
    · subst hi
      rw [overlay_lt (by have := h.head_pos; omega)]
      exact h.zero 0 (Or.inl rfl)
    · rw [overlay_ge hi]
      exact h.zero i (Or.inr (by omega))

theorem pushIntArray_ok {t : Tape W} (h : t.OK) (i : List Nat) (hn : t.head + i.length ≤ cap) :
    ∃ t', t.pushIntArray i = .ok (t.head, t') ∧ Ext t t' (i.map Rep.ofNat) := by
  obtain ⟨sz, e, a, b, c, d, sg, fm⟩ := alloc_ok t i.length h hn
  refine ⟨_, ?_, ext_of_write h (i.map Rep.ofNat) (sz := sz) (by simpa using a) b c d (by simpa using sg) fm⟩
  unfold pushIntArray
  rw [e]
  have := wrSec_ok (i.map Rep.ofNat) { t with size := sz } t.head h.head_pos (by simpa using a)
  show (Tape.wrSec { t with size := sz } t.head (i.map Rep.ofNat) >>= _) = _
  rw [this]
  simp [bind, Except.bind, pure, Except.pure]

theorem pushRealArray_ok {t : Tape W} (h : t.OK) (d : List R) (hn : t.head + 2 * d.length ≤ cap) :
    ∃ t', t.pushRealArray d = .ok (t.head, t') ∧ Ext t t' (realWords d) := by
  obtain ⟨sz, e, a, b, c, ne, sg, fm⟩ := alloc_ok t (2 * d.length) h hn
  refine ⟨_, ?_, ext_of_write h (realWords d) (sz := sz) (by rw [realWords_length]; exact a) b c ne
    (by rw [realWords_length]; exact sg) fm⟩
  unfold pushRealArray
  rw [e]
  have := wrSec_ok (realWords d) { t with size := sz } t.head h.head_pos
    (by rw [realWords_length]; exact a)
  show (Tape.wrSec { t with size := sz } t.head (realWords d) >>= _) = _
  rw [this]
  simp [bind, Except.bind, pure, Except.pure, realWords_length]

/-- two consecutive extensions -/
theorem Ext.trans {t t' t'' : Tape W} {ws ws' : List W} (h : Ext t t' ws) (h' : Ext t' t'' ws') :
    Ext t t'' (ws ++ ws') := by
  refine ⟨h'.ok, ?_, ?_, le_trans h.size h'.size, h'.ne, h.snug.trans h'.snug (by rw [h'.head]; omega)⟩
  · rw [h'.head, h.head]; simp; omega
  · rw [h'.mem, h.mem, h.head]
    funext k
    simp only [overlay]
    by_cases h1 : k < t.head
    · have : k < t.head + ws.length := by omega
      simp [h1, this]
    · by_cases h2 : k < t.head + ws.length
      · have : k - t.head < ws.length := by omega
        simp [h1, h2, List.getElem?_append_left, this]
      · have h3 : ws.length ≤ k - t.head := by omega
        have h4 : ws[k - t.head]? = none := by simp; omega
        simp [h1, h2, List.getElem?_append_right h3, h4, Nat.sub_sub]

/-- enlarging the storage -/
theorem OK.resize {t : Tape W} (h : t.OK) {sz : Nat} (h2 : t.size ≤ sz) (h3 : sz ≤ int32Max)
    (hf : ∃ k, sz = initTapeSize * 2 ^ k) : Tape.OK { t with size := sz } :=
  ⟨h.head_pos, by have := h.head_le; simp only; omega, h3, h.zero, Or.inr hf⟩

theorem Ext.resize {t t' : Tape W} {ws : List W} {sz : Nat} (h : Ext { t with size := sz } t' ws)
    (h2 : t.size ≤ sz) (hs : Snug initTapeSize t.size sz (t'.head - 1)) : Ext t t' ws :=
  ⟨h.ok, h.head, h.mem, le_trans h2 h.size, h.ne, hs.trans h.snug (le_refl _)⟩

/-- the head of a record: value, zero adjoint.  The adjoint words are not written by the code:
they are zero because everything above the head is. -/
theorem valHead_ok [LawfulRep W R] {t : Tape W} (h : t.OK) (v : R)
    (h1 : t.head + 4 ≤ t.size + 1) (h4 : t.size ≠ 0) :
    ∃ t', t.setValCurr v = .ok t' ∧ t'.size = t.size ∧ t'.head = t.head ∧
      Ext t { t' with head := t'.head + 4 }
        [Rep.lo v, Rep.hi v, Rep.lo (Arith.zero : R), Rep.hi (Arith.zero : R)] := by
  have hw := wrSec_ok [Rep.lo v, Rep.hi v] t t.head h.head_pos
    (by simp; omega)
  refine ⟨_, hw, rfl, rfl, ?_⟩
  have := ext_of_write h (sz := t.size)
    [Rep.lo v, Rep.hi v, Rep.lo (Arith.zero : R), Rep.hi (Arith.zero : R)] (by simpa using h1) (le_refl _) h.size_le h4
    (Or.inl rfl) (h.form.resolve_left h4)
  simp only [LawfulRep.lo_zero, LawfulRep.hi_zero] at this ⊢
  have hm : overlay t.mem t.head [Rep.lo v, Rep.hi v] =
      overlay t.mem t.head ([Rep.lo v, Rep.hi v, Rep.ofNat 0, Rep.ofNat 0] : List W) := ?_
  · rw [hm]; exact this
  funext k
  simp only [overlay]
  by_cases hk : k < t.head
  · simp [hk]
  · simp only [hk, if_false]
    have hz := h.zero k (Or.inr (by omega))
    rcases Nat.lt_or_ge (k - t.head) 4 with h5 | h5
    · have : k - t.head = 0 ∨ k - t.head = 1 ∨ k - t.head = 2 ∨ k - t.head = 3 := by omega
      rcases this with h6 | h6 | h6 | h6 <;> simp [h6, hz]
    · have e1 : ([Rep.lo v, Rep.hi v] : List W)[k - t.head]? = none := by simp; omega
      have e2 : ([Rep.lo v, Rep.hi v, Rep.ofNat 0, Rep.ofNat 0] : List W)[k - t.head]? = none := by
        simp; omega
      rw [e1, e2]

/-- the words of a record -/
def recWords (v a : R) (ops : List Nat) (dops : List R) : List W :=
  [Rep.lo v, Rep.hi v, Rep.lo a, Rep.hi a] ++
    (([ops.length] ++ ops ++ [dops.length]).map Rep.ofNat ++ realWords dops)

theorem recWords_length (v a : R) (ops : List Nat) (dops : List R) :
    (recWords v a ops dops : List W).length = 6 + ops.length + 2 * dops.length := by
  simp [recWords, realWords_length]; omega

theorem pushValOpDop_ok [LawfulRep W R] {t : Tape W} (h : t.OK) (v : R) (ops : List Nat)
    (dops : List R) (hn : t.head + (6 + ops.length + 2 * dops.length) ≤ cap) :
    ∃ t', t.pushValOpDop v ops dops = .ok (t.head, t') ∧
      Ext t t' (recWords v Arith.zero ops dops) := by
  obtain ⟨sz, e, a, b, c, ne, sg, fm⟩ := alloc_ok t 4 h (by omega)
  obtain ⟨t1, e1, hsz, hh, x0⟩ := valHead_ok (h.resize b c fm) v a ne
  have x1 := x0.resize b (by simpa [hh] using sg)
  obtain ⟨t2, e2, x2⟩ := pushIntArray_ok x1.ok ([ops.length] ++ ops ++ [dops.length])
    (by rw [x1.head]; simp; omega)
  obtain ⟨t3, e3, x3⟩ := pushRealArray_ok x2.ok dops (by rw [x2.head, x1.head]; simp; omega)
  refine ⟨t3, ?_, x1.trans (x2.trans x3)⟩
  unfold pushValOpDop
  simp only [e, bind, Except.bind, e1, e2, e3, pure, Except.pure]

theorem pushValOp_ok [LawfulRep W R] {t : Tape W} (h : t.OK) (v : R) (ops : List Nat)
    (hn : t.head + (6 + ops.length) ≤ cap) :
    ∃ t', t.pushValOp v ops = .ok (t.head, t') ∧
      Ext t t' (recWords v Arith.zero ops []) := by
  obtain ⟨sz, e, a, b, c, ne, sg, fm⟩ := alloc_ok t 4 h (by omega)
  obtain ⟨t1, e1, hsz, hh, x0⟩ := valHead_ok (h.resize b c fm) v a ne
  have x1 := x0.resize b (by simpa [hh] using sg)
  obtain ⟨t2, e2, x2⟩ := pushIntArray_ok x1.ok ([ops.length] ++ ops ++ [0])
    (by rw [x1.head]; simp; omega)
  refine ⟨t2, ?_, ?_⟩
  · unfold pushValOp
    simp only [e, bind, Except.bind, e1, e2, pure, Except.pure]
  · have := x1.trans x2
    simpa [recWords, realWords] using this

/-- zero words written at the head: nothing changes -/
theorem overlay_zeros (n : Nat) {m : Nat → W} {i : Nat}
    (hm : ∀ k, i ≤ k → m k = Rep.ofNat 0) :
    overlay m i (List.replicate n (Rep.ofNat 0)) = m := by
  funext k
  simp only [overlay]
  split
  · rfl
  · rename_i hk
    rw [List.getElem?_replicate]
    split
    · simp [hm k (by omega)]
    · rfl

/-- advancing the head over zero words -/
theorem OK.advance {t : Tape W} (h : t.OK) (n : Nat) (hn : t.head + n ≤ t.size + 1) (ne : t.size ≠ 0) :
    Ext t { t with head := t.head + n } (List.replicate n (Rep.ofNat 0)) := by
  refine ⟨⟨?_, ?_, h.size_le, ?_, h.form⟩, by simp, ?_, le_refl _, ne, Or.inl rfl⟩
  · have := h.head_pos; simp; omega
  · simpa using hn
  · intro i hi; exact h.zero i (by simp only at hi; omega)
  · rw [overlay_zeros n (fun k hk => h.zero k (Or.inr hk))]

theorem pushVal_ok [LawfulRep W R] {t : Tape W} (h : t.OK) (v : R) (hn : t.head + 6 ≤ cap) :
    ∃ t', t.pushVal v = .ok (t.head, t') ∧ Ext t t' (recWords v Arith.zero [] []) := by
  obtain ⟨sz, e, a, b, c, ne, sg, fm⟩ := alloc_ok t 6 h hn
  obtain ⟨t1, e1, hsz, hh, x1⟩ := valHead_ok (h.resize b c fm) v (by simp only; omega) ne
  simp only at hsz hh
  have x2 := x1.ok.advance 2 (by simp [hsz, hh]; omega) (by simpa [hsz] using ne)
  refine ⟨{ t1 with head := t1.head + 6 }, ?_, ?_⟩
  · unfold pushVal
    simp only [minRecSize, e, bind, Except.bind, e1, pure, Except.pure]
  · have := (x1.trans x2).resize b (by simpa [hh] using sg)
    simpa [recWords, realWords] using this

theorem pushValDop_ok [LawfulRep W R] {t : Tape W} (h : t.OK) (v : R) (dops : List R)
    (hn : t.head + (6 + 2 * dops.length) ≤ cap) :
    ∃ t', t.pushValDop v dops = .ok (t.head, t') ∧ Ext t t' (recWords v Arith.zero [] dops) := by
  obtain ⟨sz, e, a, b, c, ne, sg, fm⟩ := alloc_ok t 6 h (by omega)
  obtain ⟨t1, e1, hsz, hh, x1⟩ := valHead_ok (h.resize b c fm) v (by simp only; omega) ne
  simp only at hsz hh
  have x2 := x1.ok.advance 1 (by simp [hsz, hh]; omega) (by simpa [hsz] using ne)
  have x3 := ext_of_write x2.ok (sz := sz) [(Rep.ofNat dops.length : W)]
    (by simp [hh]; omega) (by simp [hsz]) c ne (Or.inl (by simp [hsz])) fm
  obtain ⟨t4, e4, x4⟩ := pushRealArray_ok x3.ok dops (by simp [hh]; omega)
  refine ⟨t4, ?_, ?_⟩
  · have e5 := wrSec_ok [(Rep.ofNat dops.length : W)] { t1 with head := t1.head + 4 + 1 } (t1.head + 4 + 1)
      (by omega) (by simp [hsz, hh]; omega)
    simp only [wrSec, bind, Except.bind] at e5
    unfold pushValDop
    simp only [minRecSize, e, bind, Except.bind, e1, pure, Except.pure]
    cases hw : Tape.wr { t1 with head := t1.head + 4 + 1 } (t1.head + 4 + 1) (Rep.ofNat dops.length : W) with
    | error er => rw [hw] at e5; simp at e5
    | ok t5 =>
      rw [hw] at e5
      simp only [pure, Except.pure, Except.ok.injEq] at e5
      subst e5
      simp only [List.length_cons, List.length_nil] at e4
      simp only [hsz]
      rw [e4]
  · have := (x1.trans (x2.trans (x3.trans x4))).resize b (sg.mono (by rw [x4.head]; simp [hh]))
    simpa [recWords, realWords] using this

end Tape
end Fz
