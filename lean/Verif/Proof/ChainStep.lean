import Verif.Proof.Inv
import Mathlib.Data.List.GetD
import Mathlib.Data.List.Basic

/-!
# One step of the reverse sweep

`runChain` on a record is the abstract step: add the contributions to the adjoints of the
arguments.
-/

set_option linter.unusedSectionVars false

namespace Fz
variable {W R : Type} [Arith R] [Rep W R] [LawfulRep W R]
open Arith

/-- add `ds` to the adjoints at the positions `ps`, one after the other -/
def addAll : (Nat → R) → List Nat → List R → (Nat → R)
  | adj, p :: ps, d :: ds => addAll (upd adj p (adj p +. d)) ps ds
  | adj, _, _ => adj

/-- contributions of a unary function that uses the operand value -/
def cUn (f : R → R → R) (a : R) : List R → Option (List R)
  | [x] => some [f a x]
  | _ => none

/-- contributions `l`, usable if there are at least as many as operands -/
def cAll (n : Nat) (l : List R) : Option (List R) := if n ≤ l.length then some l else none

/-- contributions of a function of two operands -/
def cBin (f : R → R → List R) : List R → Option (List R)
  | [x, y] => some (f x y)
  | _ => none

/-- contributions using one data operand -/
def cDat (n : Nat) (f : R → R) : List R → Option (List R)
  | [d] => cAll n [f d]
  | _ => none

/-- contributions of a dot product of the first half of `xs` with the second half -/
def cDot (a : R) (n : Nat) (xs : List R) : List R :=
  ((xs.drop n).take n).map (fun x => a *. x) ++ (xs.take n).map fun x => a *. x

/-- what a local array of size `n` holds -/
def locArr {α : Type} (n : Nat) (l : List α) : List α := if n = 0 then [] else l

/-- contributions of a chain procedure of the user -/
def cUser (r : URule) (v a : R) (xs ds : List R) : Option (List R) :=
  match r with
  | .fixed n m es =>
    if r.fits ∧ (n = 0 ∨ xs.length = n) ∧ (m = 0 ∨ ds.length = m) ∧ xs.length ≤ es.length then
      some (r.eval a v (locArr n xs) (locArr m ds))
    else none
  | .each m _ =>
    if r.fits ∧ (m = 0 ∨ ds.length = m) then some (r.eval a v xs (locArr m ds)) else none

/-- the contributions of a record that is not a matrix-product entry: chain procedure `c`, value
`v`, adjoint `a`, operand values `xs`, data `ds`.  `none`: the chain procedure does not fit the
record. -/
def contribPlain (c : Chain) (v a : R) (xs ds : List R) : Option (List R) :=
  match c with
  | .dummy => some []
  | .abs => if isNanD v then cAll xs.length [nan] else some []
  | .sin => cUn (fun a v => a *. cos v) a xs
  | .cos => cUn (fun a v => neg (a *. sin v)) a xs
  | .tan => cAll xs.length [a *. (one +. v *. v)]
  | .asin => cUn (fun a v => a /. sqrt (one -. v *. v)) a xs
  | .acos => cUn (fun a v => neg (a /. sqrt (one -. v *. v))) a xs
  | .atan => cUn (fun a v => a /. (one +. v *. v)) a xs
  | .sinh => cUn (fun a v => a *. cosh v) a xs
  | .cosh => cUn (fun a v => a *. sinh v) a xs
  | .tanh => cUn (fun a v => a /. (cosh v *. cosh v)) a xs
  | .asinh => cUn (fun a v => a /. sqrt (v *. v +. one)) a xs
  | .acosh => cUn (fun a v => a /. sqrt (v *. v -. one)) a xs
  | .atanh => cUn (fun a v => a /. (one -. v *. v)) a xs
  | .sqrt => cAll xs.length [half *. a /. v]
  | .inv => cUn (fun a v => neg (a /. (v *. v))) a xs
  | .sq => cUn (fun a v => a *. two *. v) a xs
  | .isq => cUn (fun a v => neg (a *. two /. (v *. v *. v))) a xs
  | .isqrt => cUn (fun a v => neg (half *. a /. (v *. sqrt v))) a xs
  | .exp => cAll xs.length [a *. v]
  | .log => cUn (fun a v => a /. v) a xs
  | .logit => cUn (fun a v => a /. (v -. v *. v)) a xs
  | .invLogit => cAll xs.length [a *. v *. (one -. v)]
  | .erf => cUn (fun a v => a *. twoOverSqrtPi *. exp (neg (v *. v))) a xs
  | .erfc => cUn (fun a v => neg (a *. twoOverSqrtPi *. exp (neg (v *. v)))) a xs
  | .logGamma => cUn (fun a v => a *. digamma v) a xs
  | .addVV => cAll xs.length [a, a]
  | .addVD => cAll xs.length [a]
  | .subVV => cAll xs.length [a, neg a]
  | .subVD => cAll xs.length [a]
  | .subDV => cAll xs.length [neg a]
  | .mulVV => cBin (fun v1 v2 => [v2 *. a, v1 *. a]) xs
  | .mulVD => cDat xs.length (fun d => a *. d) ds
  | .divVV => cBin (fun _ v2 => [a /. v2, neg (v *. a /. v2)]) xs
  | .divVD => cDat xs.length (fun d => a /. d) ds
  | .divDV => cUn (fun a x => neg (v *. a /. x)) a xs
  | .powVV => cBin (fun v1 v2 => if fne v1 zero then [a *. v2 *. v /. v1, a *. v *. log v1] else []) xs
  | .powVD =>
    match xs, ds with
    | [x], [d] => if fne x zero then some [a *. d *. v /. x] else some []
    | _, _ => none
  | .powDV =>
    match ds with
    | [d] => if fne d zero then cAll xs.length [a *. v *. log d] else some []
    | _ => none
  | .hypot => some (xs.map fun x => a *. x /. v)
  | .sum => some (List.replicate xs.length a)
  | .norm2 => some (xs.map fun x => a *. x /. v)
  | .logSumExp => some (xs.map fun x => a *. exp (x -. v))
  | .dotVV => some (cDot a (xs.length / 2) xs)
  | .dotVD => cAll xs.length (ds.map fun x => a *. x)
  | .matmulVV => none
  | .matmulVD => none
  | .matmulDV => none
  | .eager => if ds.length = xs.length then some (ds.map fun x => a *. x) else none
  | .user r => cUser r v a xs ds

/-- the contributions of a record to its arguments -/
def Node.contrib (nd : Node R) (val adj : Nat → R) : Option (List R) :=
  match nd.kind with
  | .plain => contribPlain nd.chain (val nd.pos) (adj nd.pos) (nd.ops.map val) nd.dops
  | .mmVV r c =>
    if nd.chain = .matmulVV ∧ r.length = c.length then
      some (cDot (adj nd.pos) r.length ((r ++ c).map val))
    else none
  | .mmVD r d =>
    if nd.chain = .matmulVD ∧ r.length ≤ d.length then some (d.map fun x => adj nd.pos *. x) else none
  | .mmDV d c =>
    if nd.chain = .matmulDV ∧ c.length ≤ d.length then some (d.map fun x => adj nd.pos *. x) else none

theorem addAll_nil (adj : Nat → R) (ps : List Nat) : addAll adj ps [] = adj := by
  cases ps <;> rfl

theorem addAll_nil' (adj : Nat → R) (ds : List R) : addAll adj [] ds = adj := rfl

theorem addAll_ne (ps : List Nat) : ∀ (adj : Nat → R) (ds : List R) {q : Nat}, q ∉ ps →
    addAll adj ps ds q = adj q := by
  induction ps with
  | nil => intros; rfl
  | cons p ps ih =>
    intro adj ds q hq
    cases ds with
    | nil => rfl
    | cons d ds =>
      simp only [List.mem_cons, not_or] at hq
      rw [addAll, ih _ _ hq.2, upd_ne _ _ hq.1]

theorem addAll_append (ps qs : List Nat) (ds es : List R) (h : ps.length = ds.length) :
    ∀ adj : Nat → R, addAll adj (ps ++ qs) (ds ++ es) = addAll (addAll adj ps ds) qs es := by
  induction ps generalizing ds with
  | nil => intro adj; cases ds <;> simp_all [addAll]
  | cons p ps ih =>
    intro adj
    cases ds with
    | nil => simp at h
    | cons d ds => simp only [List.cons_append, addAll]; exact ih ds (by simpa using h) _

/-- only as many contributions as operands are used -/
theorem addAll_take (ps : List Nat) : ∀ (ds : List R) (adj : Nat → R),
    addAll adj ps (ds.take ps.length) = addAll adj ps ds := by
  induction ps with
  | nil => intros; rfl
  | cons p ps ih =>
    intro ds adj
    cases ds with
    | nil => rfl
    | cons d ds => simp only [List.length_cons, List.take_succ_cons, addAll]; exact ih ds _

section words
variable {t : Tape W}

omit [LawfulRep W R] in
theorem HasWords.drop_take {mem : Nat → W} {p : Nat} {ws : List W} (h : HasWords mem p ws) (k n : Nat) :
    HasWords mem (p + k) ((ws.drop k).take n) := by
  intro j hj
  simp only [List.length_take, List.length_drop] at hj
  have := h (k + j) (by omega)
  rw [← Nat.add_assoc] at this
  rw [this]
  simp

theorem HasWords.real {mem : Nat → W} {xs : List R} : ∀ {p : Nat}, HasWords mem p (Tape.realWords xs) →
    ∀ j (hj : j < xs.length), HasWords mem (p + 2 * j) [Rep.lo xs[j], Rep.hi xs[j]] := by
  induction xs with
  | nil => intro p _ j hj; simp at hj
  | cons x xs ih =>
    intro p h j hj
    have h' : HasWords mem p ([Rep.lo x, Rep.hi x] ++ Tape.realWords xs) := h
    rw [HasWords.append] at h'
    cases j with
    | zero => simpa using h'.1
    | succ j =>
      have := ih h'.2 j (by simpa using hj)
      simp only [List.length_cons, List.length_nil] at this
      have e : p + 2 * (j + 1) = p + (0 + 1 + 1) + 2 * j := by omega
      rw [e]; simpa using this

theorem cmRow_eq {α : Type} {l : List α} {m n i : Nat} {f : Nat → α}
    (h : ∀ c < n, l[c * m + i]? = some (f c)) : cmRow l m n i = (List.range n).map f := by
  unfold cmRow
  rw [← List.filterMap_eq_map]
  refine List.filterMap_congr ?_
  intro c hc
  simpa using h c (by simpa using hc)

theorem cm_lt {m n i c : Nat} (hi : i < m) (hc : c < n) : c * m + i < m * n := by
  calc c * m + i < c * m + m := by omega
    _ = (c + 1) * m := by rw [Nat.succ_mul]
    _ ≤ n * m := Nat.mul_le_mul_right m hc
    _ = m * n := Nat.mul_comm n m

theorem cmRow_length {α : Type} {l : List α} {m n i : Nat} (hl : l.length = m * n) (hi : i < m) :
    (cmRow l m n i).length = n := by
  rcases Nat.eq_zero_or_pos n with h0 | h0
  · subst h0; simp [cmRow]
  · have hpos : 0 < l.length := by rw [hl]; exact Nat.mul_pos (by omega) h0
    have hd : ∀ c < n, l[c * m + i]? = some (l.getD (c * m + i) (l[0])) := by
      intro c hc
      have : c * m + i < l.length := by rw [hl]; exact cm_lt hi hc
      rw [List.getD_eq_getElem _ _ this, List.getElem?_eq_getElem this]
    rw [cmRow_eq hd]; simp

theorem cmCol_length {α : Type} {l : List α} {m k j : Nat} (hl : l.length = m * k) (hj : j < k) :
    (cmCol l m j).length = m := by
  unfold cmCol
  have : j * m + m ≤ m * k := by
    calc j * m + m = (j + 1) * m := by rw [Nat.succ_mul]
      _ ≤ k * m := Nat.mul_le_mul_right m hj
      _ = m * k := Nat.mul_comm k m
  simp; omega

/-- a stored matrix of tape positions, inside the storage -/
structure Tape.VBlk (t : Tape W) (loc m n : Nat) (ids : List Nat) : Prop where
  pos : 1 ≤ loc
  fit : loc + (2 + ids.length) ≤ t.size + 1
  szle : t.size ≤ int32Max
  good : ids.length = m * n ∧ m ≤ int32Max ∧ n ≤ int32Max ∧ ∀ k ∈ ids, k ≤ int32Max
  words : HasWords t.mem loc (([m, n] ++ ids).map Rep.ofNat)

/-- a stored matrix of reals, inside the storage -/
structure Tape.DBlk (t : Tape W) (loc m n : Nat) (xs : List R) : Prop where
  pos : 1 ≤ loc
  fit : loc + (2 + 2 * xs.length) ≤ t.size + 1
  szle : t.size ≤ int32Max
  good : xs.length = m * n ∧ m ≤ int32Max ∧ n ≤ int32Max
  words : HasWords t.mem loc ([m, n].map Rep.ofNat ++ Tape.realWords xs)

theorem Tape.VBlk.rdRow {loc m n : Nat} {ids : List Nat} (h : t.VBlk loc m n ids) :
    t.rdN loc = .ok m ∧ t.rdN (loc + 1) = .ok n ∧ HasWords t.mem (loc + 2) (ids.map Rep.ofNat) := by
  have hw := h.words
  simp only [List.cons_append, List.nil_append, List.map_cons, HasWords.cons] at hw
  have := h.pos
  have := h.fit
  refine ⟨rdN_ok (by omega) (by omega) hw.1 h.good.2.1,
    rdN_ok (by omega) (by omega) hw.2.1 h.good.2.2.1, hw.2.2⟩

theorem Tape.VBlk.rowIndex {loc m n : Nat} {ids : List Nat} (h : t.VBlk loc m n ids) {i : Nat}
    (hi : i < m) : t.matrixRowIndex loc (i + 1) = .ok (cmRow ids m n i) := by
  obtain ⟨h1, h2, h3⟩ := h.rdRow
  unfold Tape.matrixRowIndex
  rw [h1]
  show (t.rdN (loc + 1) >>= _) = _
  rw [h2]
  show (t.rdStride (loc + 1 + (i + 1)) (loc + 1 + m * n) m >>= fun l => conform n l) = _
  have hlen := cmRow_length h.good.1 hi
  have hcnt : (loc + 1 + m * n + m - (loc + 1 + (i + 1))) / m = n := by
    have e : loc + 1 + m * n + m - (loc + 1 + (i + 1)) = (m - 1 - i) + m * n := by omega
    rw [e, Nat.add_mul_div_left _ _ (by omega), Nat.div_eq_of_lt (by omega)]
    omega
  have hst : t.rdStride (loc + 1 + (i + 1)) (loc + 1 + m * n) m = .ok (cmRow ids m n i) := by
    unfold Tape.rdStride
    rw [if_neg (by omega), hcnt]
    rw [mapM_except_ok (g := fun p => ids.getD (p - (loc + 2)) 0)]
    · rw [List.map_map]
      congr 1
      symm
      apply cmRow_eq
      intro c hc
      have hlt : c * m + i < ids.length := by rw [h.good.1]; exact cm_lt hi hc
      have e : loc + 1 + (i + 1) + c * m - (loc + 2) = c * m + i := by omega
      simp only [Function.comp, e]
      rw [List.getD_eq_getElem _ _ hlt, List.getElem?_eq_getElem hlt]
    · intro p hp
      simp only [List.mem_map, List.mem_range] at hp
      obtain ⟨c, hc, rfl⟩ := hp
      have hlt : c * m + i < ids.length := by rw [h.good.1]; exact cm_lt hi hc
      have hf := h.fit
      have e : loc + 1 + (i + 1) + c * m - (loc + 2) = c * m + i := by omega
      have e' : loc + 1 + (i + 1) + c * m = loc + 2 + (c * m + i) := by omega
      rw [e, e']
      have hm := h3 (c * m + i) (by simpa using hlt)
      rw [List.getD_eq_getElem _ _ hlt]
      apply rdN_ok (by omega) (by omega)
      · rw [hm]; simp
      · exact h.good.2.2.2 _ (List.getElem_mem hlt)
  rw [hst]
  show conform n (cmRow ids m n i) = _
  unfold conform
  rw [if_pos hlen]

theorem Tape.VBlk.colIndex {loc m n : Nat} {ids : List Nat} (h : t.VBlk loc m n ids) {j : Nat}
    (hj : j < n) : t.matrixColIndex loc (j + 1) = .ok (cmCol ids m j) := by
  obtain ⟨h1, h2, h3⟩ := h.rdRow
  unfold Tape.matrixColIndex
  rw [h1]
  have hl := cmCol_length h.good.1 hj
  show t.rdSec (loc + 1 + (j + 1 - 1) * m + 1) m = _
  have e : loc + 1 + (j + 1 - 1) * m + 1 = loc + 2 + j * m := by
    simp only [Nat.add_sub_cancel]; omega
  rw [e]
  have hw := h3.drop_take (j * m) m
  rw [← List.map_drop, ← List.map_take] at hw
  have hf := h.fit
  have hle : j * m + m ≤ ids.length := by
    have : (cmCol ids m j).length ≤ ids.length - j * m := by
      unfold cmCol; simp
    by_cases hm : m = 0
    · rw [hm] at *; simp
    · omega
  have key := rdSec_ok (cmCol ids m j) (p := loc + 2 + j * m) (t := t) (by omega)
    (by rw [hl]; omega) hw ?_
  · rwa [hl] at key
  intro k hk
  exact h.good.2.2.2 k (List.mem_of_mem_drop (List.mem_of_mem_take hk))

theorem Tape.DBlk.rdRow {loc m n : Nat} {xs : List R} (h : t.DBlk loc m n xs) :
    t.rdN loc = .ok m ∧ t.rdN (loc + 1) = .ok n ∧ HasWords t.mem (loc + 2) (Tape.realWords xs) := by
  have hw := h.words
  simp only [List.map_cons, List.map_nil, HasWords.append, HasWords.cons, List.length_cons,
    List.length_nil] at hw
  have := h.pos
  have := h.fit
  refine ⟨rdN_ok (by omega) (by omega) hw.1.1 h.good.2.1,
    rdN_ok (by omega) (by omega) hw.1.2.1 h.good.2.2, hw.2⟩

theorem Tape.DBlk.rowData {loc m n : Nat} {xs : List R} (h : t.DBlk loc m n xs) {i : Nat}
    (hi : i < m) : t.matrixRowData loc (i + 1) = .ok (cmRow xs m n i) := by
  obtain ⟨h1, h2, h3⟩ := h.rdRow
  unfold Tape.matrixRowData
  rw [h1]
  show (t.rdN (loc + 1) >>= _) = _
  rw [h2]
  show (List.range n).mapM _ = _
  rw [mapM_except_ok (g := fun c => xs.getD (c * m + i) zero)]
  · congr 1
    symm
    apply cmRow_eq
    intro c hc
    have hlt : c * m + i < xs.length := by rw [h.good.1]; exact cm_lt hi hc
    rw [List.getD_eq_getElem _ _ hlt, List.getElem?_eq_getElem hlt]
  · intro c hc
    simp only [List.mem_range] at hc
    have hlt : c * m + i < xs.length := by rw [h.good.1]; exact cm_lt hi hc
    have hf := h.fit
    rw [List.getD_eq_getElem _ _ hlt]
    have e : loc + 2 + 2 * c * m + 2 * (i + 1 - 1) = loc + 2 + 2 * (c * m + i) := by
      rw [Nat.mul_assoc]; simp only [Nat.add_sub_cancel]; omega
    rw [e]
    exact getRealAt_ok (by omega) (by omega) (h3.real _ hlt)

theorem realWords_drop_take (xs : List R) (k n : Nat) :
    (Tape.realWords ((xs.drop k).take n) : List W) = ((Tape.realWords xs).drop (2 * k)).take (2 * n) := by
  induction xs generalizing k n with
  | nil => simp [Tape.realWords]
  | cons x xs ih =>
    cases k with
    | zero =>
      cases n with
      | zero => simp [Tape.realWords]
      | succ n =>
        have := ih 0 n
        simp only [List.drop_zero, Nat.mul_zero] at this
        have e : 2 * (n + 1) = 2 * n + 1 + 1 := by omega
        simp only [List.drop_zero, List.take_succ_cons, Tape.realWords, List.flatMap_cons] at *
        rw [this, e]
        simp
    | succ k =>
      have := ih k n
      have e : 2 * (k + 1) = 2 * k + 1 + 1 := by omega
      simp only [List.drop_succ_cons, Tape.realWords, List.flatMap_cons] at *
      rw [this, e]
      simp

theorem Tape.DBlk.colData {loc m n : Nat} {xs : List R} (h : t.DBlk loc m n xs) {j : Nat}
    (hj : j < n) : t.matrixColData loc (j + 1) = .ok (cmCol xs m j) := by
  obtain ⟨h1, h2, h3⟩ := h.rdRow
  unfold Tape.matrixColData
  rw [h1]
  have hl := cmCol_length h.good.1 hj
  show t.getRealArrayAt (loc + 2 + (j + 1 - 1) * m * 2) m = _
  have e : loc + 2 + (j + 1 - 1) * m * 2 = loc + 2 + 2 * (j * m) := by
    simp only [Nat.add_sub_cancel]; omega
  rw [e]
  have hw := h3.drop_take (2 * (j * m)) (2 * m)
  rw [← realWords_drop_take] at hw
  have hf := h.fit
  have hle : j * m + m ≤ xs.length := by
    have : (cmCol xs m j).length ≤ xs.length - j * m := by
      unfold cmCol; simp
    by_cases hm : m = 0
    · rw [hm] at *; simp
    · omega
  have key := getRealArrayAt_ok (cmCol xs m j) (p := loc + 2 + 2 * (j * m)) (t := t) (by omega)
    (by rw [hl]; omega) hw
  rwa [hl] at key

end words

namespace Inv
variable {s : St W} {g : Graph R} {val adj : Nat → R}

theorem vblk (h : Inv s g val adj) {loc m n : Nat} {ids : List Nat}
    (hb : Block.vb loc m n ids ∈ g.blocks) : s.tape.VBlk loc m n ids := by
  have h1 := h.wf.bbelow _ hb
  have := h.ok.head_le
  exact ⟨h1.1, by have := h1.2; simp only [Block.loc, Block.len] at this; omega, h.ok.size_le,
    h.wf.bgood _ hb, h.blks _ hb⟩

theorem dblk (h : Inv s g val adj) {loc m n : Nat} {xs : List R}
    (hb : Block.db loc m n xs ∈ g.blocks) : s.tape.DBlk loc m n xs := by
  have h1 := h.wf.bbelow _ hb
  have := h.ok.head_le
  exact ⟨h1.1, by have := h1.2; simp only [Block.loc, Block.len] at this; omega, h.ok.size_le,
    h.wf.bgood _ hb, h.blks _ hb⟩

variable (h : Inv s g val adj) {nd : Node R} (hn : nd ∈ g.nodes) (c : Chain)
include h hn

theorem adjM : (Vari.adj ⟨nd.pos, c⟩ : M W R) s = .ok (adj nd.pos, s) :=
  readTape_ok (h.recIn hn).adjAt
theorem valM : (Vari.val ⟨nd.pos, c⟩ : M W R) s = .ok (val nd.pos, s) :=
  readTape_ok (h.recIn hn).valAt
theorem nOpM : (Vari.nOperand ⟨nd.pos, c⟩ : M W Nat) s = .ok (nd.ops.length, s) :=
  readTape_ok (h.recIn hn).nOperand
theorem opIdxM : (Vari.operandIndex ⟨nd.pos, c⟩ : M W (List Nat)) s = .ok (nd.ops, s) :=
  readTape_ok (h.recIn hn).operandIndex
theorem dataM : (Vari.dataOperand ⟨nd.pos, c⟩ : M W (List R)) s = .ok (nd.dops, s) :=
  readTape_ok (h.recIn hn).dataOperand

omit hn in
theorem valAt_pos {p : Nat} (hp : ∃ nd ∈ g.nodes, nd.pos = p) : s.tape.valAt p = .ok (val p) := by
  obtain ⟨nd, h1, rfl⟩ := hp
  exact (h.recIn h1).valAt

omit hn in
theorem adjAt_pos {p : Nat} (hp : ∃ nd ∈ g.nodes, nd.pos = p) : s.tape.adjAt p = .ok (adj p) := by
  obtain ⟨nd, h1, rfl⟩ := hp
  exact (h.recIn h1).adjAt

theorem opValM (hk : nd.kind = .plain) :
    (Vari.operandVal ⟨nd.pos, c⟩ : M W (List R)) s = .ok (nd.ops.map val, s) := by
  refine readTape_ok ((h.recIn hn).operandVal fun o ho => h.valAt_pos ?_)
  have := h.wf.args nd hn o (by simpa [Node.args, hk] using ho)
  exact this.2

omit hn in
theorem valsAt (l : List Nat) (hl : ∀ p ∈ l, ∃ nd ∈ g.nodes, nd.pos = p) :
    (l.mapM fun p => (readTape fun t => t.valAt p : M W R)) s = .ok (l.map val, s) :=
  mapM_M_ok l fun p hp => readTape_ok (h.valAt_pos (hl p hp))

omit h hn in
theorem setByIndex (this : Vari) (ps : List Nat) : ∀ (ds : List R) {s : St W} {adj : Nat → R},
    Inv s g val adj →
    (∀ p ∈ ps, ∃ nd ∈ g.nodes, nd.pos = p) → ps.length ≤ ds.length →
    ∃ m, (this.setOperandAdjByIndex ps ds : M W Unit) s = .ok ((), s.withMem m) ∧
      Inv (s.withMem m) g val (addAll adj ps ds) := by
  induction ps with
  | nil => intro ds s adj h _ _; exact ⟨s.tape.mem, rfl, h⟩
  | cons p ps ih =>
    intro ds s adj h hp hl
    cases ds with
    | nil => simp at hl
    | cons d ds =>
      obtain ⟨nd', h1, rfl⟩ := hp p (by simp)
      obtain ⟨m, e, i⟩ := h.setAdj h1 (adj nd'.pos +. d)
      obtain ⟨m', e', i'⟩ := ih ds i (fun q hq => hp q (by simp [hq])) (by simpa using hl)
      refine ⟨m', ?_, i'⟩
      unfold Vari.setOperandAdjByIndex
      rw [bind_ok (readTape_ok (h.recIn h1).adjAt), bind_ok (modTape_ok e)]
      exact e'

theorem setAll (hk : nd.kind = .plain) (d : List R) (hd : nd.ops.length ≤ d.length) :
    ∃ m, (Vari.setOperandAdjAll ⟨nd.pos, c⟩ d : M W Unit) s = .ok ((), s.withMem m) ∧
      Inv (s.withMem m) g val (addAll adj nd.args d) := by
  have ha : nd.args = nd.ops := by simp [Node.args, hk]
  rw [ha]
  have hp : ∀ p ∈ nd.ops, ∃ nd' ∈ g.nodes, nd'.pos = p := fun p hp =>
    (h.wf.args nd hn p (by rwa [ha])).2
  obtain ⟨m, e, i⟩ := setByIndex (g := g) (val := val) ⟨nd.pos, c⟩ nd.ops d h hp hd
  refine ⟨m, ?_, i⟩
  unfold Vari.setOperandAdjAll
  rw [bind_ok (h.nOpM hn c), if_neg (by omega), bind_ok (h.opIdxM hn c)]
  exact e

/-- nothing to do -/
theorem noop : ∃ m, (pure () : M W Unit) s = .ok ((), s.withMem m) ∧
      Inv (s.withMem m) g val (addAll adj nd.args []) :=
  ⟨s.tape.mem, rfl, by rw [addAll_nil]; exact h⟩

theorem chainUn' (hk : nd.kind = .plain) (f : R → R → R) {l : List R}
    (hc : cUn f (adj nd.pos) (nd.ops.map val) = some l) :
    ∃ m, (chainUn f ⟨nd.pos, c⟩ : M W Unit) s = .ok ((), s.withMem m) ∧
      Inv (s.withMem m) g val (addAll adj nd.args l) := by
  unfold cUn at hc
  split at hc
  · rename_i x hx
    cases hc
    have hlen : nd.ops.length = 1 := by
      have := congrArg List.length hx; simpa using this
    obtain ⟨m, e, i⟩ := h.setAll hn c hk [f (adj nd.pos) x] (by simp [hlen])
    refine ⟨m, ?_, i⟩
    unfold chainUn
    rw [bind_ok (h.opValM hn c hk), hx, bind_ok (a := x) (s' := s) rfl, bind_ok (h.adjM hn c)]
    exact e
  · cases hc

theorem cAll_run (hk : nd.kind = .plain) {d l : List R}
    (hc : cAll (nd.ops.map val).length d = some l) :
    ∃ m, (Vari.setOperandAdjAll ⟨nd.pos, c⟩ d : M W Unit) s = .ok ((), s.withMem m) ∧
      Inv (s.withMem m) g val (addAll adj nd.args l) := by
  unfold cAll at hc
  split at hc
  · rename_i hl
    cases hc
    exact h.setAll hn c hk d (by simpa using hl)
  · cases hc

theorem chainUnVal' (hk : nd.kind = .plain) (f : R → R → R) {l : List R}
    (hc : cAll (nd.ops.map val).length [f (adj nd.pos) (val nd.pos)] = some l) :
    ∃ m, (chainUnVal f ⟨nd.pos, c⟩ : M W Unit) s = .ok ((), s.withMem m) ∧
      Inv (s.withMem m) g val (addAll adj nd.args l) := by
  obtain ⟨m, e, i⟩ := h.cAll_run hn c hk hc
  refine ⟨m, ?_, i⟩
  unfold chainUnVal
  rw [bind_ok (h.adjM hn c), bind_ok (h.valM hn c)]
  exact e

theorem dotProductVV (r k z : List Nat) (ha : nd.args = r ++ k ++ z) (hl : r.length = k.length) :
    ∃ m, (chainDotProductVV ⟨nd.pos, c⟩ r k : M W Unit) s = .ok ((), s.withMem m) ∧
      Inv (s.withMem m) g val (addAll adj nd.args (cDot (adj nd.pos) r.length ((r ++ k).map val))) := by
  have hargs := h.wf.args nd hn
  rw [ha] at hargs
  have hr : ∀ p ∈ r, ∃ nd ∈ g.nodes, nd.pos = p := fun p hp => (hargs p (by simp [hp])).2
  have hk : ∀ p ∈ k, ∃ nd ∈ g.nodes, nd.pos = p := fun p hp => (hargs p (by simp [hp])).2
  have hnr : nd.pos ∉ r := fun hp => by have := (hargs nd.pos (by simp [hp])).1; omega
  obtain ⟨m, e, i⟩ := setByIndex (g := g) (val := val) ⟨nd.pos, c⟩ r
    ((k.map val).map fun x => adj nd.pos *. x) h hr (by simp [hl])
  have hadj : (Vari.adj ⟨nd.pos, c⟩ : M W R) (s.withMem m) = .ok (adj nd.pos, s.withMem m) := by
    have := i.adjM hn c
    rwa [addAll_ne r adj _ hnr] at this
  obtain ⟨m', e', i'⟩ := setByIndex (g := g) (val := val) ⟨nd.pos, c⟩ k
    ((r.map val).map fun x => adj nd.pos *. x) i hk (by simp [hl])
  refine ⟨m', ?_, ?_⟩
  · unfold chainDotProductVV
    rw [bind_ok (h.adjM hn c), bind_ok (h.valsAt k hk)]
    have hcf : (confN r.length ((k.map val).map fun x => adj nd.pos *. x) : M W (List R)) s =
        .ok (((k.map val).map fun x => adj nd.pos *. x), s) := by
      unfold confN; rw [if_pos (by simp [hl])]; rfl
    rw [bind_ok hcf, bind_ok e, bind_ok hadj, bind_ok (i.valsAt r hr)]
    exact e'
  · have hcd : cDot (adj nd.pos) r.length ((r ++ k).map val) =
        ((k.map val).map fun x => adj nd.pos *. x) ++ ((r.map val).map fun x => adj nd.pos *. x) := by
      unfold cDot
      simp [hl]
      exact List.take_of_length_le (by simp)
    have hz := addAll_append (r ++ k) z (((k.map val).map fun x => adj nd.pos *. x) ++
        ((r.map val).map fun x => adj nd.pos *. x)) [] (by simp [hl]) adj
    rw [List.append_nil] at hz
    rw [hcd, ha, hz, addAll_nil, addAll_append _ _ _ _ (by simp [hl])]
    exact i'

theorem dotProductVD (r : List Nat) (d : List R) (ha : nd.args = r) (hl : r.length ≤ d.length) :
    ∃ m, (chainDotProductVD ⟨nd.pos, c⟩ r d : M W Unit) s = .ok ((), s.withMem m) ∧
      Inv (s.withMem m) g val (addAll adj nd.args (d.map fun x => adj nd.pos *. x)) := by
  have hargs := h.wf.args nd hn
  rw [ha] at hargs ⊢
  obtain ⟨m, e, i⟩ := setByIndex (g := g) (val := val) ⟨nd.pos, c⟩ r
    (d.map fun x => adj nd.pos *. x) h (fun p hp => (hargs p hp).2) (by simpa using hl)
  refine ⟨m, ?_, i⟩
  unfold chainDotProductVD
  rw [bind_ok (h.adjM hn c)]
  exact e

omit h hn in
theorem conf1_ok {α : Type} (x : α) (s : St W) : (conf1 [x] : M W α) s = .ok (x, s) := rfl
omit h hn in
theorem conf2_ok {α : Type} (x y : α) (s : St W) : (conf2 [x, y] : M W (α × α)) s = .ok ((x, y), s) := rfl

omit h hn in
theorem localArr_ok {α : Type} {n : Nat} {m : M W (List α)} {l : List α} {s : St W} (hm : m s = .ok (l, s))
    (hl : n = 0 ∨ l.length = n) : (localArr n m : M W (List α)) s = .ok (locArr n l, s) := by
  unfold localArr locArr
  split
  · rfl
  · rename_i h0
    rw [bind_ok hm]
    unfold confN
    rw [if_pos (by omega)]
    rfl

theorem runPlain (hk : nd.kind = .plain) {l : List R}
    (hc : contribPlain nd.chain (val nd.pos) (adj nd.pos) (nd.ops.map val) nd.dops = some l) :
    ∃ m, (runChain ⟨nd.pos, nd.chain⟩ : M W Unit) s = .ok ((), s.withMem m) ∧
      Inv (s.withMem m) g val (addAll adj nd.args l) := by
  unfold runChain
  cases hch : nd.chain <;> rw [hch] at hc <;> simp only [contribPlain] at hc <;> simp only
  case sin | cos | asin | acos | atan | sinh | cosh | tanh | asinh | acosh | atanh | inv | sq | isq | isqrt | log | logit | erf | erfc | logGamma =>
    exact h.chainUn' hn _ hk _ hc
  case tan | sqrt | exp | invLogit => exact h.chainUnVal' hn _ hk _ hc
  case dummy => cases hc; exact h.noop hn
  case abs =>
    unfold chainAbs
    split at hc
    · obtain ⟨m, e, i⟩ := h.cAll_run hn .abs hk hc
      refine ⟨m, ?_, i⟩
      rw [bind_ok (h.valM hn _)]
      rename_i hnan
      rw [if_pos hnan]; exact e
    · cases hc
      rename_i hnan
      obtain ⟨m, e, i⟩ := h.noop hn
      refine ⟨m, ?_, i⟩
      rw [bind_ok (h.valM hn _), if_neg hnan]; exact e
  case addVV =>
    obtain ⟨m, e, i⟩ := h.cAll_run hn .addVV hk hc
    exact ⟨m, by unfold chainAddVV; rw [bind_ok (h.adjM hn _)]; exact e, i⟩
  case addVD =>
    obtain ⟨m, e, i⟩ := h.cAll_run hn .addVD hk hc
    exact ⟨m, by unfold chainAddVD; rw [bind_ok (h.adjM hn _)]; exact e, i⟩
  case subVV =>
    obtain ⟨m, e, i⟩ := h.cAll_run hn .subVV hk hc
    exact ⟨m, by unfold chainSubVV; rw [bind_ok (h.adjM hn _)]; exact e, i⟩
  case subVD =>
    obtain ⟨m, e, i⟩ := h.cAll_run hn .subVD hk hc
    exact ⟨m, by unfold chainSubVD; rw [bind_ok (h.adjM hn _)]; exact e, i⟩
  case subDV =>
    obtain ⟨m, e, i⟩ := h.cAll_run hn .subDV hk hc
    exact ⟨m, by unfold chainSubDV; rw [bind_ok (h.adjM hn _)]; exact e, i⟩
  case mulVV =>
    unfold cBin at hc
    split at hc
    · rename_i x y hx
      cases hc
      have hlen : nd.ops.length = 2 := by have := congrArg List.length hx; simpa using this
      obtain ⟨m, e, i⟩ := h.setAll hn .mulVV hk [y *. adj nd.pos, x *. adj nd.pos] (by simp [hlen])
      refine ⟨m, ?_, i⟩
      unfold chainMulVV
      rw [bind_ok (h.opValM hn _ hk), hx, bind_ok (conf2_ok x y s)]
      dsimp only
      rw [bind_ok (h.adjM hn _)]
      exact e
    · cases hc
  case divVV =>
    unfold cBin at hc
    split at hc
    · rename_i x y hx
      cases hc
      have hlen : nd.ops.length = 2 := by have := congrArg List.length hx; simpa using this
      obtain ⟨m, e, i⟩ := h.setAll hn .divVV hk
        [adj nd.pos /. y, neg (val nd.pos *. adj nd.pos /. y)] (by simp [hlen])
      refine ⟨m, ?_, i⟩
      unfold chainDivVV
      rw [bind_ok (h.opValM hn _ hk), hx, bind_ok (conf2_ok x y s)]
      dsimp only
      rw [bind_ok (h.adjM hn _), bind_ok (h.valM hn _)]
      exact e
    · cases hc
  case powVV =>
    unfold cBin at hc
    split at hc
    · rename_i x y hx
      have hlen : nd.ops.length = 2 := by have := congrArg List.length hx; simpa using this
      cases hc
      by_cases hz : fne x zero = true
      · obtain ⟨m, e, i⟩ := h.setAll hn .powVV hk
          [adj nd.pos *. y *. val nd.pos /. x, adj nd.pos *. val nd.pos *. log x] (by simp [hlen])
        refine ⟨m, ?_, by beta_reduce; rw [if_pos hz]; exact i⟩
        unfold chainPowVV
        rw [bind_ok (h.opValM hn _ hk), hx, bind_ok (conf2_ok x y s)]
        simp only [hz, if_true]
        rw [bind_ok (h.adjM hn _), bind_ok (h.valM hn _)]
        exact e
      · obtain ⟨m, e, i⟩ := h.noop hn
        refine ⟨m, ?_, by beta_reduce; rw [if_neg hz]; exact i⟩
        unfold chainPowVV
        rw [bind_ok (h.opValM hn _ hk), hx, bind_ok (conf2_ok x y s)]
        simp only [hz]
        exact e
    · cases hc
  case mulVD =>
    unfold cDat at hc
    split at hc
    · rename_i d hd
      obtain ⟨m, e, i⟩ := h.cAll_run hn .mulVD hk hc
      refine ⟨m, ?_, i⟩
      unfold chainMulVD
      rw [bind_ok (h.adjM hn _), bind_ok (h.dataM hn _), hd, bind_ok (conf1_ok d s)]
      exact e
    · cases hc
  case divVD =>
    unfold cDat at hc
    split at hc
    · rename_i d hd
      obtain ⟨m, e, i⟩ := h.cAll_run hn .divVD hk hc
      refine ⟨m, ?_, i⟩
      unfold chainDivVD
      rw [bind_ok (h.dataM hn _), hd, bind_ok (conf1_ok d s), bind_ok (h.adjM hn _)]
      exact e
    · cases hc
  case divDV =>
    unfold cUn at hc
    split at hc
    · rename_i x hx
      cases hc
      have hlen : nd.ops.length = 1 := by have := congrArg List.length hx; simpa using this
      obtain ⟨m, e, i⟩ := h.setAll hn .divDV hk
        [neg (val nd.pos *. adj nd.pos /. x)] (by simp [hlen])
      refine ⟨m, ?_, i⟩
      unfold chainDivDV
      rw [bind_ok (h.opValM hn _ hk), hx, bind_ok (conf1_ok x s), bind_ok (h.adjM hn _),
        bind_ok (h.valM hn _)]
      exact e
    · cases hc
  case powVD =>
    split at hc
    · rename_i x d hx hd
      have hlen : nd.ops.length = 1 := by have := congrArg List.length hx; simpa using this
      by_cases hz : fne x zero = true
      · rw [if_pos hz] at hc
        cases hc
        obtain ⟨m, e, i⟩ := h.setAll hn .powVD hk
          [adj nd.pos *. d *. val nd.pos /. x] (by simp [hlen])
        refine ⟨m, ?_, i⟩
        unfold chainPowVD
        rw [bind_ok (h.opValM hn _ hk), hx, bind_ok (conf1_ok x s), bind_ok (h.dataM hn _), hd,
          bind_ok (conf1_ok d s), if_pos hz, bind_ok (h.adjM hn _), bind_ok (h.valM hn _)]
        exact e
      · rw [if_neg hz] at hc
        cases hc
        obtain ⟨m, e, i⟩ := h.noop hn
        refine ⟨m, ?_, i⟩
        unfold chainPowVD
        rw [bind_ok (h.opValM hn _ hk), hx, bind_ok (conf1_ok x s), bind_ok (h.dataM hn _), hd,
          bind_ok (conf1_ok d s), if_neg hz]
        exact e
    · cases hc
  case powDV =>
    split at hc
    · rename_i d hd
      by_cases hz : fne d zero = true
      · rw [if_pos hz] at hc
        obtain ⟨m, e, i⟩ := h.cAll_run hn .powDV hk hc
        refine ⟨m, ?_, i⟩
        unfold chainPowDV
        rw [bind_ok (h.dataM hn _), hd, bind_ok (conf1_ok d s), if_pos hz,
          bind_ok (h.adjM hn _), bind_ok (h.valM hn _)]
        exact e
      · rw [if_neg hz] at hc
        cases hc
        obtain ⟨m, e, i⟩ := h.noop hn
        refine ⟨m, ?_, i⟩
        unfold chainPowDV
        rw [bind_ok (h.dataM hn _), hd, bind_ok (conf1_ok d s), if_neg hz]
        exact e
    · cases hc
  case hypot | norm2 =>
    cases hc
    obtain ⟨m, e, i⟩ := h.setAll hn _ hk ((nd.ops.map val).map fun x => adj nd.pos *. x /. val nd.pos)
      (by simp)
    refine ⟨m, ?_, i⟩
    unfold chainHypot
    rw [bind_ok (h.opValM hn _ hk), bind_ok (h.adjM hn _), bind_ok (h.valM hn _)]
    exact e
  case logSumExp =>
    cases hc
    obtain ⟨m, e, i⟩ := h.setAll hn _ hk
      ((nd.ops.map val).map fun x => adj nd.pos *. exp (x -. val nd.pos)) (by simp)
    refine ⟨m, ?_, i⟩
    unfold chainLogSumExp
    rw [bind_ok (h.opValM hn _ hk), bind_ok (h.adjM hn _), bind_ok (h.valM hn _)]
    exact e
  case sum =>
    cases hc
    rw [List.length_map]
    obtain ⟨m, e, i⟩ := h.setAll hn _ hk (List.replicate nd.ops.length (adj nd.pos)) (by simp)
    refine ⟨m, ?_, i⟩
    unfold chainSum
    rw [bind_ok (h.nOpM hn _), bind_ok (h.adjM hn _)]
    exact e
  case dotVV =>
    cases hc
    rw [List.length_map]
    have hle : nd.ops.length / 2 + nd.ops.length / 2 ≤ nd.ops.length := by omega
    have hsplit : nd.ops = nd.ops.take (nd.ops.length / 2) ++
        (nd.ops.drop (nd.ops.length / 2)).take (nd.ops.length / 2) ++
        (nd.ops.drop (nd.ops.length / 2)).drop (nd.ops.length / 2) := by
      rw [List.append_assoc, List.take_append_drop, List.take_append_drop]
    obtain ⟨m, e, i⟩ := h.dotProductVV hn .dotVV (nd.ops.take (nd.ops.length / 2))
      ((nd.ops.drop (nd.ops.length / 2)).take (nd.ops.length / 2))
      ((nd.ops.drop (nd.ops.length / 2)).drop (nd.ops.length / 2))
      (by rw [← hsplit]; simp [Node.args, hk]) (by simp; omega)
    refine ⟨m, ?_, ?_⟩
    · unfold chainDotVV
      rw [bind_ok (h.nOpM hn _), bind_ok (h.opIdxM hn _)]
      exact e
    · have hmin : (nd.ops.take (nd.ops.length / 2)).length = nd.ops.length / 2 := by
        simp; omega
      have hcd : cDot (adj nd.pos) (nd.ops.length / 2) (nd.ops.map val) =
          cDot (adj nd.pos) (nd.ops.take (nd.ops.length / 2)).length
            ((nd.ops.take (nd.ops.length / 2) ++
              (nd.ops.drop (nd.ops.length / 2)).take (nd.ops.length / 2)).map val) := by
        rw [hmin]
        have h1 : (nd.ops.take (nd.ops.length / 2) ++
              (nd.ops.drop (nd.ops.length / 2)).take (nd.ops.length / 2)).drop (nd.ops.length / 2)
            = (nd.ops.drop (nd.ops.length / 2)).take (nd.ops.length / 2) :=
          List.drop_left' hmin
        have h2 : (nd.ops.take (nd.ops.length / 2) ++
              (nd.ops.drop (nd.ops.length / 2)).take (nd.ops.length / 2)).take (nd.ops.length / 2)
            = nd.ops.take (nd.ops.length / 2) :=
          List.take_left' hmin
        unfold cDot
        rw [← List.map_drop, ← List.map_drop, ← List.map_take, ← List.map_take, ← List.map_take,
          ← List.map_take, h1, h2, List.take_take, Nat.min_self]
      rw [hcd]; exact i
  case dotVD =>
    unfold cAll at hc
    split at hc
    · cases hc
      rename_i hl
      obtain ⟨m, e, i⟩ := h.dotProductVD hn .dotVD nd.ops nd.dops (by simp [Node.args, hk])
        (by simpa using hl)
      refine ⟨m, ?_, i⟩
      unfold chainDotVD
      rw [bind_ok (h.opIdxM hn _), bind_ok (h.dataM hn _)]
      exact e
    · cases hc
  case matmulVV | matmulVD | matmulDV => cases hc
  case eager =>
    split at hc
    · rename_i hl
      cases hc
      obtain ⟨m, e, i⟩ := h.setAll hn .eager hk (nd.dops.map fun x => adj nd.pos *. x)
        (by simp [hl])
      refine ⟨m, ?_, i⟩
      unfold chainEager
      have hcf : (confN nd.ops.length (nd.dops.map fun x => adj nd.pos *. x) : M W (List R)) s =
          .ok ((nd.dops.map fun x => adj nd.pos *. x), s) := by
        unfold confN; rw [if_pos (by simpa using hl)]; rfl
      rw [bind_ok (h.nOpM hn _), bind_ok (h.adjM hn _), bind_ok (h.dataM hn _), bind_ok hcf]
      exact e
    · cases hc
  case user r =>
    unfold chainUser
    cases r with
    | fixed n m es =>
      simp only [cUser] at hc
      split at hc
      · rename_i hl
        cases hc
        obtain ⟨mm, e, i⟩ := h.setAll hn (.user (.fixed n m es)) hk
          ((URule.fixed n m es).eval (adj nd.pos) (val nd.pos) (locArr n (nd.ops.map val)) (locArr m nd.dops))
          (by simpa [URule.eval] using hl.2.2.2)
        refine ⟨mm, ?_, i⟩
        rw [if_pos hl.1]
        simp only
        rw [bind_ok (localArr_ok (h.opValM hn _ hk) hl.2.1), bind_ok (localArr_ok (h.dataM hn _) hl.2.2.1),
          bind_ok (h.adjM hn _), bind_ok (h.valM hn _)]
        exact e
      · cases hc
    | each m le =>
      simp only [cUser] at hc
      split at hc
      · rename_i hl
        cases hc
        obtain ⟨mm, e, i⟩ := h.setAll hn (.user (.each m le)) hk
          ((URule.each m le).eval (adj nd.pos) (val nd.pos) (nd.ops.map val) (locArr m nd.dops))
          (by simp [URule.eval])
        refine ⟨mm, ?_, i⟩
        rw [if_pos hl.1]
        simp only
        rw [bind_ok (h.opValM hn _ hk), bind_ok (localArr_ok (h.dataM hn _) hl.2),
          bind_ok (h.adjM hn _), bind_ok (h.valM hn _)]
        exact e
      · cases hc

/-- one step of the sweep -/
theorem runChain {l : List R} (hc : nd.contrib val adj = some l) :
    ∃ m, (Fz.runChain ⟨nd.pos, nd.chain⟩ : M W Unit) s = .ok ((), s.withMem m) ∧
      Inv (s.withMem m) g val (addAll adj nd.args l) := by
  have hkd := h.wf.kinds nd hn
  unfold Node.contrib at hc
  unfold KindOK at hkd
  split at hc
  · rename_i hk
    exact h.runPlain hn hk hc
  · rename_i r k hk
    split at hc
    · rename_i hh
      obtain ⟨hch, hl⟩ := hh
      cases hc
      rw [hk] at hkd
      obtain ⟨i, j, la, m, n, ids, lb, q, ids', ho, hb1, hb2, hi, hj, e1, e2⟩ := hkd
      obtain ⟨mm, e, iv⟩ := h.dotProductVV hn nd.chain r k [] (by simp [Node.args, hk]) hl
      refine ⟨mm, ?_, iv⟩
      rw [hch] at e
      rw [hch]
      show chainMatmulVV _ _ = _
      unfold chainMatmulVV
      rw [bind_ok (h.opIdxM hn _), ho, bind_ok (a := (i + 1, j + 1, la, lb)) (s' := s) rfl]
      show (readTape _ >>= _) _ = _
      rw [bind_ok (readTape_ok ((h.vblk hb1).rowIndex hi)),
        bind_ok (readTape_ok ((h.vblk hb2).colIndex hj)), ← e1, ← e2]
      exact e
    · cases hc
  · rename_i r d hk
    split at hc
    · rename_i hh
      obtain ⟨hch, hl⟩ := hh
      cases hc
      rw [hk] at hkd
      obtain ⟨i, j, la, m, n, ids, lb, q, xs, ho, hb1, hb2, hi, hj, e1, e2⟩ := hkd
      obtain ⟨mm, e, iv⟩ := h.dotProductVD hn nd.chain r d (by simp [Node.args, hk]) hl
      refine ⟨mm, ?_, iv⟩
      rw [hch] at e
      rw [hch]
      show chainMatmulVD _ _ = _
      unfold chainMatmulVD
      rw [bind_ok (h.opIdxM hn _), ho, bind_ok (a := (i + 1, j + 1, la, lb)) (s' := s) rfl]
      show (readTape _ >>= _) _ = _
      rw [bind_ok (readTape_ok ((h.vblk hb1).rowIndex hi)),
        bind_ok (readTape_ok ((h.dblk hb2).colData hj)), ← e1, ← e2]
      exact e
    · cases hc
  · rename_i d k hk
    split at hc
    · rename_i hh
      obtain ⟨hch, hl⟩ := hh
      cases hc
      rw [hk] at hkd
      obtain ⟨i, j, la, m, n, xs, lb, q, ids', ho, hb1, hb2, hi, hj, e1, e2⟩ := hkd
      obtain ⟨mm, e, iv⟩ := h.dotProductVD hn nd.chain k d (by simp [Node.args, hk]) hl
      refine ⟨mm, ?_, iv⟩
      rw [hch] at e
      rw [hch]
      show chainMatmulDV _ _ = _
      unfold chainMatmulDV
      rw [bind_ok (h.opIdxM hn _), ho, bind_ok (a := (i + 1, j + 1, la, lb)) (s' := s) rfl]
      show (readTape _ >>= _) _ = _
      rw [bind_ok (readTape_ok ((h.dblk hb1).rowData hi)),
        bind_ok (readTape_ok ((h.vblk hb2).colIndex hj)), ← e1, ← e2]
      exact e
    · cases hc

end Inv

end Fz
