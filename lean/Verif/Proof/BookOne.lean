import Verif.Props.Proper

/-! # Gradients of functions that make one call: the book's numbers in closed form -/

set_option linter.unusedSectionVars false

namespace Fz
open Spec Props

section
variable {W R : Type} [Arith R] [Rep W R] [LawfulRep W R]

theorem mapM_length {α β : Type} (f : α → M W β) (l : List α) {s s' : St W} {r : List β}
    (h : (l.mapM f) s = .ok (r, s')) : r.length = l.length := by
  induction l generalizing s r with
  | nil =>
    rw [List.mapM_nil] at h
    cases h
    rfl
  | cons x l ih =>
    rw [List.mapM_cons] at h
    obtain ⟨a, s1, -, h2⟩ := bind_inv h
    obtain ⟨as, s2, h3, h4⟩ := bind_inv h2
    cases h4
    simp [ih h3]

/-- `gradient` calls the function with as many variables as there are inputs -/
theorem gradient_congr {f f' : List Var → M W Var} {x : List R}
    (h : ∀ xv s, xv.length = x.length → f xv s = f' xv s) (s : St W) :
    (gradient f x : M W (R × List R)) s = gradient f' x s := by
  unfold gradient
  cases e0 : (beginNested : M W Unit) s with
  | error e => rw [bind_err e0, bind_err e0]
  | ok q =>
    obtain ⟨u, s0⟩ := q
    rw [bind_ok e0, bind_ok e0]
    cases e1 : (newVars x : M W (List Var)) s0 with
    | error e => rw [bind_err e1, bind_err e1]
    | ok q =>
      obtain ⟨xv, s1⟩ := q
      rw [bind_ok e1, bind_ok e1]
      have hx := h xv s1 (mapM_length _ _ e1)
      cases e2 : f xv s1 with
      | error e =>
        have e2' : f' xv s1 = .error e := hx ▸ e2
        rw [bind_err e2, bind_err e2']
      | ok q =>
        obtain ⟨fv, s2⟩ := q
        have e2' : f' xv s1 = .ok (fv, s2) := hx ▸ e2
        rw [bind_ok e2, bind_ok e2']

/-- a function equal to a program, and the program by the book -/
theorem gradient_by_code {c : Client W} {f : List Var → M W Var} {k : Code R} {x : List R} (hc : Commutes R)
    (h : Orderly (R := R) false c) (hl : c.marks.length < 10)
    (hf : ∀ xv s, xv.length = x.length → f xv s = k.scalar [] xv s)
    (hq : (Ask.gradient k x).Suits false c.st.tape.head []) :
    ∃ y df s', (gradient f x : M W (R × List R)) c.st = .ok ((y, df), s') ∧ k.bookGradient [] x = some (y, df) := by
  obtain ⟨r, s', e, hb⟩ := C52_ask (W := W) (e := []) hc h hl (by simp) (ys := []) rfl hq
  unfold Ask.call at e
  obtain ⟨⟨y, df⟩, s1, e1, e2⟩ := bind_inv e
  cases e2
  refine ⟨y, df, s', by rw [gradient_congr hf]; exact e1, ?_⟩
  simp only [Ask.book] at hb
  cases hk : k.bookGradient [] x with
  | none => rw [hk] at hb; cases hb
  | some p =>
    rw [hk] at hb
    simp only [Option.map_some, Option.some.injEq, Answer.gradient.injEq] at hb
    rw [← hb.1, ← hb.2]

/-- a function that makes one call with one result, as a program -/
theorem one_scalar {m : Make R} {g : List Var → M W Var} {n : Nat} (ha : ∀ i ∈ m.args, i < n) (xv : List Var)
    (hx : xv.length = n) (hcall : (m.call xv : M W (List Var)) = single (g xv)) (s : St W) :
    g xv s = (Code.make m (.ret [n])).scalar [] xv s := by
  unfold Code.scalar
  simp only [Code.run, List.append_nil, hx]
  rw [if_pos ha, hcall]
  unfold single
  cases e : g xv s with
  | error e' => rw [bind_err (bind_err (bind_err e))]
  | ok q =>
    obtain ⟨r, s1⟩ := q
    have e1 : ((g xv >>= fun v => pure [v]) : M W (List Var)) s = .ok ([r], s1) := by rw [bind_ok e]; rfl
    rw [bind_ok (by rw [bind_ok e1]; simp [hx, nth]; rfl)]
    rfl

end

section
variable {R : Type} [Arith R]

/-- the inputs, as operands -/
def operands (k : Nat) (x : List R) : List (Num R) := (x.zipIdx k).map fun p => ⟨some p.2, p.1⟩

theorem operands_val (x : List R) (k : Nat) : (operands k x).map Num.val = x := by
  unfold operands
  rw [List.map_map]
  exact List.zipIdx_map_fst k x

theorem operands_ref (x : List R) (k : Nat) : (operands k x).map Num.ref = (List.range' k x.length).map some := by
  unfold operands
  rw [List.map_map, ← List.zipIdx_map_snd k x, List.map_map]
  rfl

theorem operands_length (x : List R) (k : Nat) : (operands k x).length = x.length := by simp [operands]

theorem each_input (x : List R) (T : List (Step R)) : Log.each input x T =
    (operands T.length x, T ++ x.map fun v => ⟨v, [], fun _ => []⟩) := by
  induction x generalizing T with
  | nil => simp [Log.each, Log.ret, operands]
  | cons v x ih =>
    simp only [Log.each, Log.next, input, step, Log.ret]
    rw [ih]
    simp [operands]

theorem backFrom_append (A B : List (Step R)) (k : Nat) (adj : Nat → R) :
    backFrom k (A ++ B) adj = backFrom k A (backFrom (k + A.length) B adj) := by
  induction A generalizing k with
  | nil => rfl
  | cons a A ih =>
    simp only [List.cons_append, backFrom, ih, List.length_cons]
    rw [show k + 1 + A.length = k + (A.length + 1) by omega]

theorem backFrom_inputs (x : List R) (k : Nat) (adj : Nat → R) :
    backFrom k (x.map fun v => (⟨v, [], fun _ => []⟩ : Step R)) adj = adj := by
  induction x generalizing k with
  | nil => rfl
  | cons v x ih => simp only [List.map_cons, backFrom, ih, receive]

theorem receive_range (ds : List R) (k : Nat) (adj : Nat → R) (j : Nat) :
    receive adj ((List.range' k ds.length).map some) ds j =
      if k ≤ j ∧ j < k + ds.length then Arith.add (adj j) (ds.getD (j - k) Arith.zero) else adj j := by
  induction ds generalizing k adj with
  | nil => simp [receive]
  | cons d ds ih =>
    simp only [List.length_cons, List.range'_succ, List.map_cons, receive, ih]
    by_cases h : j = k
    · subst h
      simp
    · by_cases h2 : k + 1 ≤ j ∧ j < k + 1 + ds.length
      · rw [if_pos h2, if_neg h, if_pos (by omega)]
        obtain ⟨m, rfl⟩ : ∃ m, j = k + 1 + m := ⟨j - (k + 1), by omega⟩
        rw [show k + 1 + m - k = m + 1 by omega, show k + 1 + m - (k + 1) = m by omega]
        rfl
      · rw [if_neg h2, if_neg h, if_neg (by omega)]

theorem map_opd (l : List (Num R)) {n : Nat} (h : l.length = n) : (List.range n).map (opd l) = l := by
  subst h
  apply List.ext_getElem (by simp)
  intro i h1 h2
  simp [opd, h2]

theorem map_nth (l : List Var) {n : Nat} (h : l.length = n) : (List.range n).map (nth l) = l := by
  subst h
  apply List.ext_getElem (by simp)
  intro i h1 h2
  simp [nth, h2]

theorem map_num (l : List R) {n : Nat} (h : l.length = n) : (List.range n).map (num l) = l := by
  subst h
  apply List.ext_getElem (by simp)
  intro i h1 h2
  simp [num, h2]

/-- one step that has all inputs as operands, in order -/
theorem row_one (x : List R) (v : R) (pass : R → List R) (hp : (pass Arith.one).length = x.length) :
    rowOf ((x.map fun v => (⟨v, [], fun _ => []⟩ : Step R)) ++ [⟨v, (List.range' 0 x.length).map some, pass⟩]) x.length
      ⟨some x.length, v⟩ = (pass Arith.one).map (Arith.add Arith.zero) := by
  unfold rowOf
  apply List.ext_getElem (by simp [hp])
  intro i h1 h2
  have hi : i < x.length := by simpa using h1
  rw [List.getElem_map, List.getElem_range, backFrom_append, backFrom_inputs, List.getElem_map]
  simp only [backFrom, List.length_map, Nat.zero_add]
  rw [show (seed (some x.length) x.length : R) = Arith.one by simp [seed], ← hp, receive_range,
    if_pos ⟨Nat.zero_le _, by omega⟩]
  rw [Nat.sub_zero, List.getD_eq_getElem _ _ (by omega)]
  congr 1
  simp [seed]
  omega

/-- a program of one call that makes one step with all inputs as operands -/
theorem book_one {m : Make R} {x : List R} {v : R} {pass : R → List R}
    (hw : ∀ T, m.write (operands 0 x) T = ([⟨some T.length, v⟩], T ++ [⟨v, (operands 0 x).map Num.ref, pass⟩]))
    (hp : (pass Arith.one).length = x.length) :
    (Code.make m (.ret [x.length])).bookGradient [] x = some (v, (pass Arith.one).map (Arith.add Arith.zero)) := by
  unfold Code.bookGradient Code.steps
  simp only [Log.next, each_input, List.length_nil, List.nil_append, List.map_nil, List.append_nil, Code.write, hw,
    Log.ret]
  have ho : opd (operands 0 x ++ [⟨some (x.map fun v => (⟨v, [], fun _ => []⟩ : Step R)).length, v⟩]) x.length =
      ⟨some x.length, v⟩ := by
    simp [opd, operands_length]
  simp only [List.map_cons, List.map_nil, ho]
  rw [operands_ref, row_one _ _ _ hp]

end

end Fz
