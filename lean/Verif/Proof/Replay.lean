import Verif.Proof.TwinGrad
import Verif.Proof.Nest

/-!
# A completed call of `gradient` or `jacobian` is a history of calls
-/

set_option linter.unusedSectionVars false

namespace Fz
open Arith Spec

variable {W R : Type} [Arith R] [Rep W R] [LawfulRep W R]

/-- the matrix of new names -/
def _root_.Spec.Matrix'.ren (ρ : Nat → Nat) (m : Matrix' Nat) : Matrix' Nat := ⟨m.nrow, m.ncol, fun i j => ρ (m.get i j)⟩

/-- the same call with other names of its variables -/
def _root_.Spec.Make.ren (ρ : Nat → Nat) : Make R → Make R
  | .new0 => .new0
  | .new d => .new d
  | .newVals ds => .newVals ds
  | .newArr n => .newArr n
  | .fn f i => .fn f (ρ i)
  | .fnArr f is => .fnArr f (is.map ρ)
  | .bin f i j => .bin f (ρ i) (ρ j)
  | .binArr f is js => .binArr f (is.map ρ) (js.map ρ)
  | .binVD f i d => .binVD f (ρ i) d
  | .binDV f d i => .binDV f d (ρ i)
  | .sum is => .sum (is.map ρ)
  | .norm2 is => .norm2 (is.map ρ)
  | .logSumExp is => .logSumExp (is.map ρ)
  | .dotVV is js => .dotVV (is.map ρ) (js.map ρ)
  | .dotVD is ds => .dotVD (is.map ρ) ds
  | .dotDV ds is => .dotDV ds (is.map ρ)
  | .matmulVV a b => .matmulVV (a.ren ρ) (b.ren ρ)
  | .matmulVD a b => .matmulVD (a.ren ρ) b
  | .matmulDV a b => .matmulDV a (b.ren ρ)
  | .lpdfVV d ys m s => .lpdfVV d ys (ρ m) (ρ s)
  | .lpdfVD d ys m s => .lpdfVD d ys (ρ m) s
  | .lpdfDV d ys m s => .lpdfDV d ys m (ρ s)
  | .partials x is ds => .partials x (is.map ρ) ds
  | .user x r is ds => .user x r (is.map ρ) ds

theorem ren_list (ρ : Nat → Nat) (m : Matrix' Nat) : (m.ren ρ).list = m.list.map ρ := by
  simp [Matrix'.list, Matrix'.ren, Function.comp_def]

theorem ren_args (ρ : Nat → Nat) (m : Make R) : (m.ren ρ).args = m.args.map ρ := by
  cases m <;> simp [Make.ren, Make.args, ren_list]

theorem ren_sane (ρ : Nat → Nat) {m : Make R} (h : m.Sane) : (m.ren ρ).Sane := by
  cases m <;> try trivial
  case binVD f _ _ => cases f <;> exact h
  case binDV f _ _ => cases f <;> exact h
  all_goals exact h

theorem mem_list {α : Type} {m : Matrix' α} {i j : Nat} (hi : i < m.nrow) (hj : j < m.ncol) : m.get i j ∈ m.list := by
  unfold Matrix'.list entries
  simp only [List.mem_map, List.mem_flatMap, List.mem_range]
  exact ⟨(i, j), ⟨j, hj, i, hi, rfl⟩, rfl⟩

theorem readTape_st {α : Type} {f : Tape W → Except Err α} {s s' : St W} {a : α} (h : readTape f s = .ok (a, s')) : s' = s := by
  unfold readTape at h
  split at h
  · cases h; rfl
  · cases h

theorem getVari_st {k : Nat} {s s' : St W} {v : Vari} (h : getVari k s = .ok (v, s')) : s' = s := by
  unfold getVari at h
  split at h
  · cases h; rfl
  · cases h

theorem Var.val_st {v : Var} {s s' : St W} {x : R} (h : v.val s = .ok (x, s')) : s' = s := by
  unfold Var.val at h
  obtain ⟨u, s1, e1, e2⟩ := bind_inv h
  unfold Vari.val at e2
  rw [readTape_st e2, getVari_st e1]

theorem Var.adj_st {v : Var} {s s' : St W} {x : R} (h : v.adj s = .ok (x, s')) : s' = s := by
  unfold Var.adj at h
  obtain ⟨u, s1, e1, e2⟩ := bind_inv h
  unfold Vari.adj at e2
  rw [readTape_st e2, getVari_st e1]

theorem mapM_st {α β : Type} {f : α → M W β} (hf : ∀ {a s s' x}, f a s = .ok (x, s') → s' = s) :
    ∀ {l : List α} {s s' : St W} {xs : List β}, l.mapM f s = .ok (xs, s') → s' = s := by
  intro l
  induction l with
  | nil => intro s s' xs h; rw [List.mapM_nil] at h; cases h; rfl
  | cons a l ih =>
    intro s s' xs h
    rw [List.mapM_cons] at h
    obtain ⟨x, s1, e1, e2⟩ := bind_inv h
    obtain ⟨y, s2, e3, e4⟩ := bind_inv e2
    cases e4
    rw [ih e3, hf e1]

theorem vals_st {vs : List Var} {s s' : St W} {xs : List R} (h : vals vs s = .ok (xs, s')) : s' = s :=
  mapM_st (fun h => Var.val_st h) h

theorem adjs_st {vs : List Var} {s s' : St W} {xs : List R} (h : adjs vs s = .ok (xs, s')) : s' = s :=
  mapM_st (fun h => Var.adj_st h) h

section congr
variable {a a' b b' : Mat Var}

/-- the same matrix within its bounds -/
def MatEq (a a' : Mat Var) : Prop := a.nrow = a'.nrow ∧ a.ncol = a'.ncol ∧ ∀ i < a.nrow, ∀ j < a.ncol, a.get i j = a'.get i j

theorem MatEq.flat (h : MatEq a a') : a.flat = a'.flat := by
  unfold Mat.flat
  rw [← h.1, ← h.2.1]
  refine List.flatMap_congr fun j hj => List.map_congr_left fun i hi => ?_
  exact h.2.2 i (by simpa using hi) j (by simpa using hj)

theorem MatEq.push (h : MatEq a a') : (pushVarMat a : M W Nat) = pushVarMat a' := by
  unfold pushVarMat
  rw [h.flat, h.1, h.2.1]

theorem MatEq.vals (h : MatEq a a') : (matVals a : M W (Mat R)) = matVals a' := by
  unfold matVals
  rw [h.flat, h.1, h.2.1]

end congr

theorem ren_call {ρ : Nat → Nat} {env env' : List Var} (m : Make R) (h : ∀ i ∈ m.args, nth env' (ρ i) = nth env i) :
    ((m.ren ρ).call env' : M W (List Var)) = m.call env := by
  have lst : ∀ {is : List Nat}, (∀ i ∈ is, nth env' (ρ i) = nth env i) →
      (is.map ρ).map (nth env') = is.map (nth env) := by
    intro is hi
    rw [List.map_map]
    exact List.map_congr_left hi
  have mat : ∀ {m : Matrix' Nat}, (∀ i ∈ m.list, nth env' (ρ i) = nth env i) →
      MatEq ⟨m.nrow, m.ncol, fun i j => nth env' ((m.ren ρ).get i j)⟩ ⟨m.nrow, m.ncol, fun i j => nth env (m.get i j)⟩ := by
    intro m hi
    exact ⟨rfl, rfl, fun i hi' j hj' => hi _ (mem_list hi' hj')⟩
  cases m <;> simp only [Make.ren, Make.call]
  case fn => rw [h _ (by simp [Make.args])]
  case fnArr => rw [lst fun i hi => h i (by simpa [Make.args] using hi)]
  case bin => rw [h _ (by simp [Make.args]), h _ (by simp [Make.args])]
  case binArr => rw [lst fun i hi => h i (by simp [Make.args, hi]), lst fun i hi => h i (by simp [Make.args, hi])]
  case binVD => rw [h _ (by simp [Make.args])]
  case binDV => rw [h _ (by simp [Make.args])]
  case sum => rw [lst fun i hi => h i (by simpa [Make.args] using hi)]
  case norm2 => rw [lst fun i hi => h i (by simpa [Make.args] using hi)]
  case logSumExp => rw [lst fun i hi => h i (by simpa [Make.args] using hi)]
  case dotVV => rw [lst fun i hi => h i (by simp [Make.args, hi]), lst fun i hi => h i (by simp [Make.args, hi])]
  case dotVD => rw [lst fun i hi => h i (by simpa [Make.args] using hi)]
  case dotDV => rw [lst fun i hi => h i (by simpa [Make.args] using hi)]
  case matmulVV a b =>
    have ha := mat (m := a) fun i hi => h i (by simp [Make.args, hi])
    have hb := mat (m := b) fun i hi => h i (by simp [Make.args, hi])
    unfold Fz.matmulVV
    simp only [Matrix'.ren] at ha hb ⊢
    rw [ha.push, hb.push, ha.vals, hb.vals]
    rfl
  case matmulVD a b =>
    have ha := mat (m := a) fun i hi => h i (by simp [Make.args, hi])
    unfold Fz.matmulVD
    simp only [Matrix'.ren] at ha ⊢
    rw [ha.push, ha.vals]
    rfl
  case matmulDV a b =>
    have hb := mat (m := b) fun i hi => h i (by simp [Make.args, hi])
    unfold Fz.matmulDV
    simp only [Matrix'.ren] at hb ⊢
    rw [hb.push, hb.vals]
    rfl
  case lpdfVV => rw [h _ (by simp [Make.args]), h _ (by simp [Make.args])]
  case lpdfVD => rw [h _ (by simp [Make.args])]
  case lpdfDV => rw [h _ (by simp [Make.args])]
  case partials => rw [lst fun i hi => h i (by simpa [Make.args] using hi)]
  case user => rw [lst fun i hi => h i (by simpa [Make.args] using hi)]

/-- calls that only create -/
def IsMake (k : Call R) : Prop := ∃ m : Make R, k = .make m ∧ m.Sane

/-- calls `gradient` and `jacobian` consist of, but for the region itself -/
def IsInner (k : Call R) : Prop := IsMake k ∨ (∃ i, k = .grad i) ∨ k = .zeroNested

theorem inside_inner {l : List (Call R)} (h : ∀ k ∈ l, IsInner k) (d : Nat) : inside d l = some d := by
  induction l with
  | nil => rfl
  | cons k l ih =>
    have hl := ih fun x hx => h x (by simp [hx])
    rcases h k (by simp) with ⟨m, rfl, -⟩ | ⟨i, rfl⟩ | rfl
    · exact hl
    · exact hl
    · exact hl

theorem IsInner.sane {k : Call R} (h : IsInner k) : k.Sane := by
  rcases h with ⟨m, rfl, hs⟩ | ⟨i, rfl⟩ | rfl
  · exact hs
  · trivial
  · trivial

theorem IsInner.noAssign {k : Call R} (h : IsInner k) : k.assigns = false := by
  rcases h with ⟨m, rfl, hs⟩ | ⟨i, rfl⟩ | rfl <;> rfl

theorem nth_map {l : List Var} {is : List Nat} {i : Nat} (hi : i < is.length) :
    nth (is.map (nth l)) i = nth l (is.getD i 0) := by
  simp [nth, List.getD_eq_getElem?_getD, List.getElem?_map, List.getElem?_eq_getElem hi]

theorem nth_append_left {l l' : List Var} {i : Nat} (hi : i < l.length) : nth (l ++ l') i = nth l i := by
  unfold nth
  rw [List.getD_eq_getElem?_getD, List.getD_eq_getElem?_getD, List.getElem?_append_left hi]

theorem names_append (l l' : List Var) :
    ((List.range l'.length).map (l.length + ·)).map (nth (l ++ l')) = l' := by
  apply List.ext_getElem (by simp)
  intro k h1 h2
  simp only [List.length_map, List.length_range] at h1
  simp only [List.getElem_map, List.getElem_range, nth, List.getD_eq_getElem?_getD]
  rw [List.getElem?_append_right (by omega)]
  simp [h1]

theorem map_nth_append {l l' : List Var} {is : List Nat} (h : ∀ i ∈ is, i < l.length) :
    is.map (nth (l ++ l')) = is.map (nth l) :=
  List.map_congr_left fun i hi => nth_append_left (h i hi)

/-- a user function run by a client is a list of creating calls -/
theorem code_replay (f : Code R) : ∀ {c : Client W} {is : List Nat} {outs : List Var} {s' : St W}, f.Sane →
    (∀ i ∈ is, i < c.env.length) → (f.run (is.map (nth c.env)) : M W (List Var)) c.st = .ok (outs, s') →
    ∃ (l : List (Call R)) (new : List Var), (∀ k ∈ l, IsMake k) ∧
      Spec.run l c = .ok ⟨s', c.env ++ new, c.marks⟩ ∧
      ∃ js : List Nat, (∀ j ∈ js, j < (c.env ++ new).length) ∧ outs = js.map (nth (c.env ++ new)) := by
  induction f with
  | ret rs =>
    intro c is outs s' _ hi e
    unfold Code.run at e
    split at e
    · rename_i hr
      cases e
      refine ⟨[], [], by simp, by simp [Spec.run], rs.map fun i => is.getD i 0, ?_, ?_⟩
      · intro j hj
        obtain ⟨i, hm, rfl⟩ := List.mem_map.mp hj
        have : i < is.length := by simpa using hr i hm
        simp only [List.append_nil]
        refine hi _ ?_
        rw [List.getD_eq_getElem?_getD, List.getElem?_eq_getElem this]
        exact List.getElem_mem this
      · rw [List.map_map, List.append_nil]
        exact List.map_congr_left fun i hm => nth_map (by simpa using hr i hm)
    · cases e
  | make m k ih =>
    intro c is outs s' hs hi e
    unfold Code.run at e
    split at e
    · rename_i hr
      obtain ⟨vs, s1, e1, e2⟩ := bind_inv e
      have hr' : ∀ i ∈ m.args, i < is.length := fun i hm => by simpa using hr i hm
      have hnth : ∀ i ∈ m.args, nth c.env (is.getD i 0) = nth (is.map (nth c.env)) i := fun i hm => (nth_map (hr' i hm)).symm
      rw [← ren_call m hnth] at e1
      have hlt : ∀ i ∈ (m.ren fun i => is.getD i 0).args, i < c.env.length := by
        intro i hm
        rw [ren_args] at hm
        obtain ⟨j, hj, rfl⟩ := List.mem_map.mp hm
        have := hr' j hj
        refine hi _ ?_
        rw [List.getD_eq_getElem?_getD, List.getElem?_eq_getElem this]
        exact List.getElem_mem this
      have hex : (Call.make (m.ren fun i => is.getD i 0)).exec c = .ok ⟨s1, c.env ++ vs, c.marks⟩ := by
        unfold Call.exec
        rw [if_pos (show ∀ i ∈ (Call.make (m.ren fun i => is.getD i 0)).args, i < c.env.length from hlt)]
        simp only [Call.step, e1]
      have e3 : (is.map (nth c.env) ++ vs) = (is ++ (List.range vs.length).map (c.env.length + ·)).map (nth (c.env ++ vs)) := by
        rw [List.map_append, names_append, map_nth_append hi]
      rw [e3] at e2
      obtain ⟨l, new, h1, h2, js, h3, h4⟩ := ih (c := ⟨s1, c.env ++ vs, c.marks⟩) hs.2 (by
        intro i hm
        simp only [List.length_append]
        rcases List.mem_append.mp hm with hm | hm
        · have := hi i hm; omega
        · obtain ⟨j, hj, rfl⟩ := List.mem_map.mp hm
          have := List.mem_range.mp hj
          omega) e2
      refine ⟨.make (m.ren fun i => is.getD i 0) :: l, vs ++ new, ?_, ?_, js, ?_, ?_⟩
      · intro k' hk'
        rcases List.mem_cons.mp hk' with rfl | hk'
        · exact ⟨_, rfl, ren_sane _ hs.1⟩
        · exact h1 k' hk'
      · rw [run_cons, hex]
        rw [← List.append_assoc]
        exact h2
      · simpa [List.append_assoc] using h3
      · rw [h4, ← List.append_assoc]
    · cases e
  | look i k ih =>
    intro c is outs s' hs hi e
    unfold Code.run at e
    split at e
    · obtain ⟨x, s1, e1, e2⟩ := bind_inv e
      have hs1 : s1 = c.st := Var.val_st e1
      subst hs1
      exact ih x (hs x) hi e2
    · cases e

theorem exec_grad {c : Client W} {i : Nat} (hi : i < c.env.length) {s' : St W}
    (e : ((nth c.env i).grad : M W Unit) c.st = .ok ((), s')) :
    (Call.grad i : Call R).exec c = .ok ⟨s', c.env, c.marks⟩ := by
  unfold Call.exec
  rw [if_pos (by simpa [Call.args] using hi)]
  simp only [Call.step, Client.keep, e]

theorem exec_zero {c : Client W} {s' : St W} (e : (setZeroNestedAdj : M W Unit) c.st = .ok ((), s')) :
    (Call.zeroNested : Call R).exec c = .ok ⟨s', c.env, c.marks⟩ := by
  unfold Call.exec
  rw [if_pos (by simp [Call.args])]
  simp only [Call.step, Client.keep, e]

theorem exec_begin {c : Client W} {s' : St W} (e : (beginNested : M W Unit) c.st = .ok ((), s')) :
    (Call.begin : Call R).exec c = .ok ⟨s', c.env, c.env.length :: c.marks⟩ := by
  unfold Call.exec
  rw [if_pos (by simp [Call.args])]
  simp only [Call.step, e]

theorem exec_done {c : Client W} {env new : List Var} {ms : List Nat} (h1 : c.env = env ++ new)
    (h2 : c.marks = env.length :: ms) {s' : St W} (e : (endNested : M W Unit) c.st = .ok ((), s')) :
    (Call.done : Call R).exec c = .ok ⟨s', env, ms⟩ := by
  unfold Call.exec
  rw [if_pos (by simp [Call.args])]
  simp only [Call.step, e, h1, h2, List.take_left, List.tail_cons]

theorem exec_new {c : Client W} {x : List R} {xv : List Var} {s' : St W} (e : newVars x c.st = .ok (xv, s')) :
    (Call.make (.newVals x)).exec c = .ok ⟨s', c.env ++ xv, c.marks⟩ := by
  unfold Call.exec
  rw [if_pos (by simp [Call.args, Make.args])]
  simp only [Call.step, Make.call, e]

/-- new independent variables and a user function -/
theorem begin_code_replay {c : Client W} {is : List Nat} (hi : ∀ i ∈ is, i < c.env.length) {f : Code R} (hf : f.Sane)
    {x : List R} {s1 s2 s3 : St W} {xv outs : List Var} (e1 : (beginNested : M W Unit) c.st = .ok ((), s1))
    (e2 : newVars x s1 = .ok (xv, s2)) (e3 : f.run (xv ++ is.map (nth c.env)) s2 = .ok (outs, s3)) :
    ∃ (l : List (Call R)) (new : List Var), (∀ k ∈ l, IsMake k) ∧
      Spec.run (Call.begin :: l) c = .ok ⟨s3, c.env ++ new, c.env.length :: c.marks⟩ ∧
      ∃ js : List Nat, (∀ j ∈ js, j < (c.env ++ new).length) ∧ outs = js.map (nth (c.env ++ new)) := by
  have e4 : xv ++ is.map (nth c.env) = ((List.range xv.length).map (c.env.length + ·) ++ is).map (nth (c.env ++ xv)) := by
    rw [List.map_append, names_append, map_nth_append hi]
  rw [e4] at e3
  obtain ⟨l, new, h1, h2, js, h3, h4⟩ := code_replay f (c := ⟨s2, c.env ++ xv, c.env.length :: c.marks⟩) hf (by
    intro i hm
    simp only [List.length_append]
    rcases List.mem_append.mp hm with hm | hm
    · obtain ⟨j, hj, rfl⟩ := List.mem_map.mp hm
      have := List.mem_range.mp hj
      omega
    · have := hi i hm; omega) e3
  refine ⟨.make (.newVals x) :: l, xv ++ new, ?_, ?_, js, ?_, ?_⟩
  · intro k hk
    rcases List.mem_cons.mp hk with rfl | hk
    · exact ⟨_, rfl, trivial⟩
    · exact h1 k hk
  · rw [run_cons, exec_begin e1]
    show Spec.run (_ :: l) _ = _
    rw [run_cons, exec_new (c := ⟨s1, c.env, c.env.length :: c.marks⟩) e2, ← List.append_assoc]
    exact h2
  · simpa [List.append_assoc] using h3
  · rw [h4, ← List.append_assoc]

/-- `gradient` is a region with creating calls and one reverse sweep -/
theorem gradient_replay {c : Client W} {is : List Nat} (hi : ∀ i ∈ is, i < c.env.length) {f : Code R} (hf : f.Sane)
    {x : List R} {z : R × List R} {s' : St W}
    (e : gradient (f.scalar (is.map (nth c.env))) x c.st = .ok (z, s')) :
    ∃ l : List (Call R), (∀ k ∈ l, IsInner k) ∧
      Spec.run (Call.begin :: l ++ [Call.done]) c = .ok ⟨s', c.env, c.marks⟩ := by
  unfold gradient at e
  obtain ⟨_, s1, e1, e⟩ := bind_inv e
  obtain ⟨xv, s2, e2, e⟩ := bind_inv e
  obtain ⟨fv, s3, e3, e⟩ := bind_inv e
  obtain ⟨y, s4, e4, e⟩ := bind_inv e
  obtain ⟨_, s5, e5, e⟩ := bind_inv e
  obtain ⟨df, s6, e6, e⟩ := bind_inv e
  obtain ⟨_, s7, e7, e⟩ := bind_inv e
  cases e
  have q4 := Var.val_st e4
  subst q4
  have q6 := adjs_st e6
  subst q6
  unfold Code.scalar at e3
  obtain ⟨outs, s8, e8, e9⟩ := bind_inv e3
  obtain ⟨l, new, h1, h2, js, h3, h4⟩ := begin_code_replay hi hf e1 e2 e8
  cases js with
  | nil => subst h4; cases e9
  | cons j js =>
    subst h4
    cases e9
    refine ⟨l ++ [.grad j], ?_, ?_⟩
    · intro k hk
      rcases List.mem_append.mp hk with hk | hk
      · exact Or.inl (h1 k hk)
      · simp only [List.mem_singleton] at hk
        exact Or.inr (Or.inl ⟨j, hk⟩)
    · rw [← List.cons_append, List.append_assoc, run_append, h2]
      show Spec.run ([Call.grad j, Call.done] : List (Call R)) _ = _
      rw [run_cons, exec_grad (c := ⟨_, c.env ++ new, c.env.length :: c.marks⟩) (h3 j (by simp)) e5]
      show Spec.run ([Call.done] : List (Call R)) _ = _
      rw [run_cons, exec_done (c := ⟨_, c.env ++ new, c.env.length :: c.marks⟩) rfl rfl e7]
      rfl

theorem jacLoop_replay {xv : List Var} : ∀ {js : List Nat} {c : Client W} {rows : List (List R)} {s' : St W},
    (∀ j ∈ js, j < c.env.length) → jacLoop xv (js.map (nth c.env)) c.st = .ok (rows, s') →
    ∃ l : List (Call R), (∀ k ∈ l, IsInner k) ∧ Spec.run l c = .ok ⟨s', c.env, c.marks⟩ := by
  intro js
  induction js with
  | nil =>
    intro c rows s' _ e
    cases e
    exact ⟨[], by simp, rfl⟩
  | cons j js ih =>
    intro c rows s' hj e
    simp only [List.map_cons] at e
    unfold jacLoop at e
    obtain ⟨_, s1, e1, e⟩ := bind_inv e
    obtain ⟨_, s2, e2, e⟩ := bind_inv e
    obtain ⟨row, s3, e3, e⟩ := bind_inv e
    obtain ⟨rs, s4, e4, e⟩ := bind_inv e
    cases e
    have q3 := adjs_st e3
    subst q3
    obtain ⟨l, h1, h2⟩ := ih (c := ⟨s3, c.env, c.marks⟩) (fun j hj' => hj j (by simp [hj'])) e4
    refine ⟨.zeroNested :: .grad j :: l, ?_, ?_⟩
    · intro k hk
      rcases List.mem_cons.mp hk with rfl | hk
      · exact Or.inr (Or.inr rfl)
      · rcases List.mem_cons.mp hk with rfl | hk
        · exact Or.inr (Or.inl ⟨j, rfl⟩)
        · exact h1 k hk
    · rw [run_cons, exec_zero e1]
      show Spec.run (_ :: l) _ = _
      rw [run_cons, exec_grad (c := ⟨s1, c.env, c.marks⟩) (hj j (by simp)) e2]
      exact h2

/-- `jacobian` is a region with creating calls, resets and reverse sweeps -/
theorem jacobian_replay {c : Client W} {is : List Nat} (hi : ∀ i ∈ is, i < c.env.length) {f : Code R} (hf : f.Sane)
    {n : Nat} {x : List R} {z : List R × List (List R)} {s' : St W}
    (e : jacobian (f.vector (is.map (nth c.env))) n x c.st = .ok (z, s')) :
    ∃ l : List (Call R), (∀ k ∈ l, IsInner k) ∧
      Spec.run (Call.begin :: l ++ [Call.done]) c = .ok ⟨s', c.env, c.marks⟩ := by
  unfold jacobian at e
  obtain ⟨_, s1, e1, e⟩ := bind_inv e
  obtain ⟨xv, s2, e2, e⟩ := bind_inv e
  obtain ⟨fv, s3, e3, e⟩ := bind_inv e
  obtain ⟨fw, s4, e4, e⟩ := bind_inv e
  obtain ⟨ys, s5, e5, e⟩ := bind_inv e
  obtain ⟨rows, s6, e6, e⟩ := bind_inv e
  obtain ⟨_, s7, e7, e⟩ := bind_inv e
  cases e
  have q5 := vals_st e5
  subst q5
  unfold confN at e4
  split at e4
  case isFalse => cases e4
  cases e4
  obtain ⟨l, new, h1, h2, js, h3, h4⟩ := begin_code_replay hi hf e1 e2 e3
  subst h4
  obtain ⟨l', h5, h6⟩ := jacLoop_replay (c := ⟨_, c.env ++ new, c.env.length :: c.marks⟩) h3 e6
  refine ⟨l ++ l', ?_, ?_⟩
  · intro k hk
    rcases List.mem_append.mp hk with hk | hk
    · exact Or.inl (h1 k hk)
    · exact h5 k hk
  · rw [← List.cons_append, List.append_assoc, run_append, h2]
    show Spec.run (l' ++ [Call.done]) _ = _
    rw [run_append, h6]
    show Spec.run ([Call.done] : List (Call R)) _ = _
    rw [run_cons, exec_done (c := ⟨_, c.env ++ new, c.env.length :: c.marks⟩) rfl rfl e7]
    rfl

theorem Reach.append {h l : List (Call R)} {c c' : Client W} (hr : Reach h c) (hl : ∀ k ∈ l, k.Sane)
    (e : Spec.run l c = .ok c') : Reach (h ++ l) c' := by
  refine ⟨fun k hk => ?_, ?_⟩
  · rcases List.mem_append.mp hk with hk | hk
    · exact hr.1 k hk
    · exact hl k hk
  · rw [run_append, hr.2]
    exact e

end Fz
