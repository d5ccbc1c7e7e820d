import Verif.Spec.Imperative
import Verif.Proof.ProgCode
import Verif.Proof.Algo
import Verif.Props.Reproduce

/-!
# Code with variables that change, as a function that only makes new variables

Every element of the array stands for one of the variables made so far.
-/

set_option linter.unusedSectionVars false

namespace Spec
open Fz
variable {W : Type} [Rep W ℝ]

/-- the instruction with other operands -/
def Instr.rename (σ : Nat → Nat) : Instr → Instr
  | .const d => .const d
  | .un f i => .un f (σ i)
  | .bin f i j => .bin f (σ i) (σ j)
  | .binVD f i d => .binVD f (σ i) d
  | .binDV f d i => .binDV f d (σ i)
  | .sum is => .sum (is.map σ)
  | .norm2 is => .norm2 (is.map σ)
  | .logSumExp is => .logSumExp (is.map σ)
  | .dotVV is js => .dotVV (is.map σ) (js.map σ)
  | .dotVD is ds => .dotVD (is.map σ) ds
  | .dotDV ds is => .dotDV ds (is.map σ)
  | .matmulVV a b => .matmulVV (a.rename σ) (b.rename σ)
  | .matmulVD a b => .matmulVD (a.rename σ) b
  | .matmulDV a b => .matmulDV a (b.rename σ)
  | .lpdfVV d ys m s => .lpdfVV d ys (σ m) (σ s)
  | .lpdfVD d ys m s => .lpdfVD d ys (σ m) s
  | .lpdfDV d ys m s => .lpdfDV d ys m (σ s)
  | .partials φ dφ is => .partials φ dφ (is.map σ)
  | .user φ r is ds => .user φ r (is.map σ) ds

variable {σ : Nat → Nat}

theorem Instr.rename_arity (m : Instr) : (m.rename σ).arity = m.arity := by cases m <;> rfl

theorem map_names {α : Type} {f g : Nat → α} (h : ∀ i, f (σ i) = g i) (is : List Nat) : (is.map σ).map f = is.map g := by
  rw [List.map_map]
  exact List.map_congr_left fun i _ => h i

theorem Instr.rename_sem (m : Instr) {E v : List ℝ} (h : ∀ i, look E (σ i) = look v i) : (m.rename σ).sem E = m.sem v := by
  have hm := map_names h
  cases m <;> simp only [Instr.rename, Instr.sem, Matrix'.rename, h, hm, List.map_map, Function.comp_def]
  · rw [List.zip_map, List.map_map]
    simp only [Function.comp_def, Prod.map, h]
  · rw [List.zip_map_left, List.map_map]
    simp [Function.comp_def, h]
  · rw [List.zip_map_right, List.map_map]
    simp [Function.comp_def, h]

theorem Instr.rename_cost (m : Instr) {E v : List ℝ} (h : ∀ i, look E (σ i) = look v i) :
    (m.rename σ).cost E = m.cost v := by
  cases m <;> simp only [Instr.rename, Instr.cost, Matrix'.rename, h, List.length_map]

theorem Instr.rename_ok (m : Instr) {E v : List ℝ} (h : ∀ i, look E (σ i) = look v i) (hl : ∀ i < v.length, σ i < E.length)
    (hk : m.Ok v) : (m.rename σ).Ok E := by
  have hm := map_names h
  have ha : ∀ {is : List Nat}, (∀ i ∈ is, i < v.length) → ∀ i ∈ is.map σ, i < E.length := by
    intro is hi i h1
    obtain ⟨j, hj, rfl⟩ := List.mem_map.mp h1
    exact hl j (hi j hj)
  cases m with
  | const d => trivial
  | un f i => exact ⟨hl _ hk.1, by rw [h]; exact hk.2⟩
  | bin f i j => exact ⟨hl _ hk.1, hl _ hk.2.1, by rw [h, h]; exact hk.2.2⟩
  | binVD f i d => exact ⟨hl _ hk.1, by rw [h]; exact hk.2.1, hk.2.2⟩
  | binDV f d i => exact ⟨hl _ hk.1, by rw [h]; exact hk.2.1, hk.2.2⟩
  | sum is => exact ha hk
  | norm2 is =>
    obtain ⟨h1, i, h2, h3⟩ := hk
    exact ⟨ha h1, σ i, List.mem_map_of_mem h2, by rw [h]; exact h3⟩
  | logSumExp is =>
    refine ⟨fun i hi => ?_, by simpa using hk.2⟩
    obtain ⟨j, hj, rfl⟩ := List.mem_map.mp hi
    exact ⟨hl j (hk.1 j hj).1, by rw [h]; exact (hk.1 j hj).2⟩
  | dotVV is js => exact ⟨ha hk.1, ha hk.2.1, by simpa using hk.2.2⟩
  | dotVD is ds => exact ⟨ha hk.1, by simpa using hk.2⟩
  | dotDV ds is => exact ⟨ha hk.1, by simpa using hk.2⟩
  | matmulVV a b =>
    exact ⟨hk.1, fun i hi j hj => hl _ (hk.2.1 i hi j hj), fun i hi j hj => hl _ (hk.2.2.1 i hi j hj), hk.2.2.2⟩
  | matmulVD a b => exact ⟨hk.1, fun i hi j hj => hl _ (hk.2.1 i hi j hj), hk.2.2⟩
  | matmulDV a b => exact ⟨hk.1, fun i hi j hj => hl _ (hk.2.1 i hi j hj), hk.2.2⟩
  | lpdfVV d ys m s => exact ⟨hl _ hk.1, hl _ hk.2.1, by rw [h]; exact hk.2.2.1, hk.2.2.2⟩
  | lpdfVD d ys m s => exact ⟨hl _ hk.1, hk.2⟩
  | lpdfDV d ys m s => exact ⟨hl _ hk.1, by rw [h]; exact hk.2.1, hk.2.2⟩
  | partials φ dφ is => exact ⟨ha hk.1, by rw [hm]; exact hk.2⟩
  | user φ r is ds => exact ⟨ha hk.1, by rw [hm]; exact hk.2⟩

theorem Instr.rename_run (m : Instr) {V v : List Var} (h : ∀ i, lookV V (σ i) = lookV v i) :
    ((m.rename σ).run V : M W _) = m.run v := by
  have hm := map_names h
  cases m <;> simp only [Instr.rename, Instr.run, Matrix'.rename, Matrix'.vars, h, hm]

theorem entries_len (m n : Nat) : (entries m n).length = m * n := by
  simp [entries, List.length_flatMap, Nat.mul_comm]

theorem Instr.sem_arity (m : Instr) (v : List ℝ) : (m.sem v).length = m.arity := by
  cases m <;> simp [Instr.sem, Instr.arity, entries_len]

/-! ## the array -/

theorem map_writeAt {α β : Type} (f : α → β) : ∀ (js : List Nat) (v xs : List α),
    (writeAt v js xs).map f = writeAt (v.map f) js (xs.map f)
  | [], _, _ => by simp only [writeAt]
  | _ :: _, _, [] => by simp only [writeAt, List.map_nil]
  | j :: js, v, x :: xs => by
    simp only [writeAt, List.map_cons]
    rw [map_writeAt f js, List.map_set]

theorem map_move {α β : Type} (f : α → β) (v : List α) (j i : Nat) : (move v j i).map f = move (v.map f) j i := by
  unfold move
  rw [List.getElem?_map]
  cases v[i]? with
  | none => rfl
  | some x => simp [List.map_set]

theorem mem_writeAt {α : Type} {y : α} : ∀ {js : List Nat} {v xs : List α}, y ∈ writeAt v js xs → y ∈ v ∨ y ∈ xs
  | [], _, _, h => .inl (by simpa only [writeAt] using h)
  | _ :: _, _, [], h => .inl (by simpa only [writeAt] using h)
  | j :: js, v, x :: xs, h => by
    simp only [writeAt] at h
    rcases mem_writeAt (js := js) h with h | h
    · rcases List.mem_or_eq_of_mem_set h with h | rfl
      · exact .inl h
      · exact .inr (by simp)
    · exact .inr (by simp [h])

theorem mem_move {α : Type} {y : α} {v : List α} {j i : Nat} (h : y ∈ move v j i) : y ∈ v := by
  unfold move at h
  split at h
  · rename_i x hx
    rcases List.mem_or_eq_of_mem_set h with h | rfl
    · exact h
    · exact List.mem_of_getElem? hx
  · exact h

/-- the name of element `i` -/
def nm (τ : List Nat) (n i : Nat) : Nat := τ.getD i n

theorem nm_lt {τ : List Nat} {n i : Nat} (h : ∀ t ∈ τ, t < n) (hi : i < τ.length) : nm τ n i < n := by
  unfold nm
  rw [List.getD_eq_getElem?_getD, List.getElem?_eq_getElem hi]
  exact h _ (List.getElem_mem hi)

theorem getD_nm {α : Type} (E : List α) (d : α) (τ : List Nat) (i : Nat) :
    E.getD (nm τ E.length i) d = (τ.map fun t => E.getD t d).getD i d := by
  unfold nm
  simp only [List.getD_eq_getElem?_getD, List.getElem?_map]
  cases τ[i]? <;> simp

theorem look_nm (E : List ℝ) (τ : List Nat) (i : Nat) : look E (nm τ E.length i) = look (τ.map (look E)) i :=
  getD_nm E 0 τ i

theorem lookV_nm (V : List Var) (τ : List Nat) (i : Nat) : lookV V (nm τ V.length i) = lookV (τ.map (lookV V)) i :=
  getD_nm V ⟨0⟩ τ i

theorem map_old {α : Type} {E xs : List α} {d : α} {τ : List Nat} (h : ∀ t ∈ τ, t < E.length) :
    (τ.map fun t => (E ++ xs).getD t d) = τ.map fun t => E.getD t d := by
  refine List.map_congr_left fun t ht => ?_
  simp [List.getD_eq_getElem?_getD, List.getElem?_append_left (h t ht)]

theorem map_new {α : Type} (E xs : List α) (d : α) :
    ((List.range' E.length xs.length).map fun t => (E ++ xs).getD t d) = xs := by
  refine List.ext_getElem (by simp) fun i h1 h2 => ?_
  simp [List.getD_eq_getElem?_getD, h2]

theorem map_all {α : Type} (E : List α) (d : α) : ((List.range E.length).map fun t => E.getD t d) = E := by
  refine List.ext_getElem (by simp) fun i h1 h2 => ?_
  simp [List.getD_eq_getElem?_getD, h2]

/-! ## the function that only makes new variables -/

/-- the statement, then `k`; `τ` are the names of the elements, `n` is the number of names -/
noncomputable def Stmt.algo : Stmt → List Nat → Nat → (List Nat → Nat → Algo) → Algo
  | .nop, τ, n, k => k τ n
  | .copy j i, τ, n, k => k (move τ j i) n
  | .real _ _, τ, n, k => k τ n
  | .call js m, τ, n, k => .op (m.rename (nm τ n)) (k (writeAt τ js (List.range' n m.arity)) (n + m.arity))
  | .declare m, τ, n, k => .op (m.rename (nm τ n)) (k (τ ++ List.range' n m.arity) (n + m.arity))
  | .seq a b, τ, n, k => a.algo τ n fun τ n => b.algo τ n k
  | .look i f, τ, n, k => .look (nm τ n i) fun x => (f x).algo τ n k

/-- the whole function; `n` is the number of arguments -/
noncomputable def Proc.algo (p : Proc) (n : Nat) : Algo :=
  p.body.algo (List.range n) n fun τ n => .ret (p.outs.map (nm τ n))

theorem new_lt {α : Type} {E xs : List α} {τ : List Nat} (h : ∀ t ∈ τ, t < E.length) {a : Nat} (ha : xs.length = a) {t : Nat}
    (ht : t ∈ τ ∨ t ∈ List.range' E.length a) : t < (E ++ xs).length := by
  rw [List.length_append, ha]
  rcases ht with ht | ht
  · have := h t ht
    omega
  · rw [List.mem_range'_1] at ht
    omega

theorem algo_stmt : ∀ (s : Stmt), s.NoReal → ∀ (E : List ℝ) (τ : List Nat), (∀ t ∈ τ, t < E.length) →
    ∃ (τ' : List Nat) (E' : List ℝ), (∀ t ∈ τ', t < E'.length) ∧ s.sem (τ.map (look E)) = τ'.map (look E') ∧
      ∀ k : List Nat → Nat → Algo,
        (s.algo τ E.length k).sem E = (k τ' E'.length).sem E' ∧
        (s.Ok (τ.map (look E)) → (k τ' E'.length).Ok E' → (s.algo τ E.length k).Ok E) ∧
        (s.Stable (τ.map (look E)) → (k τ' E'.length).Stable E' → (s.algo τ E.length k).Stable E) ∧
        ((s.algo τ E.length k).path E).cost E = s.cost (τ.map (look E)) + ((k τ' E'.length).path E').cost E' := by
  intro s
  induction s with
  | nop => exact fun _ E τ h => ⟨τ, E, h, rfl, fun k => ⟨rfl, fun _ h => h, fun _ h => h, (Nat.zero_add _).symm⟩⟩
  | copy j i =>
    intro _ E τ h
    refine ⟨move τ j i, E, fun t ht => h t (mem_move ht), (map_move _ _ _ _).symm, fun k => ?_⟩
    exact ⟨rfl, fun _ h => h, fun _ h => h, (Nat.zero_add _).symm⟩
  | real j d => exact fun h => h.elim
  | call js m =>
    intro _ E τ h
    have hs := m.rename_sem (look_nm E τ)
    have hl := m.sem_arity (τ.map (look E))
    have e : E.length + m.arity = (E ++ m.sem (τ.map (look E))).length := by rw [List.length_append, hl]
    refine ⟨writeAt τ js (List.range' E.length m.arity), E ++ m.sem (τ.map (look E)), fun t ht => new_lt h hl (mem_writeAt ht),
      ?_, fun k => ⟨?_, fun h1 h2 => ⟨?_, ?_⟩, fun h1 h2 => ?_, ?_⟩⟩
    · rw [map_writeAt, ← hl]
      exact (congrArg₂ (fun a b => writeAt a js b) (map_old h) (map_new _ _ _)).symm
    · simp only [Stmt.algo, Algo.sem, hs, e]
    · exact m.rename_ok (look_nm E τ) (fun i hi => nm_lt h (by simpa using hi)) h1.1
    · rw [hs, e]; exact h2
    · simp only [Stmt.algo, Algo.Stable, hs, e]; exact h2
    · simp only [Stmt.algo, Algo.path, Prog.cost, Stmt.cost, hs, e, m.rename_cost (look_nm E τ)]
  | declare m =>
    intro _ E τ h
    have hs := m.rename_sem (look_nm E τ)
    have hl := m.sem_arity (τ.map (look E))
    have e : E.length + m.arity = (E ++ m.sem (τ.map (look E))).length := by rw [List.length_append, hl]
    refine ⟨τ ++ List.range' E.length m.arity, E ++ m.sem (τ.map (look E)),
      fun t ht => new_lt h hl (List.mem_append.mp ht), ?_, fun k => ⟨?_, fun h1 h2 => ⟨?_, ?_⟩, fun h1 h2 => ?_, ?_⟩⟩
    · rw [List.map_append, ← hl]
      exact (congrArg₂ (· ++ ·) (map_old h) (map_new _ _ _)).symm
    · simp only [Stmt.algo, Algo.sem, hs, e]
    · exact m.rename_ok (look_nm E τ) (fun i hi => nm_lt h (by simpa using hi)) h1
    · rw [hs, e]; exact h2
    · simp only [Stmt.algo, Algo.Stable, hs, e]; exact h2
    · simp only [Stmt.algo, Algo.path, Prog.cost, Stmt.cost, hs, e, m.rename_cost (look_nm E τ)]
  | seq a b iha ihb =>
    intro hn E τ h
    obtain ⟨τ1, E1, h1, e1, k1⟩ := iha hn.1 E τ h
    obtain ⟨τ2, E2, h2, e2, k2⟩ := ihb hn.2 E1 τ1 h1
    refine ⟨τ2, E2, h2, by simp only [Stmt.sem, e1, e2], fun k => ?_⟩
    obtain ⟨p1, p2, p3, p4⟩ := k1 fun τ n => b.algo τ n k
    obtain ⟨q1, q2, q3, q4⟩ := k2 k
    refine ⟨p1.trans q1, fun ho hk => p2 ho.1 (q2 (by rw [← e1]; exact ho.2) hk),
      fun ho hk => p3 ho.1 (q3 (by rw [← e1]; exact ho.2) hk), ?_⟩
    show ((a.algo τ E.length fun τ n => b.algo τ n k).path E).cost E = _
    rw [p4, q4, ← Nat.add_assoc]
    simp only [Stmt.cost, e1]
  | look i f ih =>
    intro hn E τ h
    have hv := look_nm E τ i
    obtain ⟨τ', E', h1, e1, k1⟩ := ih (look (τ.map (look E)) i) (hn _) E τ h
    refine ⟨τ', E', h1, e1, fun k => ?_⟩
    obtain ⟨p1, p2, p3, p4⟩ := k1 k
    refine ⟨?_, fun ho hk => ⟨nm_lt h (by simpa using ho.1), ?_⟩, fun ho hk => ⟨?_, ?_⟩, ?_⟩
    · simp only [Stmt.algo, Algo.sem, hv, p1]
    · rw [hv]; exact p2 ho.2 hk
    · rw [hv]
      exact ho.1.mono fun x hx => by show (f x).algo _ _ _ = _; rw [hx]
    · rw [hv]; exact p3 ho.2 hk
    · simp only [Stmt.algo, Algo.path, hv, p4, Stmt.cost]

theorem run_stmt : ∀ (s : Stmt), s.NoReal → ∀ (V : List Var) (τ : List Nat), (∀ t ∈ τ, t < V.length) →
    ∀ (k : List Nat → Nat → Algo) (F : List Var → M W (List Var)),
      (∀ (τ' : List Nat) (V' : List Var), (∀ t ∈ τ', t < V'.length) → (k τ' V'.length).run V' = F (τ'.map (lookV V'))) →
      ((s.algo τ V.length k).run V : M W _) = (s.run (τ.map (lookV V)) >>= F) := by
  intro s
  induction s with
  | nop => exact fun _ V τ h k F hk => hk τ V h
  | copy j i =>
    intro _ V τ h k F hk
    refine (hk (move τ j i) V fun t ht => h t (mem_move ht)).trans ?_
    rw [map_move]
    rfl
  | real j d => exact fun h => h.elim
  | call js m =>
    intro _ V τ h k F hk
    show ((m.rename (nm τ V.length)).run V >>= fun vs => (k (writeAt τ js (List.range' V.length m.arity)) (V.length + m.arity)).run (V ++ vs)) =
      ((m.run (τ.map (lookV V)) >>= fun xs => pure (writeAt (τ.map (lookV V)) js xs)) >>= F : M W _)
    rw [m.rename_run (lookV_nm V τ), bind_assoc']
    funext st
    cases e : (m.run (τ.map (lookV V)) : M W _) st with
    | error x => rw [bind_err e, bind_err e]
    | ok q =>
      rw [bind_ok (a := q.1) (s' := q.2) e, bind_ok (a := q.1) (s' := q.2) e]
      have hl : q.1.length = m.arity := instr_len (s := st) (s' := q.2) e
      have e' : V.length + m.arity = (V ++ q.1).length := by rw [List.length_append, hl]
      rw [e', hk _ _ fun t ht => new_lt h hl (mem_writeAt ht), map_writeAt, ← hl]
      rw [show τ.map (lookV (V ++ q.1)) = τ.map (lookV V) from map_old h,
        show (List.range' V.length q.1.length).map (lookV (V ++ q.1)) = q.1 from map_new _ _ _]
      rfl
  | declare m =>
    intro _ V τ h k F hk
    show ((m.rename (nm τ V.length)).run V >>= fun vs => (k (τ ++ List.range' V.length m.arity) (V.length + m.arity)).run (V ++ vs)) =
      ((m.run (τ.map (lookV V)) >>= fun xs => pure (τ.map (lookV V) ++ xs)) >>= F : M W _)
    rw [m.rename_run (lookV_nm V τ), bind_assoc']
    funext st
    cases e : (m.run (τ.map (lookV V)) : M W _) st with
    | error x => rw [bind_err e, bind_err e]
    | ok q =>
      rw [bind_ok (a := q.1) (s' := q.2) e, bind_ok (a := q.1) (s' := q.2) e]
      have hl : q.1.length = m.arity := instr_len (s := st) (s' := q.2) e
      have e' : V.length + m.arity = (V ++ q.1).length := by rw [List.length_append, hl]
      rw [e', hk _ _ fun t ht => new_lt h hl (List.mem_append.mp ht), List.map_append, ← hl]
      rw [show τ.map (lookV (V ++ q.1)) = τ.map (lookV V) from map_old h,
        show (List.range' V.length q.1.length).map (lookV (V ++ q.1)) = q.1 from map_new _ _ _]
      rfl
  | seq a b iha ihb =>
    intro hn V τ h k F hk
    show ((a.algo τ V.length fun τ n => b.algo τ n k).run V : M W _) = ((a.run (τ.map (lookV V)) >>= fun v => b.run v) >>= F)
    rw [bind_assoc']
    exact iha hn.1 V τ h _ _ fun τ' V' h' => ihb hn.2 V' τ' h' k F hk
  | look i f ih =>
    intro hn V τ h k F hk
    show ((lookV V (nm τ V.length i)).val >>= fun x => ((f x).algo τ V.length k).run V) =
      (((lookV (τ.map (lookV V)) i).val >>= fun x => (f x).run (τ.map (lookV V))) >>= F : M W _)
    rw [lookV_nm, bind_assoc']
    congr 1
    funext x
    exact ih x (hn x) V τ h k F hk

theorem range_lt {α : Type} (E : List α) : ∀ t ∈ List.range E.length, t < E.length := fun _ => List.mem_range.mp

theorem proc_sem (p : Proc) (hn : p.body.NoReal) (v : List ℝ) : (p.algo v.length).sem v = p.sem v := by
  obtain ⟨τ', E', h1, e1, k1⟩ := algo_stmt p.body hn v _ (range_lt v)
  rw [show (List.range v.length).map (look v) = v from map_all v 0] at e1
  refine (k1 _).1.trans ?_
  simp only [Algo.sem, Proc.sem, e1, List.map_map]
  exact List.map_congr_left fun i _ => look_nm E' τ' i

theorem proc_ok (p : Proc) (hn : p.body.NoReal) {v : List ℝ} (ho : p.Ok v) : (p.algo v.length).Ok v := by
  obtain ⟨τ', E', h1, e1, k1⟩ := algo_stmt p.body hn v _ (range_lt v)
  have ea := show (List.range v.length).map (look v) = v from map_all v 0
  rw [ea] at e1
  refine (k1 _).2.1 (by rw [ea]; exact ho.1) ?_
  intro i hi
  obtain ⟨j, hj, rfl⟩ := List.mem_map.mp hi
  have := ho.2 j hj
  rw [e1, List.length_map] at this
  exact nm_lt h1 this

theorem proc_stable (p : Proc) (hn : p.body.NoReal) {v : List ℝ} (ho : p.body.Stable v) : (p.algo v.length).Stable v := by
  obtain ⟨τ', E', h1, e1, k1⟩ := algo_stmt p.body hn v _ (range_lt v)
  exact (k1 _).2.2.1 (by rw [show (List.range v.length).map (look v) = v from map_all v 0]; exact ho) trivial

theorem proc_cost (p : Proc) (hn : p.body.NoReal) (v : List ℝ) : ((p.algo v.length).path v).cost v = p.body.cost v := by
  obtain ⟨τ', E', h1, e1, k1⟩ := algo_stmt p.body hn v _ (range_lt v)
  refine (k1 _).2.2.2.trans ?_
  rw [show (List.range v.length).map (look v) = v from map_all v 0]
  rfl

theorem proc_run (p : Proc) (hn : p.body.NoReal) (V : List Var) : ((p.algo V.length).run V : M W _) = p.run V := by
  refine (run_stmt p.body hn V _ (range_lt V) _ (fun v => pure (p.outs.map (lookV v))) fun τ' V' h' => ?_).trans ?_
  · simp only [Algo.run, List.map_map]
    congr 1
    exact List.map_congr_left fun i _ => lookV_nm V' τ' i
  · rw [show (List.range V.length).map (lookV V) = V from map_all V ⟨0⟩]
    rfl

end Spec
