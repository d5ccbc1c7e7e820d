import Verif.Spec.Nan

/-!
# Lemmas for C74
-/

namespace Fz
open Spec Arith
variable {R : Type} [Arith R]

/-- an operand as a number -/
def Operand.value (ys : List R) : Operand R → R
  | .name i => num ys i
  | .real d => d

theorem isNan_of (x : R) (h : feq x x = false) : isNanD x = true := by simp [isNanD, fne, h]
theorem of_isNan {x : R} (h : isNanD x = true) : feq x x = false := by simpa [isNanD, fne] using h

theorem fn_nan (N : NanRules R) (f : Fn) {x : R} (hx : isNanD x = true) : isNanD (f.plain x) = true := by
  have lt0 : ∀ y, flt x y = false := fun y => N.lt _ _ (.inl hx)
  have lt1 : ∀ y, flt y x = false := fun y => N.lt _ _ (.inr hx)
  have i : ∀ g ∈ (intrinsics : List (R → R)), isNanD (g x) = true := fun g hg => N.fn g hg x hx
  cases f <;> simp only [Fn.plain, logitD, invLogitD, invD, lt0, lt1, N.eq x _ (.inl hx), Bool.false_eq_true, if_false]
  case abs => exact N.nan
  case square => exact N.mul _ _ (.inl hx)
  case inv => exact N.div _ _ (.inr hx)
  case invSquare => exact N.div _ _ (.inr (N.mul _ _ (.inl hx)))
  case invSqrt => exact N.div _ _ (.inr (i _ (by simp [intrinsics])))
  case logit => exact N.fn _ (by simp [intrinsics]) _ (N.div _ _ (.inl hx))
  case invLogit =>
    exact N.div _ _ (.inr (N.add _ _ (.inr (N.fn _ (by simp [intrinsics]) _ (i _ (by simp [intrinsics]))))))
  all_goals first | exact hx | exact i _ (by simp [intrinsics])

/-- the numbers of which one is NaN -/
theorem bin_reads {f : Bin} {a b : Operand R} {x y : R} {P : Operand R → Prop}
    (ha : P a → isNanD x = true) (hb : P b → isNanD y = true) (h : ∃ o ∈ f.reads a b x y, P o) :
    (isNanD x = true ∨ isNanD y = true) ∧
    (f = .pow → (isNanD x = true ∧ feq y zero = false) ∨ (isNanD y = true ∧ feq x one = false)) ∧
    (f = .hypot → infinite x = false ∧ infinite y = false) := by
  have two : (∃ o ∈ [a, b], P o) → isNanD x = true ∨ isNanD y = true := by
    rintro ⟨o, ho, hP⟩
    simp only [List.mem_cons, List.not_mem_nil, or_false] at ho
    rcases ho with rfl | rfl
    · exact .inl (ha hP)
    · exact .inr (hb hP)
  cases f with
  | pow =>
    have : (isNanD x = true ∧ feq y zero = false) ∨ (isNanD y = true ∧ feq x one = false) := by
      obtain ⟨o, ho, hP⟩ := h
      unfold Bin.reads powReads at ho
      rcases List.mem_append.mp ho with h | h
      · cases hc : feq y zero with
        | true => simp [hc] at h
        | false =>
          simp only [hc, Bool.false_eq_true, if_false, List.mem_singleton] at h
          exact .inl ⟨ha (h ▸ hP), rfl⟩
      · cases hc : feq x one with
        | true => simp [hc] at h
        | false =>
          simp only [hc, Bool.false_eq_true, if_false, List.mem_singleton] at h
          exact .inr ⟨hb (h ▸ hP), rfl⟩
    exact ⟨this.imp And.left And.left, fun _ => this, fun h => (nomatch h)⟩
  | hypot =>
    unfold Bin.reads at h
    dsimp only at h
    cases hc : infinite x || infinite y with
    | true => simp [hc] at h
    | false =>
      simp only [hc, Bool.false_eq_true, if_false] at h
      exact ⟨two h, fun h => (nomatch h), fun _ => by simpa using hc⟩
  | _ => exact ⟨two h, fun h => (nomatch h), fun h => (nomatch h)⟩

theorem bin_nan (N : NanRules R) {f : Bin} {a b : Operand R} {x y : R} {P : Operand R → Prop}
    (ha : P a → isNanD x = true) (hb : P b → isNanD y = true) (h : ∃ o ∈ f.reads a b x y, P o) :
    isNanD (f.plain x y) = true := by
  obtain ⟨h1, h2, h3⟩ := bin_reads ha hb h
  cases f with
  | add => exact N.add _ _ h1
  | sub => exact N.sub _ _ h1
  | mul => exact N.mul _ _ h1
  | div => exact N.div _ _ h1
  | pow => exact (h2 rfl).elim (fun h => N.base _ _ h.1 h.2) fun h => N.expo _ _ h.1 h.2
  | hypot => exact N.hypot _ _ h1 (h3 rfl).1 (h3 rfl).2

/-- `if d == e then x else y` with a NaN in `x` and `y`, or `d` -/
theorem ite_nan (N : NanRules R) {d e x y : R} (hx : isNanD d = false → isNanD x = true) (hy : isNanD y = true) :
    isNanD (if feq d e then x else y) = true := by
  split
  · next h =>
    refine hx ?_
    by_contra hc
    rw [N.eq _ _ (.inl (by simpa using hc))] at h
    exact nomatch h
  · exact hy

theorem binVD_nan (N : NanRules R) {f : Bin} {a b : Operand R} {x d : R} {P : Operand R → Prop}
    (ha : P a → isNanD x = true) (hb : P b → isNanD d = true) (h : ∃ o ∈ f.reads a b x d, P o) :
    isNanD (f.plainVD x d) = true := by
  have hp := bin_nan N ha hb h
  obtain ⟨h1, h2, h3⟩ := bin_reads ha hb h
  have hx : isNanD d = false → isNanD x = true := fun e => h1.resolve_right (by simp [e])
  cases f with
  | add => exact ite_nan N hx hp
  | sub => exact ite_nan N hx hp
  | mul => exact ite_nan N hx hp
  | div => exact ite_nan N hx hp
  | pow =>
    have sq := fun e => N.fn Arith.sqrt (by simp [intrinsics]) _ (hx e)
    refine ite_nan N sq (ite_nan N hx (ite_nan N (fun e => N.mul _ _ (.inl (hx e))) (ite_nan N
      (fun e => N.div _ _ (.inr (N.mul _ _ (.inl (hx e))))) (ite_nan N (fun e => N.div _ _ (.inr (hx e)))
      (ite_nan N (fun e => N.div _ _ (.inr (sq e))) hp)))))
  | hypot => exact hp

theorem binDV_nan (N : NanRules R) {f : Bin} {a b : Operand R} {x d : R} {P : Operand R → Prop}
    (ha : P a → isNanD d = true) (hb : P b → isNanD x = true) (h : ∃ o ∈ f.reads a b d x, P o) :
    isNanD (f.plainDV d x) = true := by
  have hp := bin_nan N ha hb h
  obtain ⟨h1, h2, h3⟩ := bin_reads ha hb h
  have hx : isNanD d = false → isNanD x = true := fun e => h1.resolve_left (by simp [e])
  cases f with
  | add => exact ite_nan N hx hp
  | mul => exact ite_nan N hx hp
  | _ => exact hp

theorem maxval_mem (l : List R) (hl : l ≠ []) : fmaxval l ∈ l := by
  cases l with
  | nil => exact absurd rfl hl
  | cons x xs =>
    show xs.foldl _ x ∈ _
    induction xs generalizing x with
    | nil => simp
    | cons y ys ih =>
      rw [List.foldl_cons]
      split
      · exact List.mem_cons_of_mem _ (ih y (by simp))
      · rcases List.mem_cons.mp (ih x (by simp)) with h | h
        · rw [h]; simp
        · exact List.mem_cons_of_mem _ (List.mem_cons_of_mem _ h)

theorem logSumExp_nan (N : NanRules R) {l : List R} (h : ∃ x ∈ l, isNanD x = true) (hi : ∀ x ∈ l, isInf x = false) :
    isNanD (logSumExpD l) = true := by
  obtain ⟨x, hx, hn⟩ := h
  have hne : l ≠ [] := by rintro rfl; simp at hx
  unfold logSumExpD
  simp only [hi _ (maxval_mem l hne), Bool.false_eq_true, if_false]
  refine N.add _ _ (.inr (N.fn _ (by simp [intrinsics]) _ (N.sum _ ⟨_, List.mem_map_of_mem hx, ?_⟩)))
  exact N.fn _ (by simp [intrinsics]) _ (N.sub _ _ (.inl hn))

theorem lpdf_nan (N : NanRules R) (d : Dist) {xs : List R} {m s : R} (hne : xs ≠ [])
    (h : (∃ x ∈ xs, isNanD x = true) ∨ isNanD m = true ∨ isNanD s = true) : isNanD (d.plain xs m s) = true := by
  have key : ∀ lp : R → R → R → R, (∀ x, isNanD x = true ∨ isNanD m = true ∨ isNanD s = true →
      isNanD (lp m s x) = true) → isNanD (lpdfDD lp xs m s) = true := by
    intro lp hlp
    refine N.sum _ ?_
    rcases h with ⟨x, hx, hn⟩ | h
    · exact ⟨_, List.mem_map_of_mem hx, hlp x (.inl hn)⟩
    · obtain ⟨x, hx⟩ := List.exists_mem_of_ne_nil xs hne
      exact ⟨_, List.mem_map_of_mem hx, hlp x (.inr h)⟩
  have ng : ∀ x, isNanD x = true → isNanD (Arith.neg x) = true := N.fn _ (by simp [intrinsics])
  have lg : ∀ x, isNanD x = true → isNanD (Arith.log x) = true := N.fn _ (by simp [intrinsics])
  cases d with
  | normal =>
    refine key _ fun x hx => ?_
    have hy : isNanD ((x -. m) *. (one /. s)) = true := by
      rcases hx with h | h | h
      · exact N.mul _ _ (.inl (N.sub _ _ (.inl h)))
      · exact N.mul _ _ (.inl (N.sub _ _ (.inr h)))
      · exact N.mul _ _ (.inr (N.div _ _ (.inr h)))
    exact N.sub _ _ (.inl (N.sub _ _ (.inl (ng _ (N.mul _ _ (.inr hy))))))
  | lognormal =>
    refine key _ fun x hx => ?_
    have hy : isNanD ((Arith.log x -. m) *. (one /. s)) = true := by
      rcases hx with h | h | h
      · exact N.mul _ _ (.inl (N.sub _ _ (.inl (lg _ h))))
      · exact N.mul _ _ (.inl (N.sub _ _ (.inr h)))
      · exact N.mul _ _ (.inr (N.div _ _ (.inr h)))
    exact N.sub _ _ (.inl (N.sub _ _ (.inl (N.sub _ _ (.inl (ng _ (N.mul _ _ (.inr hy))))))))

/-- entry of a matrix product -/
theorem mulEntry_nan (N : NanRules R) {n : Nat} {a b : Nat → Nat → R} {i j : Nat}
    (h : ∃ k < n, isNanD (a i k) = true ∨ isNanD (b k j) = true) : isNanD (mulEntry n a b i j) = true := by
  obtain ⟨k, hk, h⟩ := h
  refine N.entry _ _ (by simp) ?_
  rcases h with h | h
  · exact ⟨_, List.mem_append_left _ (List.mem_map_of_mem (List.mem_range.mpr hk)), h⟩
  · exact ⟨_, List.mem_append_right _ (List.mem_map_of_mem (List.mem_range.mpr hk)), h⟩

theorem reads_length (m : Make R) (ys : List R) : (m.reads ys).length = (m.plain ys).length := by
  cases m <;> simp [Make.reads, Make.plain]

/-- each number a call creates is NaN if one of the numbers it is computed from is -/
theorem reads_nan (N : NanRules R) (m : Make R) (ys : List R) {P : Operand R → Prop}
    (hP : ∀ o, P o → isNanD (Operand.value ys o) = true) :
    List.Forall₂ (fun l y => (∃ o ∈ l, P o) → isNanD y = true) (m.reads ys) (m.plain ys) := by
  have hn : ∀ i, P (.name i) → isNanD (num ys i) = true := fun i => hP (.name i)
  have hd : ∀ d, P (.real d) → isNanD d = true := fun d => hP (.real d)
  have names : ∀ is : List Nat, (∃ o ∈ is.map Operand.name, P o) → ∃ x ∈ is.map (num ys), isNanD x = true := by
    rintro is ⟨o, ho, hp⟩
    obtain ⟨i, hi, rfl⟩ := List.mem_map.mp ho
    exact ⟨_, List.mem_map_of_mem hi, hn i hp⟩
  have reals : ∀ ds : List R, (∃ o ∈ ds.map Operand.real, P o) → ∃ x ∈ ds, isNanD x = true := by
    rintro ds ⟨o, ho, hp⟩
    obtain ⟨d, hi, rfl⟩ := List.mem_map.mp ho
    exact ⟨d, hi, hd d hp⟩
  have both : ∀ {l₁ l₂ : List (Operand R)} {a b : List R}, ((∃ o ∈ l₁, P o) → ∃ x ∈ a, isNanD x = true) →
      ((∃ o ∈ l₂, P o) → ∃ x ∈ b, isNanD x = true) → (∃ o ∈ l₁ ++ l₂, P o) → ∃ x ∈ a ++ b, isNanD x = true := by
    rintro l₁ l₂ a b h1 h2 ⟨o, ho, hp⟩
    rcases List.mem_append.mp ho with h | h
    · obtain ⟨x, hx, e⟩ := h1 ⟨o, h, hp⟩
      exact ⟨x, List.mem_append_left _ hx, e⟩
    · obtain ⟨x, hx, e⟩ := h2 ⟨o, h, hp⟩
      exact ⟨x, List.mem_append_right _ hx, e⟩
  have dots : ∀ {l₁ l₂ : List (Operand R)} {a b : List R} {n₁ n₂ : Nat}, n₁ = a.length → n₂ = b.length →
      ((∃ o ∈ l₁, P o) → ∃ x ∈ a, isNanD x = true) → ((∃ o ∈ l₂, P o) → ∃ x ∈ b, isNanD x = true) →
      (∃ o ∈ (if n₁ = n₂ then l₁ ++ l₂ else []), P o) → isNanD (fdot a b) = true := by
    intro l₁ l₂ a b n₁ n₂ e1 e2 h1 h2 h
    split at h
    · next e => exact N.dot _ _ (by omega) (both h1 h2 h)
    · simp at h
  have lp : ∀ (d : Dist) (xs : List R) (a b : Operand R),
      (∃ o ∈ (if xs = [] then [] else xs.map .real ++ [a, b]), P o) →
      isNanD (d.plain xs (Operand.value ys a) (Operand.value ys b)) = true := by
    intro d xs a b h
    split at h
    · simp at h
    · next hne =>
      refine lpdf_nan N d hne ?_
      obtain ⟨o, ho, hp⟩ := h
      rcases List.mem_append.mp ho with h | h
      · exact .inl (reals xs ⟨o, h, hp⟩)
      · simp only [List.mem_cons, List.not_mem_nil, or_false] at h
        rcases h with rfl | rfl
        · exact .inr (.inl (hP _ hp))
        · exact .inr (.inr (hP _ hp))
  have mm : ∀ {n : Nat} {f g : Nat → Operand R} {a b : Nat → Nat → R} {i j : Nat},
      (∀ k, P (f k) → isNanD (a i k) = true) → (∀ k, P (g k) → isNanD (b k j) = true) →
      (∃ o ∈ (List.range n).flatMap fun k => [f k, g k], P o) → isNanD (mulEntry n a b i j) = true := by
    rintro n f g a b i j hf hg ⟨o, ho, hp⟩
    obtain ⟨k, hk, ho⟩ := List.mem_flatMap.mp ho
    simp only [List.mem_cons, List.not_mem_nil, or_false] at ho
    refine mulEntry_nan N ⟨k, List.mem_range.mp hk, ?_⟩
    rcases ho with rfl | rfl
    · exact .inl (hf k hp)
    · exact .inr (hg k hp)
  have only : ∀ {l : List (Operand R)} {y : R}, ((∃ o ∈ l, P o) → isNanD y = true) →
      List.Forall₂ (fun l y => (∃ o ∈ l, P o) → isNanD y = true) [l] [y] := fun h => .cons h .nil
  have maps : ∀ {ι : Type} (is : List ι) (f : ι → List (Operand R)) (k : ι → R),
      (∀ i, (∃ o ∈ f i, P o) → isNanD (k i) = true) →
      List.Forall₂ (fun l y => (∃ o ∈ l, P o) → isNanD y = true) (is.map f) (is.map k) := by
    intro ι is f k h
    rw [List.forall₂_map_left_iff, List.forall₂_map_right_iff]
    exact List.forall₂_same.mpr fun i _ => h i
  have sing : ∀ {o : Operand R} {y : R}, (P o → isNanD y = true) → (∃ o' ∈ [o], P o') → isNanD y = true := by
    rintro o y h ⟨o', ho, hp⟩
    rw [List.mem_singleton.mp ho] at hp
    exact h hp
  cases m with
  | new0 => exact only (by simp)
  | new d => exact only (sing (hd d))
  | newVals ds =>
    have := maps ds (fun d => [Operand.real d]) id fun d => sing (hd d)
    rwa [List.map_id] at this
  | newArr n =>
    show List.Forall₂ _ (List.replicate n []) (List.replicate n zero)
    induction n with
    | zero => exact .nil
    | succ n ih => exact .cons (by simp) ih
  | fn f i => exact only (sing fun h => fn_nan N f (hn i h))
  | fnArr f is => exact maps is _ _ fun i => sing fun h => fn_nan N f (hn i h)
  | bin f i j => exact only (bin_nan N (hn i) (hn j))
  | binArr f is js =>
    show List.Forall₂ _ (List.zipWith _ is js) (List.zipWith _ is js)
    induction is generalizing js with
    | nil => exact .nil
    | cons i is ih =>
      cases js with
      | nil => exact .nil
      | cons j js => exact .cons (bin_nan N (hn i) (hn j)) (ih js)
  | binVD f i d => exact only (binVD_nan N (hn i) (hd d))
  | binDV f d i => exact only (binDV_nan N (hd d) (hn i))
  | sum is => exact only fun h => N.sum _ (names is h)
  | norm2 is =>
    refine only fun h => ?_
    cases hc : is.any fun i => infinite (num ys i) with
    | true => simp [hc] at h
    | false =>
      simp only [hc, Bool.false_eq_true, if_false] at h
      refine N.norm2 _ (names is h) fun x hx => ?_
      obtain ⟨i, hi, rfl⟩ := List.mem_map.mp hx
      simpa using (List.any_eq_false.mp hc) i hi
  | logSumExp is =>
    refine only fun h => ?_
    cases hc : is.any fun i => isInf (num ys i) with
    | true => simp [hc] at h
    | false =>
      simp only [hc, Bool.false_eq_true, if_false] at h
      refine logSumExp_nan N (names is h) fun x hx => ?_
      obtain ⟨i, hi, rfl⟩ := List.mem_map.mp hx
      simpa using (List.any_eq_false.mp hc) i hi
  | dotVV is js => exact only (dots (by simp) (by simp) (names is) (names js))
  | dotVD is ds => exact only (dots (by simp) rfl (names is) (reals ds))
  | dotDV ds is => exact only (dots rfl (by simp) (reals ds) (names is))
  | matmulVV a b => exact maps _ _ _ fun p => mm (fun k => hn _) fun k => hn _
  | matmulVD a b => exact maps _ _ _ fun p => mm (fun k => hn _) fun k => hd _
  | matmulDV a b => exact maps _ _ _ fun p => mm (fun k => hd _) fun k => hn _
  | lpdfVV d xs m s => exact only (lp d xs (.name m) (.name s))
  | lpdfVD d xs m s => exact only (lp d xs (.name m) (.real s))
  | lpdfDV d xs m s => exact only (lp d xs (.real m) (.name s))
  | partials x vs ds => exact only (sing (hd x))
  | user x a b d => exact only (sing (hd x))

/-- marked numbers are NaN -/
def Marks (bad : List Bool) (ys : List R) : Prop := List.Forall₂ (fun b y => b = true → isNanD y = true) bad ys

theorem Marks.getD {bad : List Bool} {ys : List R} (h : Marks bad ys) (i : Nat) (hb : bad.getD i false = true) :
    isNanD (num ys i) = true := by
  unfold num
  induction h generalizing i with
  | nil => simp at hb
  | cons h _ ih =>
    cases i with
    | zero => exact h (by simpa using hb)
    | succ i => simpa using ih i (by simpa using hb)

theorem Marks.make (N : NanRules R) {bad : List Bool} {ys : List R} (h : Marks bad ys) (m : Make R) :
    Marks (m.spoils ys bad) (m.plain ys) := by
  unfold Marks Make.spoils
  rw [List.forall₂_map_left_iff]
  refine (reads_nan N m ys (P := fun o => o.spoilt bad = true) fun o ho => ?_).imp fun l y hl hb => ?_
  · cases o with
    | name i => exact h.getD i ho
    | real d => exact ho
  · exact hl (by simpa using hb)

theorem Marks.code (N : NanRules R) (f : Code R) {bad : List Bool} {ys : List R} (h : Marks bad ys) :
    Marks (f.spoils ys bad) (f.plain ys) := by
  induction f generalizing bad ys with
  | ret is =>
    unfold Marks Code.spoils Code.plain
    rw [List.forall₂_map_left_iff, List.forall₂_map_right_iff]
    exact List.forall₂_same.mpr fun i _ => h.getD i
  | make m k ih => exact ih (List.rel_append h (h.make N m))
  | look i k ih => exact ih _ h

theorem marks_nans (ys : List R) : Marks (nans ys) ys := by
  unfold Marks nans
  rw [List.forall₂_map_left_iff]
  exact List.forall₂_same.mpr fun _ _ h => h

end Fz
