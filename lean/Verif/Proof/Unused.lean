import Verif.Spec.Unused
import Verif.Spec.Chosen
import Verif.Spec.Proper
import Verif.Proof.Textbook

/-!
# Steps in between that change nothing

The book of the program with further calls contains the steps of the other program, in the same order, and quiet steps
in between (`Ins`).  The backward sweep leaves the adjoints of the quiet steps at zero.

The inputs, the first steps of both books, may be different ones: an input of one program may be a variable of the caller
for the other (property C75).  `p` tells for each step of the first book its number in the other one, if it is there; `J`
are the steps of the other book that are variables of the caller for the first program.
-/

set_option linter.unusedSectionVars false

namespace Spec
open Fz Arith
variable {R : Type} [Arith R]

/-- the same step, by its number in the other log -/
def RefRel (J : Nat → Prop) (p : List (Option Nat)) (r r' : Option Nat) : Prop :=
  (r = none ∧ ∀ k', r' = some k' → J k') ∨ ∃ k, r = some k ∧ p[k]? = some r'

structure NumRel (J : Nat → Prop) (p : List (Option Nat)) (x x' : Num R) : Prop where
  val : x'.val = x.val
  ref : RefRel J p x.ref x'.ref

/-- no step of the first log is in two places -/
def InjSome (p : List (Option Nat)) : Prop := ∀ i j a : Nat, p[i]? = some (some a) → p[j]? = some (some a) → i = j

/-- the same adjoints, and zero for the quiet steps -/
structure AdjSame (J : Nat → Prop) (q : List (Option Nat)) (f f' : Nat → R) : Prop where
  same : ∀ k k', q[k]? = some (some k') → f' k' = f k
  zero : ∀ j, some j ∉ q → ¬ J j → f' j = Arith.zero
  total : ∀ j, Total (f' j)

/-- the step is not in the other log, or is no step at all -/
def Gone (p : List (Option Nat)) (r : Option Nat) : Prop := r = none ∨ ∃ k, r = some k ∧ p[k]? = some none

/-- after inputs, the steps of `T` are in `T'`, at the places `p`, and do the same there; the other steps of `T'` are
quiet, the other steps of `T` concern only each other -/
inductive Ins (J : Nat → Prop) : List (Option Nat) → List (Step R) → List (Step R) → Prop where
  | base {p : List (Option Nat)} {T T' : List (Step R)} (hT : ∀ c ∈ T, c.src = []) (hT' : ∀ c ∈ T', c.src = [])
      (hl : p.length = T.length) (hlt : ∀ k, some k ∈ p → k < T'.length) (hi : InjSome p)
      (hJ : ∀ k, J k → k < T'.length ∧ some k ∉ p) : Ins J p T T'
  | live {p : List (Option Nat)} {T T' : List (Step R)} {c c' : Step R} (h : Ins J p T T')
      (hs : ∀ (q : List (Option Nat)) (f f' : Nat → R) (a : R), p <+: q → InjSome q → (∀ k, J k → some k ∉ q) →
        AdjSame J q f f' → AdjSame J q (receive f c.src (c.pass a)) (receive f' c'.src (c'.pass a))) :
      Ins J (p ++ [some T'.length]) (T ++ [c]) (T' ++ [c'])
  | gone {p : List (Option Nat)} {T T' : List (Step R)} {c : Step R} (h : Ins J p T T') (hc : ∀ r ∈ c.src, Gone p r) :
      Ins J (p ++ [none]) (T ++ [c]) T'
  | quiet {p : List (Option Nat)} {T T' : List (Step R)} {d : Step R} (h : Ins J p T T') (hq : d.Quiet) :
      Ins J p T (T' ++ [d])

variable {J : Nat → Prop} {p q : List (Option Nat)} {T T' : List (Step R)}

theorem Ins.length (h : Ins J p T T') : p.length = T.length := by
  induction h with
  | base _ _ h => exact h
  | live _ _ ih => simp [ih]
  | gone _ _ ih => simp [ih]
  | quiet _ _ ih => exact ih

theorem Ins.lt (h : Ins J p T T') : ∀ k, some k ∈ p → k < T'.length := by
  induction h with
  | base _ _ _ h => exact h
  | gone _ _ ih =>
    intro k hk
    rcases List.mem_append.mp hk with h1 | h1
    · exact ih k h1
    · cases List.mem_singleton.mp h1
  | live _ _ ih =>
    intro k hk
    rcases List.mem_append.mp hk with h1 | h1
    · have := ih k h1
      simp only [List.length_append, List.length_singleton]
      omega
    · rw [Option.some.inj (List.mem_singleton.mp h1)]
      simp
  | quiet _ _ ih =>
    intro k hk
    have := ih k hk
    simp only [List.length_append, List.length_singleton]
    omega

theorem Ins.other (h : Ins J p T T') : ∀ k, J k → k < T'.length ∧ some k ∉ p := by
  induction h with
  | base _ _ _ _ _ h => exact h
  | gone _ _ ih =>
    intro k hk
    obtain ⟨h1, h2⟩ := ih k hk
    refine ⟨h1, fun h3 => ?_⟩
    rcases List.mem_append.mp h3 with h4 | h4
    · exact h2 h4
    · cases List.mem_singleton.mp h4
  | live _ _ ih =>
    intro k hk
    obtain ⟨h1, h2⟩ := ih k hk
    refine ⟨by simp; omega, fun h3 => ?_⟩
    rcases List.mem_append.mp h3 with h4 | h4
    · exact h2 h4
    · have := Option.some.inj (List.mem_singleton.mp h4)
      omega
  | quiet _ _ ih =>
    intro k hk
    obtain ⟨h1, h2⟩ := ih k hk
    exact ⟨by simp; omega, h2⟩

theorem Ins.inj (h : Ins J p T T') : InjSome p := by
  induction h with
  | base _ _ _ _ h => exact h
  | @gone p T T' _ h _ ih =>
    have old : ∀ {i a : Nat}, (p ++ [none])[i]? = some (some a) → p[i]? = some (some a) := by
      intro i a h1
      by_cases h2 : i < p.length
      · rwa [List.getElem?_append_left h2] at h1
      · have h3 : i < (p ++ [none]).length := (List.getElem?_eq_some_iff.mp h1).1
        have h4 : i = p.length := by
          simp only [List.length_append, List.length_singleton] at h3
          omega
        subst h4
        simp at h1
    intro i j a hi hj
    exact ih i j a (old hi) (old hj)
  | @live p T T' _ _ h _ ih =>
    have old : ∀ {i a}, (p ++ [some T'.length])[i]? = some (some a) → i < p.length → p[i]? = some (some a) := by
      intro i a h1 h2
      rwa [List.getElem?_append_left h2] at h1
    have last : ∀ {i a}, (p ++ [some T'.length])[i]? = some (some a) → ¬ i < p.length → i = p.length ∧ a = T'.length := by
      intro i a h1 h2
      have h3 : i < (p ++ [some T'.length]).length := (List.getElem?_eq_some_iff.mp h1).1
      have h4 : i = p.length := by
        simp only [List.length_append, List.length_singleton] at h3
        omega
      subst h4
      simp at h1
      exact ⟨rfl, h1.symm⟩
    intro i j a hi hj
    by_cases h1 : i < p.length <;> by_cases h2 : j < p.length
    · exact ih i j a (old hi h1) (old hj h2)
    · have := h.lt a (List.mem_of_getElem? (old hi h1))
      have := (last hj h2).2
      omega
    · have := h.lt a (List.mem_of_getElem? (old hj h2))
      have := (last hi h1).2
      omega
    · rw [(last hi h1).1, (last hj h2).1]
  | quiet _ _ ih => exact ih

theorem Ins.quiets (h : Ins J p T T') : ∀ {D : List (Step R)}, (∀ c ∈ D, c.Quiet) → Ins J p T (T' ++ D) := by
  intro D
  induction D generalizing T' with
  | nil => intro _; simpa using h
  | cons d D ih =>
    intro hq
    have := ih (h.quiet (hq d (by simp))) fun c hc => hq c (by simp [hc])
    simpa using this

theorem RefRel.mono (hpq : p <+: q) {r r' : Option Nat} (h : RefRel J p r r') : RefRel J q r r' := by
  rcases h with h | ⟨k, h1, h3⟩
  · exact .inl h
  · exact .inr ⟨k, h1, Fz.prefix_get hpq h3⟩

theorem NumRel.mono (hpq : p <+: q) {x x' : Num R} (h : NumRel J p x x') : NumRel J q x x' := ⟨h.val, h.ref.mono hpq⟩

/-! ## backwards -/

/-- the other log gives a variable of the caller something -/
theorem AdjSame.there (hd : ∀ k, J k → some k ∉ q) {f f' : Nat → R} {k' : Nat} (hk : J k') {x : R} (hx : Total x)
    (h : AdjSame J q f f') : AdjSame J q f (fun j => if j = k' then x else f' j) := by
  refine ⟨?_, ?_, fun j => by
    by_cases h1 : j = k'
    · simpa [h1] using hx
    · simpa [h1] using h.total j⟩
  · intro i i' hi
    have h2 : i' ≠ k' := by
      rintro rfl
      exact hd _ hk (List.mem_of_getElem? hi)
    simp [h2, h.same _ _ hi]
  · intro j hj hn
    have h2 : j ≠ k' := by
      rintro rfl
      exact hn hk
    simp [h2, h.zero j hj hn]

/-- the first log gives an input something that the other log does not have -/
theorem AdjSame.here {f f' : Nat → R} {k : Nat} (hk : q[k]? = some none) (x : R) (h : AdjSame J q f f') :
    AdjSame J q (fun j => if j = k then x else f j) f' := by
  refine ⟨?_, h.zero, h.total⟩
  intro i i' hi
  have h1 : i ≠ k := by
    rintro rfl
    rw [hk] at hi
    cases hi
  simp [h1, h.same _ _ hi]

/-- both give the same step the same -/
theorem AdjSame.both (hn : InjSome q) {f f' : Nat → R} {k k' : Nat} (hk : q[k]? = some (some k')) {x : R} (hx : Total x)
    (ha : AdjSame J q f f') : AdjSame J q (fun j => if j = k then x else f j) (fun j => if j = k' then x else f' j) := by
  refine ⟨?_, ?_, fun j => by
    by_cases h1 : j = k'
    · simpa [h1] using hx
    · simpa [h1] using ha.total j⟩
  · intro i i' hi
    by_cases h1 : i = k
    · subst h1
      rw [hk] at hi
      obtain rfl := Option.some.inj (Option.some.inj hi)
      simp
    · have h2 : i' ≠ k' := by
        rintro rfl
        exact h1 (hn _ _ _ hi hk)
      simp [h1, h2, ha.same _ _ hi]
  · intro j hj hnj
    have h2 : j ≠ k' := by
      rintro rfl
      exact hj (List.mem_of_getElem? hk)
    simp [h2, ha.zero j hj hnj]

theorem Gone.mono (hpq : p <+: q) {r : Option Nat} (h : Gone p r) : Gone q r := by
  rcases h with h | ⟨k, h1, h3⟩
  · exact .inl h
  · exact .inr ⟨k, h1, Fz.prefix_get hpq h3⟩

theorem AdjSame.gones : ∀ {src : List (Option Nat)} {ds : List R} {f f' : Nat → R}, (∀ r ∈ src, Gone q r) →
    AdjSame J q f f' → AdjSame J q (receive f src ds) f' := by
  intro src
  induction src with
  | nil => intro ds f f' _ ha; cases ds <;> exact ha
  | cons r rs ih =>
    intro ds f f' h ha
    have h' := fun r hr => h r (List.mem_cons_of_mem _ hr)
    cases ds with
    | nil => cases r <;> simpa only [Spec.receive] using ha
    | cons d ds =>
      rcases h r (by simp) with rfl | ⟨k, rfl, hk⟩
      · simpa only [Spec.receive] using ih h' ha
      · simp only [Spec.receive]
        exact ih h' (ha.here hk _)

theorem receive_append : ∀ {src src2 : List (Option Nat)} {ds ds2 : List R} {f : Nat → R}, src.length = ds.length →
    receive f (src ++ src2) (ds ++ ds2) = receive (receive f src ds) src2 ds2 := by
  intro src
  induction src with
  | nil => intro src2 ds ds2 f h; cases ds <;> simp_all [receive]
  | cons r rs ih =>
    intro src2 ds ds2 f h
    cases ds with
    | nil => cases h
    | cons d ds =>
      have h' := Nat.succ.inj h
      cases r <;> simp only [List.cons_append, receive, ih h']

theorem AdjSame.receive (hn : InjSome q) (hd : ∀ k, J k → some k ∉ q) :
    ∀ {src src' : List (Option Nat)} {ds : List R} {f f' : Nat → R},
    List.Forall₂ (RefRel J q) src src' → AdjSame J q f f' → AdjSame J q (receive f src ds) (receive f' src' ds) := by
  intro src src' ds f f' h
  induction h generalizing ds f f' with
  | nil =>
    intro ha
    cases ds <;> simpa only [Spec.receive] using ha
  | @cons r r' rs rs' hr _ ih =>
    intro ha
    cases ds with
    | nil => cases r <;> cases r' <;> simpa only [Spec.receive] using ha
    | cons d ds =>
      rcases hr with ⟨rfl, h1⟩ | ⟨k, rfl, hk⟩
      · cases r' with
        | none => simpa only [Spec.receive] using ih ha
        | some k' =>
          simp only [Spec.receive]
          exact ih (ha.there hd (h1 k' rfl) ((ha.total k').add d))
      · cases r' with
        | none =>
          simp only [Spec.receive]
          exact ih (ha.here hk _)
        | some k' =>
          simp only [Spec.receive]
          rw [ha.same _ _ hk]
          exact ih (ha.both hn hk (by rw [← ha.same _ _ hk]; exact (ha.total k').add d))

theorem receive_quiet : ∀ {src : List (Option Nat)} {ds : List R} {f : Nat → R}, (∀ d ∈ ds, ∀ a : R, Total a → a +. d = a) →
    (∀ j, Total (f j)) → receive f src ds = f := by
  intro src
  induction src with
  | nil => intro ds f _ _; cases ds <;> rfl
  | cons r rs ih =>
    intro ds f h ht
    cases ds with
    | nil => cases r <;> rfl
    | cons d ds =>
      cases r with
      | none => simpa only [receive] using ih (fun x hx => h x (by simp [hx])) ht
      | some k =>
        simp only [receive]
        have e : (fun j => if j = k then f k +. d else f j) = f := by
          funext j
          by_cases hj : j = k
          · subst hj
            simp [h d (by simp) _ (ht j)]
          · simp [hj]
        rw [e]
        exact ih (fun x hx => h x (by simp [hx])) ht

theorem backFrom_snoc (c : Step R) : ∀ (T : List (Step R)) (k : Nat) (f : Nat → R),
    backFrom k (T ++ [c]) f = backFrom k T (receive f c.src (c.pass (f (k + T.length)))) := by
  intro T
  induction T with
  | nil => intro k f; rfl
  | cons d T ih =>
    intro k f
    simp only [List.cons_append, backFrom, ih, List.length_cons]
    rw [show k + 1 + T.length = k + (T.length + 1) by omega]

theorem backFrom_inputs : ∀ {T : List (Step R)}, (∀ c ∈ T, c.src = []) → ∀ (k : Nat) (f : Nat → R), backFrom k T f = f := by
  intro T
  induction T with
  | nil => intro _ k f; rfl
  | cons c T ih =>
    intro h k f
    simp only [backFrom, ih (fun c hc => h c (by simp [hc])), h c (by simp)]
    cases c.pass (f k) <;> rfl

theorem Ins.back (h : Ins J p T T') : ∀ {f f' : Nat → R}, p <+: q → (∀ j < T'.length, some j ∈ q → some j ∈ p) →
    InjSome q → (∀ k, J k → some k ∉ q) → AdjSame J q f f' → AdjSame J q (backFrom 0 T f) (backFrom 0 T' f') := by
  induction h with
  | base hT hT' =>
    intro f f' _ _ _ _ ha
    rwa [backFrom_inputs hT, backFrom_inputs hT']
  | @gone p T T' c h hc ih =>
    intro f f' hpq hin hn hd ha
    have hpq' : p <+: q := (List.prefix_append p _).trans hpq
    rw [backFrom_snoc]
    refine ih hpq' ?_ hn hd (ha.gones fun r hr => (hc r hr).mono hpq')
    intro j hj hjq
    rcases List.mem_append.mp (hin j hj hjq) with h1 | h1
    · exact h1
    · cases List.mem_singleton.mp h1
  | @live p T T' c c' h hs ih =>
    intro f f' hpq hin hn hd ha
    have hlast : q[p.length]? = some (some T'.length) := Fz.prefix_get hpq (by simp)
    have hpq' : p <+: q := (List.prefix_append p _).trans hpq
    rw [backFrom_snoc, backFrom_snoc]
    refine ih hpq' ?_ hn hd ?_
    · intro j hj hjq
      have := hin j (by simp; omega) hjq
      rcases List.mem_append.mp this with h1 | h1
      · exact h1
      · rw [Option.some.inj (List.mem_singleton.mp h1)] at hj
        omega
    · have e : f' (0 + T'.length) = f (0 + T.length) := by
        rw [Nat.zero_add, Nat.zero_add, ha.same _ _ hlast, h.length]
      rw [e]
      exact hs q f f' _ hpq' hn hd ha
  | @quiet p T T' d h hq ih =>
    intro f f' hpq hin hn hd ha
    rw [backFrom_snoc]
    have hj : some T'.length ∉ q := by
      intro hjq
      exact absurd (h.lt _ (hin _ (by simp) hjq)) (Nat.lt_irrefl _)
    have hj' : ¬ J T'.length := fun hJ => absurd (h.other _ hJ).1 (Nat.lt_irrefl _)
    rw [Nat.zero_add, ha.zero _ hj hj', receive_quiet hq ha.total]
    refine ih hpq ?_ hn hd ha
    intro j hj' hjq
    exact hin j (by simp; omega) hjq

theorem seed_eq (k : Nat) : (seed (some k) : Nat → R) = fun j => if j = k then Arith.one else (fun _ => (Arith.zero : R)) j := by
  funext j
  unfold seed
  by_cases h : k = j
  · simp [h]
  · simp [h, Ne.symm h]

theorem seed_same {r r' : Option Nat} (hn : InjSome q) (hd : ∀ k, J k → some k ∉ q) (h : RefRel J q r r') :
    AdjSame J q (seed r : Nat → R) (seed r') := by
  have h0 : AdjSame J q (fun _ => zero : Nat → R) (fun _ => zero) := ⟨fun _ _ _ => rfl, fun _ _ _ => rfl, fun _ => .zero⟩
  have e0 : (seed none : Nat → R) = fun _ => zero := rfl
  rcases h with ⟨rfl, h1⟩ | ⟨k, rfl, hk⟩
  · cases r' with
    | none => exact h0
    | some k' =>
      rw [seed_eq, e0]
      exact h0.there hd (h1 k' rfl) .one
  · cases r' with
    | none =>
      rw [seed_eq, e0]
      exact h0.here hk _
    | some k' =>
      rw [seed_eq, seed_eq]
      exact h0.both hn hk .one

/-- an input of both programs has the same adjoint in both -/
theorem entry_same (h : Ins J q T T') {o o' : Num R} (ho : NumRel J q o o') {k k' : Nat} (hk : q[k]? = some (some k')) :
    backFrom 0 T' (seed o'.ref) k' = backFrom 0 T (seed o.ref) k :=
  (h.back (List.prefix_refl q) (fun _ _ hj => hj) h.inj (fun k hk => (h.other k hk).2)
    (seed_same h.inj (fun k hk => (h.other k hk).2) ho.ref)).same k k' hk

theorem rows_same (h : Ins J q T T') {n : Nat} (hn : ∀ k < n, q[k]? = some (some k)) {o o' : Num R}
    (ho : NumRel J q o o') : rowOf T' n o' = rowOf T n o := by
  unfold rowOf
  exact List.map_congr_left fun k hk => entry_same h ho (hn k (List.mem_range.mp hk))

/-! ## forwards -/

/-- two computations that write down the same steps, from logs that agree but for quiet steps -/
def LogRel {α β : Type} (J : Nat → Prop) (p0 : List (Option Nat)) (m : Log R α) (m' : Log R β) (Q : List (Option Nat) → α → β → Prop) : Prop :=
  ∀ p T T', p0 <+: p → Ins J p T T' → ∃ q, p <+: q ∧ Ins J q (m T).2 (m' T').2 ∧ Q q (m T).1 (m' T').1

theorem LogRel.ret {α β : Type} {p0 : List (Option Nat)} {x : α} {y : β} {Q : List (Option Nat) → α → β → Prop}
    (h : ∀ p, p0 <+: p → Q p x y) : LogRel (R := R) J p0 (.ret x) (.ret y) Q :=
  fun p _ _ hp hi => ⟨p, List.prefix_refl p, hi, h p hp⟩

/-- steps that do the same -/
theorem logRel_alike {p0 : List (Option Nat)} {v v' : R} {xs xs' : List (Num R)} {pass pass' : R → List R} (hv : v' = v)
    (h : ∀ (q : List (Option Nat)) (f f' : Nat → R) (a : R), p0 <+: q → InjSome q → (∀ k, J k → some k ∉ q) →
      AdjSame J q f f' → AdjSame J q (receive f (xs.map Num.ref) (pass a)) (receive f' (xs'.map Num.ref) (pass' a))) :
    LogRel J p0 (step v xs pass) (step v' xs' pass') (NumRel J) := by
  intro p T T' hp hi
  refine ⟨p ++ [some T'.length], List.prefix_append _ _, hi.live (c := ⟨v, xs.map Num.ref, pass⟩)
    (c' := ⟨v', xs'.map Num.ref, pass'⟩) fun q f f' a hpq => h q f f' a (hp.trans hpq), hv, ?_⟩
  refine .inr ⟨_, rfl, ?_⟩
  rw [← hi.length]
  simp [step]

theorem logRel_step {p0 : List (Option Nat)} {v : R} {xs xs' : List (Num R)} {pass : R → List R}
    (h : List.Forall₂ (NumRel J p0) xs xs') : LogRel J p0 (step v xs pass) (step v xs' pass) (NumRel J) := by
  refine logRel_alike rfl fun q f f' a hpq hn hd ha => AdjSame.receive hn hd ?_ ha
  rw [List.forall₂_map_left_iff, List.forall₂_map_right_iff]
  exact h.imp fun _ _ hr => hr.ref.mono hpq

theorem logRel_each {α β : Type} {p0 : List (Option Nat)} {f : α → Log R (Num R)} {f' : β → Log R (Num R)} {xs : List α}
    {xs' : List β} (h : List.Forall₂ (fun x x' => LogRel J p0 (f x) (f' x') (NumRel J)) xs xs') :
    LogRel J p0 (.each f xs) (.each f' xs') fun q a b => List.Forall₂ (NumRel J q) a b := by
  induction h with
  | nil => exact .ret fun _ _ => .nil
  | @cons x x' xs xs' hx _ ih =>
    intro p T T' hp hi
    obtain ⟨q, hpq, hi1, h1⟩ := hx p T T' hp hi
    obtain ⟨q', hqq, hi2, h2⟩ := ih q _ _ (hp.trans hpq) hi1
    exact ⟨q', hpq.trans hqq, hi2, .cons (h1.mono hqq) h2⟩

theorem logRel_one {α β : Type} {p0 : List (Option Nat)} {f : α → Log R (Num R)} {f' : β → Log R (Num R)} {x : α} {x' : β}
    (h : LogRel J p0 (f x) (f' x') (NumRel J)) :
    LogRel J p0 (.each f [x]) (.each f' [x']) fun q a b => List.Forall₂ (NumRel J q) a b :=
  logRel_each (.cons h .nil)

variable {p0 : List (Option Nat)}

theorem vals_same {xs xs' : List (Num R)} (h : List.Forall₂ (NumRel J p0) xs xs') : xs'.map Num.val = xs.map Num.val := by
  induction h with
  | nil => rfl
  | cons h _ ih => simp [h.val, ih]

theorem logRel_fn (f : Fn) {x x' : Num R} (h : NumRel J p0 x x') : LogRel J p0 (f.write x) (f.write x') (NumRel J) := by
  have one : ∀ (v : R) (pass : R → List R), LogRel J p0 (step v [x] pass) (step v [x'] pass) (NumRel J) :=
    fun v pass => logRel_step (.cons h .nil)
  have same : LogRel J p0 (.ret x : Log R (Num R)) (.ret x') (NumRel J) := .ret fun _ hp => h.mono hp
  have hin : LogRel J p0 (input (zero : R)) (input zero) (NumRel J) := logRel_step .nil
  cases f <;> simp only [Fn.write, h.val] <;> (try exact one _ _) <;> (try exact same) <;> split <;> (try exact same) <;>
    (try exact one _ _) <;> split <;> (try exact one _ _) <;> split <;> (try exact one _ _) <;> exact hin

theorem logRel_binVD (f : Bin) (d : R) {x x' : Num R} (h : NumRel J p0 x x') :
    LogRel J p0 (f.writeVD x d) (f.writeVD x' d) (NumRel J) := by
  have one : ∀ (v : R) (pass : R → List R), LogRel J p0 (step v [x] pass) (step v [x'] pass) (NumRel J) :=
    fun v pass => logRel_step (.cons h .nil)
  have same : LogRel J p0 (.ret x : Log R (Num R)) (.ret x') (NumRel J) := .ret fun _ hp => h.mono hp
  cases f <;> simp only [Bin.writeVD, h.val] <;> (try exact one _ _)
  split
  · exact logRel_fn _ h
  split
  · exact same
  split
  · exact logRel_fn _ h
  split
  · exact logRel_fn _ h
  split
  · exact logRel_fn _ h
  · exact one _ _

theorem logRel_bin (f : Bin) {x x' y y' : Num R} (hx : NumRel J p0 x x') (hy : NumRel J p0 y y') :
    LogRel J p0 (f.write x y) (f.write x' y') (NumRel J) := by
  simp only [Bin.write, hx.val, hy.val]
  exact logRel_step (.cons hx (.cons hy .nil))

theorem logRel_dot {v : R} {r r' c c' : List (Num R)} (hr : List.Forall₂ (NumRel J p0) r r')
    (hc : List.Forall₂ (NumRel J p0) c c') : LogRel J p0 (dotStep v r c) (dotStep v r' c') (NumRel J) := by
  have e : ∀ a : R, ∀ {l l' : List (Num R)}, List.Forall₂ (NumRel J p0) l l' →
      (l'.map fun y => a *. y.val) = l.map fun y => a *. y.val := by
    intro a l l' h
    have := congrArg (List.map fun y => a *. y) (vals_same h)
    simpa [List.map_map, Function.comp_def] using this
  unfold dotStep
  simp only [e _ hr, e _ hc]
  exact logRel_step (List.rel_append hr hc)

theorem forall₂_zip {α β γ δ : Type} {P : α → β → Prop} {Q : γ → δ → Prop} : ∀ {xs : List α} {xs' : List β} {ys : List γ}
    {ys' : List δ}, List.Forall₂ P xs xs' → List.Forall₂ Q ys ys' →
    List.Forall₂ (fun a b => P a.1 b.1 ∧ Q a.2 b.2) (xs.zip ys) (xs'.zip ys') := by
  intro xs xs' ys ys' h
  induction h generalizing ys ys' with
  | nil => intro _; simp
  | cons h _ ih =>
    intro h2
    cases h2 with
    | nil => simp
    | cons h2 h3 => exact .cons ⟨h, h2⟩ (ih h3)

theorem forall₂_same {α : Type} {P : α → α → Prop} {l : List α} (h : ∀ x ∈ l, P x x) : List.Forall₂ P l l :=
  List.forall₂_same.mpr h

theorem entries_lt {m n : Nat} {q : Nat × Nat} (h : q ∈ entries m n) : q.1 < m ∧ q.2 < n := by
  simp only [entries, List.mem_flatMap, List.mem_map, List.mem_range] at h
  obtain ⟨j, hj, i, hi, rfl⟩ := h
  exact ⟨hi, hj⟩

theorem mem_list {α : Type} (a : Matrix' α) {i j : Nat} (hi : i < a.nrow) (hj : j < a.ncol) : a.get i j ∈ a.list := by
  simp only [Matrix'.list, entries, List.mem_map, List.mem_flatMap, List.mem_range]
  exact ⟨(i, j), ⟨j, hj, i, hi, rfl⟩, rfl⟩

/-- a call with renamed operands writes the same steps -/
theorem logRel_make {σ : Nat → Nat} (m : Make R) {env env' : List (Num R)}
    (h : ∀ i ∈ m.args, NumRel J p0 (opd env i) (opd env' (σ i))) {ys : List R} (hm : m.Meets false ys) :
    LogRel J p0 (m.write env) ((m.rename σ).write env') fun q a b => List.Forall₂ (NumRel J q) a b := by
  have hl : ∀ {is : List Nat}, (∀ i ∈ is, NumRel J p0 (opd env i) (opd env' (σ i))) →
      List.Forall₂ (NumRel J p0) (is.map (opd env)) ((is.map σ).map (opd env')) := by
    intro is hi
    rw [List.map_map, List.forall₂_map_left_iff, List.forall₂_map_right_iff]
    exact forall₂_same hi
  cases m with
  | new0 => exact logRel_one (logRel_step .nil)
  | new d => exact logRel_one (logRel_step .nil)
  | newVals ds => exact logRel_each (forall₂_same fun _ _ => logRel_step .nil)
  | newArr n => exact logRel_each (forall₂_same fun _ _ => logRel_step .nil)
  | fn f i => exact logRel_one (logRel_fn f (h i (by simp [Make.args])))
  | fnArr f is => exact logRel_each ((hl h).imp fun _ _ => logRel_fn f)
  | bin f i j => exact logRel_one (logRel_bin f (h i (by simp [Make.args])) (h j (by simp [Make.args])))
  | binArr f is js =>
    simp only [Make.args, List.mem_append] at h
    exact logRel_each ((forall₂_zip (hl fun i hi => h i (.inl hi)) (hl fun i hi => h i (.inr hi))).imp
      fun _ _ hp => logRel_bin f hp.1 hp.2)
  | binVD f i d => exact logRel_one (logRel_binVD f d (h i (by simp [Make.args])))
  | binDV f d i =>
    refine logRel_one ?_
    have hi := h i (by simp [Make.args])
    simp only [Bin.writeDV, hi.val]
    exact logRel_step (.cons hi .nil)
  | sum is =>
    have hs := hl (is := is) h
    refine logRel_one ?_
    have e : ∀ a : R, (((is.map σ).map (opd env')).map fun _ => a) = (is.map (opd env)).map fun _ => a := by
      intro a
      simp [Function.comp_def]
    simp only [vals_same hs, e]
    exact logRel_step hs
  | norm2 is =>
    have hs := hl (is := is) h
    refine logRel_one ?_
    simp only [vals_same hs]
    have e : ∀ a v : R, (((is.map σ).map (opd env')).map fun x => a *. x.val /. v) =
        (is.map (opd env)).map fun x => a *. x.val /. v := by
      intro a v
      have := congrArg (List.map fun y => a *. y /. v) (vals_same hs)
      simpa [List.map_map, Function.comp_def] using this
    simp only [e]
    exact logRel_step hs
  | logSumExp is =>
    have hs := hl (is := is) h
    refine logRel_one ?_
    simp only [vals_same hs]
    have e : ∀ a v : R, (((is.map σ).map (opd env')).map fun x => a *. Arith.exp (x.val -. v)) =
        (is.map (opd env)).map fun x => a *. Arith.exp (x.val -. v) := by
      intro a v
      have := congrArg (List.map fun y => a *. Arith.exp (y -. v)) (vals_same hs)
      simpa [List.map_map, Function.comp_def] using this
    simp only [e]
    exact logRel_step hs
  | dotVV is js =>
    simp only [Make.args, List.mem_append] at h
    have h1 := hl fun i hi => h i (.inl hi)
    have h2 := hl fun i hi => h i (.inr hi)
    refine logRel_one ?_
    simp only [vals_same h1, vals_same h2]
    exact logRel_dot h1 h2
  | dotVD is ds =>
    have hs := hl (is := is) h
    refine logRel_one ?_
    simp only [vals_same hs]
    exact logRel_step hs
  | dotDV ds is =>
    have hs := hl (is := is) h
    refine logRel_one ?_
    simp only [vals_same hs]
    exact logRel_step hs
  | matmulVV a b =>
    simp only [Make.args, List.mem_append] at h
    have ha := fun i hi k hk => h _ (.inl (mem_list a (i := i) (j := k) hi hk))
    have hb := fun k hk j hj => h _ (.inr (mem_list b (i := k) (j := j) hk hj))
    refine logRel_each (forall₂_same fun q hq => ?_)
    obtain ⟨h1, h2⟩ := entries_lt hq
    have e1 : List.Forall₂ (NumRel J p0) ((List.range a.ncol).map fun k => opd env (a.get q.1 k))
        ((List.range a.ncol).map fun k => opd env' (σ (a.get q.1 k))) := by
      rw [List.forall₂_map_left_iff, List.forall₂_map_right_iff]
      exact forall₂_same fun k hk => ha _ h1 _ (List.mem_range.mp hk)
    have e2 : List.Forall₂ (NumRel J p0) ((List.range a.ncol).map fun k => opd env (b.get k q.2))
        ((List.range a.ncol).map fun k => opd env' (σ (b.get k q.2))) := by
      rw [List.forall₂_map_left_iff, List.forall₂_map_right_iff]
      exact forall₂_same fun k hk => hb _ (by rw [← show a.ncol = b.nrow from hm]; exact List.mem_range.mp hk) _ h2
    have v1 := vals_same e1
    have v2 := vals_same e2
    simp only [List.map_map, Function.comp_def] at v1 v2
    simp only [Matrix'.rename, mulEntry, v1, v2]
    exact logRel_dot e1 e2
  | matmulVD a b =>
    have ha := fun i hi k hk => h _ (mem_list a (i := i) (j := k) hi hk)
    refine logRel_each (forall₂_same fun q hq => ?_)
    obtain ⟨h1, h2⟩ := entries_lt hq
    have e1 : List.Forall₂ (NumRel J p0) ((List.range a.ncol).map fun k => opd env (a.get q.1 k))
        ((List.range a.ncol).map fun k => opd env' (σ (a.get q.1 k))) := by
      rw [List.forall₂_map_left_iff, List.forall₂_map_right_iff]
      exact forall₂_same fun k hk => ha _ h1 _ (List.mem_range.mp hk)
    have v1 := vals_same e1
    simp only [List.map_map, Function.comp_def] at v1
    simp only [Matrix'.rename, mulEntry, v1]
    exact logRel_step e1
  | matmulDV a b =>
    have hb := fun k hk j hj => h _ (mem_list b (i := k) (j := j) hk hj)
    refine logRel_each (forall₂_same fun q hq => ?_)
    obtain ⟨h1, h2⟩ := entries_lt hq
    have e2 : List.Forall₂ (NumRel J p0) ((List.range a.ncol).map fun k => opd env (b.get k q.2))
        ((List.range a.ncol).map fun k => opd env' (σ (b.get k q.2))) := by
      rw [List.forall₂_map_left_iff, List.forall₂_map_right_iff]
      exact forall₂_same fun k hk => hb _ (by rw [← show a.ncol = b.nrow from hm]; exact List.mem_range.mp hk) _ h2
    have v2 := vals_same e2
    simp only [List.map_map, Function.comp_def] at v2
    simp only [Matrix'.rename, mulEntry, v2]
    exact logRel_step e2
  | lpdfVV d ys m s =>
    have h1 := h m (by simp [Make.args])
    have h2 := h s (by simp [Make.args])
    refine logRel_one ?_
    simp only [h1.val, h2.val]
    exact logRel_step (.cons h1 (.cons h2 .nil))
  | lpdfVD d ys m s =>
    have h1 := h m (by simp [Make.args])
    refine logRel_one ?_
    simp only [h1.val]
    exact logRel_step (.cons h1 .nil)
  | lpdfDV d ys m s =>
    have h1 := h s (by simp [Make.args])
    refine logRel_one ?_
    simp only [h1.val]
    exact logRel_step (.cons h1 .nil)
  | partials x is ds =>
    have hs := hl (is := is) h
    refine logRel_one ?_
    simp only [← hs.length_eq]
    exact logRel_step hs
  | user x r is ds =>
    have hs := hl (is := is) h
    refine logRel_one ?_
    simp only [vals_same hs]
    exact logRel_step hs

/-! ## numbers -/

theorem each_val {α : Type} {f : α → Log R (Num R)} {g : α → R} : ∀ (l : List α) (T : List (Step R)),
    (∀ x ∈ l, ∀ T, (f x T).1.val = g x) → (Log.each f l T).1.map Num.val = l.map g := by
  intro l
  induction l with
  | nil => intro _ _; rfl
  | cons x l ih =>
    intro T h
    simp only [Log.each, Log.next, Log.ret, List.map_cons, h x (by simp)]
    rw [ih _ fun y hy => h y (by simp [hy])]

theorem fn_write_val (f : Fn) (x : Num R) (T : List (Step R)) : (f.write x T).1.val = f.plain x.val := by
  cases f <;> simp only [Fn.write, Fn.plain] <;> (try rfl) <;> split <;> (try rfl) <;> split <;> (try rfl) <;> split <;> rfl

theorem opd_val (env : List (Num R)) (i : Nat) : (opd env i).val = num (env.map Num.val) i := by
  simp only [opd, num, List.getD_eq_getElem?_getD, List.getElem?_map]
  cases env[i]? <;> rfl

theorem write_val (m : Make R) (hp : m.Plain) (env : List (Num R)) (T : List (Step R)) :
    (m.write env T).1.map Num.val = m.plain (env.map Num.val) := by
  have e : ∀ is : List Nat, (is.map (opd env)).map Num.val = is.map (num (env.map Num.val)) := by
    intro is
    rw [List.map_map]
    exact List.map_congr_left fun i _ => opd_val env i
  cases m with
  | new0 => rfl
  | new d => rfl
  | newVals ds =>
    rw [Make.write, each_val (g := id) _ _ fun _ _ _ => rfl]
    exact List.map_id _
  | newArr n =>
    rw [Make.write, each_val (g := id) _ _ fun _ _ _ => rfl]
    exact List.map_id _
  | fn f i =>
    rw [Make.write, each_val (g := fun x => f.plain x.val) _ _ fun x _ T => fn_write_val f x T]
    simp only [List.map_cons, List.map_nil, Make.plain, opd_val]
  | fnArr f is =>
    rw [Make.write, each_val (g := fun x => f.plain x.val) _ _ fun x _ T => fn_write_val f x T]
    simp only [Make.plain, List.map_map, Function.comp_def, opd_val]
  | bin f i j =>
    rw [Make.write, each_val (g := fun x => f.plain x.1.val x.2.val) _ _ fun x _ T => rfl]
    simp only [List.map_cons, List.map_nil, Make.plain, opd_val]
  | binArr f is js =>
    rw [Make.write, each_val (g := fun x => f.plain x.1.val x.2.val) _ _ fun x _ T => rfl]
    rw [Make.plain, List.zip_map, List.map_map, ← List.map_uncurry_zip_eq_zipWith]
    refine List.map_congr_left fun x _ => ?_
    simp [opd_val, Function.uncurry]
  | binVD f i d =>
    rw [Make.write, each_val (g := fun x => f.plainVD x.val d) _ _ fun x _ T => ?_]
    · simp only [List.map_cons, List.map_nil, Make.plain, opd_val]
    · cases f <;> simp only [Bin.writeVD] <;> (try rfl)
      simp only [Make.Plain] at hp
      simp only [Bin.plainVD]
      by_cases h1 : feq d half = true
      · rw [if_pos h1, if_pos h1]
        exact fn_write_val .sqrt x T
      by_cases h2 : feq d Arith.one = true
      · rw [if_neg h1, if_neg h1, if_pos h2, if_pos h2]
        rfl
      by_cases h3 : feq d two = true
      · rw [if_neg h1, if_neg h1, if_neg h2, if_neg h2, if_pos h3, if_pos h3]
        exact fn_write_val .square x T
      have h4 : ¬ feq d (Arith.neg two) = true := by
        rcases hp with h | h | h | h
        · exact absurd h h1
        · exact absurd h h2
        · exact absurd h h3
        · rw [h]; simp
      by_cases h5 : feq d (Arith.neg Arith.one) = true
      · rw [if_neg h1, if_neg h1, if_neg h2, if_neg h2, if_neg h3, if_neg h3, if_neg h4, if_pos h5, if_pos h5]
        exact fn_write_val .inv x T
      by_cases h6 : feq d (Arith.neg half) = true
      · rw [if_neg h1, if_neg h1, if_neg h2, if_neg h2, if_neg h3, if_neg h3, if_neg h4, if_neg h5, if_neg h5, if_pos h6,
          if_pos h6]
        exact fn_write_val .invSqrt x T
      rw [if_neg h1, if_neg h1, if_neg h2, if_neg h2, if_neg h3, if_neg h3, if_neg h4, if_neg h5, if_neg h5, if_neg h6,
        if_neg h6]
      simp only [step]
  | binDV f d i =>
    rw [Make.write, each_val (g := fun x => f.plainDV d x.val) _ _ fun x _ T => rfl]
    simp only [List.map_cons, List.map_nil, Make.plain, opd_val]
  | sum is => simp only [Make.write, Log.each, Log.next, Log.ret, step, e, List.map_cons, List.map_nil, Make.plain]
  | norm2 is => simp only [Make.write, Log.each, Log.next, Log.ret, step, e, List.map_cons, List.map_nil, Make.plain]
  | logSumExp is => simp only [Make.write, Log.each, Log.next, Log.ret, step, e, List.map_cons, List.map_nil, Make.plain]
  | dotVV is js =>
    simp only [Make.write, Log.each, Log.next, Log.ret, dotStep, step, e, List.map_cons, List.map_nil, Make.plain]
  | dotVD is ds => simp only [Make.write, Log.each, Log.next, Log.ret, step, e, List.map_cons, List.map_nil, Make.plain]
  | dotDV ds is => simp only [Make.write, Log.each, Log.next, Log.ret, step, e, List.map_cons, List.map_nil, Make.plain]
  | matmulVV a b =>
    rw [Make.write, each_val
      (g := fun p => mulEntry a.ncol (fun i k => (opd env (a.get i k)).val) (fun k j => (opd env (b.get k j)).val) p.1 p.2)
      _ _ fun x _ T => rfl]
    simp only [Make.plain, opd_val]
  | matmulVD a b =>
    rw [Make.write, each_val
      (g := fun p => mulEntry a.ncol (fun i k => (opd env (a.get i k)).val) b.get p.1 p.2)
      _ _ fun x _ T => rfl]
    simp only [Make.plain, opd_val]
  | matmulDV a b =>
    rw [Make.write, each_val
      (g := fun p => mulEntry a.ncol a.get (fun k j => (opd env (b.get k j)).val) p.1 p.2)
      _ _ fun x _ T => rfl]
    simp only [Make.plain, opd_val]
  | lpdfVV d ys m s =>
    simp only [Make.write, Log.each, Log.next, Log.ret, step, opd_val, List.map_cons, List.map_nil, Make.plain]
  | lpdfVD d ys m s =>
    simp only [Make.write, Log.each, Log.next, Log.ret, step, opd_val, List.map_cons, List.map_nil, Make.plain]
  | lpdfDV d ys m s =>
    simp only [Make.write, Log.each, Log.next, Log.ret, step, opd_val, List.map_cons, List.map_nil, Make.plain]
  | partials x is ds => rfl
  | user x r is ds => rfl

/-! ## programs -/

/-- the variables of both programs -/
structure EnvRel (J : Nat → Prop) (p : List (Option Nat)) (σ : Nat → Nat) (env env' : List (Num R)) : Prop where
  lt : ∀ i < env.length, σ i < env'.length
  rel : ∀ i < env.length, NumRel J p (opd env i) (opd env' (σ i))

theorem opd_left {env vs : List (Num R)} {i : Nat} (h : i < env.length) : opd (env ++ vs) i = opd env i := by
  simp [opd, List.getD_eq_getElem?_getD, List.getElem?_append_left h]

theorem opd_right {env vs : List (Num R)} (i : Nat) : opd (env ++ vs) (env.length + i) = opd vs i := by
  simp [opd, List.getD_eq_getElem?_getD, List.getElem?_append_right]

theorem EnvRel.mono {σ : Nat → Nat} {env env' : List (Num R)} (h : EnvRel J p σ env env') (hpq : p <+: q) :
    EnvRel J q σ env env' := ⟨h.lt, fun i hi => (h.rel i hi).mono hpq⟩

theorem EnvRel.extra {σ : Nat → Nat} {env env' : List (Num R)} (h : EnvRel J p σ env env') (vs : List (Num R)) :
    EnvRel J p σ env (env' ++ vs) :=
  ⟨fun i hi => by have := h.lt i hi; simp; omega, fun i hi => by rw [opd_left (h.lt i hi)]; exact h.rel i hi⟩

theorem EnvRel.make {σ : Nat → Nat} {env env' vs vs' : List (Num R)} (h : EnvRel J p σ env env')
    (hv : List.Forall₂ (NumRel J p) vs vs') : EnvRel J p (after σ env.length env'.length) (env ++ vs) (env' ++ vs') := by
  constructor
  · intro i hi
    have := hv.length_eq
    simp only [List.length_append] at hi ⊢
    unfold after
    split
    · rename_i h1
      have := h.lt i h1
      omega
    · omega
  · intro i hi
    simp only [List.length_append] at hi
    unfold after
    split
    · rename_i h1
      rw [opd_left h1, opd_left (h.lt i h1)]
      exact h.rel i h1
    · rename_i h1
      obtain ⟨k, rfl⟩ := Nat.exists_eq_add_of_le (Nat.le_of_not_lt h1)
      rw [opd_right, show env.length + k - env.length + env'.length = env'.length + k by omega, opd_right]
      have hk : k < vs.length := by omega
      have hk' : k < vs'.length := by rw [← hv.length_eq]; exact hk
      have := List.Forall₂.get hv hk hk'
      simpa [opd, List.getD_eq_getElem?_getD, hk, hk'] using this

theorem unused_writes {ys ys' : List R} {σ : Nat → Nat} {f f' : Code R} (hu : Unused ys ys' σ f f') :
    ∀ {env env' : List (Num R)} {p : List (Option Nat)} {T T' : List (Step R)}, env.map Num.val = ys → env'.map Num.val = ys' →
      EnvRel J p σ env env' → Ins J p T T' → f.Meets false ys → f.Plain → f'.Plain →
      ∃ q, p <+: q ∧ Ins J q (f.write env T).2 (f'.write env' T').2 ∧
        List.Forall₂ (NumRel J q) (f.write env T).1 (f'.write env' T').1 := by
  induction hu with
  | @ret ys ys' σ is =>
    intro env env' p T T' e e' hr hi hm _ _
    refine ⟨p, List.prefix_refl p, hi, ?_⟩
    simp only [Code.write, Log.ret]
    rw [List.map_map, List.forall₂_map_left_iff, List.forall₂_map_right_iff]
    refine forall₂_same fun i h => hr.rel i ?_
    have := hm i h
    rwa [← e, List.length_map] at this
  | @make ys ys' σ m k k' _ ih =>
    intro env env' p T T' e e' hr hi hm hp hp'
    obtain ⟨q, hpq, hi1, hv⟩ := logRel_make (σ := σ) (env' := env') m (fun i h => hr.rel i (by
      have := hm.1 i h
      rwa [← e, List.length_map] at this)) hm.2.1 p T T' (List.prefix_refl p) hi
    have ev := write_val m hp.1 env T
    rw [e] at ev
    have er := (hr.mono hpq).make hv
    rw [← List.length_map (f := Num.val) (as := env), e, ← List.length_map (f := Num.val) (as := env'), e'] at er
    obtain ⟨q', hqq, hi2, hv2⟩ := ih (env := env ++ (m.write env T).1) (env' := env' ++ ((m.rename σ).write env' T').1)
      (by rw [List.map_append, e, ev]) (by rw [List.map_append, e', vals_same hv, ev]) er hi1 hm.2.2 hp.2 hp'.2
    exact ⟨q', hpq.trans hqq, hi2, hv2⟩
  | @look ys ys' σ i k k' _ ih =>
    intro env env' p T T' e e' hr hi hm hp hp'
    have h1 : i < env.length := by
      have := hm.1
      rwa [← e, List.length_map] at this
    have v1 : (opd env i).val = num ys i := by rw [opd_val, e]
    have v2 : (opd env' (σ i)).val = num ys i := by rw [(hr.rel i h1).val, v1]
    simp only [Code.write, v1, v2]
    exact ih e e' hr hi hm.2 (hp _) (hp' _)
  | @extra ys ys' σ m k k' hq _ ih =>
    intro env env' p T T' e e' hr hi hm hp hp'
    obtain ⟨D, hD, hQ⟩ := hq env' T' e'
    have ev := write_val m hp'.1 env' T'
    rw [e'] at ev
    simp only [Code.write, Log.next]
    refine ih e (by rw [List.map_append, e', ev]) (hr.extra _) ?_ hm hp hp'.2
    rw [hD]
    exact hi.quiets hQ
  | @glance ys ys' σ i k k' _ ih =>
    intro env env' p T T' e e' hr hi hm hp hp'
    have v1 : (opd env' i).val = num ys' i := by rw [opd_val, e']
    simp only [Code.write, v1]
    exact ih e e' hr hi hm hp (hp' _)

/-! ## from the inputs on -/

theorem opd_inputs (x ys : List R) (i : Nat) :
    opd ((Log.each input x ([] : List (Step R))).1 ++ ys.map fun y => ⟨none, y⟩) i =
      ⟨if i < x.length then some i else none, num (x ++ ys) i⟩ := by
  have ev : (Log.each input x ([] : List (Step R))).1.map Num.val = x := by
    rw [each_val (g := id) _ _ fun _ _ _ => rfl]
    exact List.map_id _
  have hl : (Log.each input x ([] : List (Step R))).1.length = x.length := by
    have := congrArg List.length ev
    rwa [List.length_map] at this
  have hv := opd_val ((Log.each input x ([] : List (Step R))).1 ++ ys.map fun y => ⟨none, y⟩) i
  rw [List.map_append, ev, List.map_map, show ys.map (Num.val ∘ fun y => (⟨none, y⟩ : Num R)) = ys from List.map_id _] at hv
  have hr : (opd ((Log.each input x ([] : List (Step R))).1 ++ ys.map fun y => ⟨none, y⟩) i).ref =
      if i < x.length then some i else none := by
    split
    · rename_i h
      have h2 := congrArg (fun l => l[i]?) (input_refs x ([] : List (Step R)))
      rw [opd_left (by omega)]
      simp [opd, List.getD_eq_getElem?_getD, List.getElem?_map, h] at h2 ⊢
      obtain ⟨a, h3, h4⟩ := h2
      rw [h3]
      exact h4
    · rename_i h
      obtain ⟨k, rfl⟩ := Nat.exists_eq_add_of_le (Nat.le_of_not_lt h)
      rw [← hl, opd_right]
      simp only [opd, List.getD_eq_getElem?_getD, List.getElem?_map]
      cases ys[k]? <;> rfl
  rw [← hv, ← hr]

theorem inputs_src (x : List R) : ∀ (T : List (Step R)), (∀ c ∈ T, c.src = []) →
    (∀ c ∈ (Log.each input x T).2, c.src = []) ∧ (Log.each input x T).2.length = T.length + x.length := by
  induction x with
  | nil => intro T h; exact ⟨h, rfl⟩
  | cons a x ih =>
    intro T h
    obtain ⟨h1, h2⟩ := ih (T ++ [⟨a, [], fun _ => []⟩]) (by
      intro c hc
      rcases List.mem_append.mp hc with h3 | h3
      · exact h c h3
      · rw [List.mem_singleton.mp h3])
    refine ⟨h1, h2.trans ?_⟩
    simp only [List.length_append, List.length_cons, List.length_nil]
    omega

/-- the variables a program is given -/
def begun (x ys : List R) : List (Num R) := (Log.each input x ([] : List (Step R))).1 ++ ys.map fun y => ⟨none, y⟩

theorem begun_vals (x ys : List R) : (begun x ys).map Num.val = x ++ ys := by
  unfold begun
  rw [List.map_append, each_val (g := id) _ _ fun _ _ _ => rfl, List.map_id, List.map_map]
  congr 1
  exact List.map_id _

theorem begun_length (x ys : List R) : (begun x ys).length = (x ++ ys).length := by
  rw [← begun_vals x ys, List.length_map]

open Classical in
/-- the books before the programs start, when inputs and variables of the caller stand elsewhere, and the variables `K`
are not there -/
theorem start_ins {ys ys' x x' : List R} {σ : Nat → Nat} {K : Nat → Prop}
    (hlt : ∀ i < (x ++ ys).length, ¬ K i → σ i < (x' ++ ys').length)
    (hnum : ∀ i < (x ++ ys).length, ¬ K i → num (x' ++ ys') (σ i) = num (x ++ ys) i)
    (hinj : ∀ i j, i < (x ++ ys).length → j < (x ++ ys).length → ¬ K i → ¬ K j → σ i = σ j → i = j) :
    ∃ (J : Nat → Prop) (p : List (Option Nat)),
      Ins J p (Log.each input x ([] : List (Step R))).2 (Log.each input x' ([] : List (Step R))).2 ∧
      (∀ k < x.length, ¬ K k → σ k < x'.length → p[k]? = some (some (σ k))) ∧
      ∀ i < (begun x ys).length, (K i → Gone p (opd (begun x ys) i).ref) ∧
        (¬ K i → σ i < (begun x' ys').length ∧ NumRel J p (opd (begun x ys) i) (opd (begun x' ys') (σ i))) := by
  let J : Nat → Prop := fun k => k < x'.length ∧ ∃ i, x.length ≤ i ∧ i < (x ++ ys).length ∧ ¬ K i ∧ σ i = k
  let p : List (Option Nat) := (List.range x.length).map fun i => if ¬ K i ∧ σ i < x'.length then some (σ i) else none
  have hp0 : ∀ i < x.length, p[i]? = some (if ¬ K i ∧ σ i < x'.length then some (σ i) else none) := by
    intro i hi
    simp [p, hi]
  have hpn : ∀ {i a : Nat}, p[i]? = some (some a) → i < x.length ∧ ¬ K i ∧ a < x'.length ∧ σ i = a := by
    intro i a h
    have h1 : i < p.length := (List.getElem?_eq_some_iff.mp h).1
    have h2 : i < x.length := by simpa [p] using h1
    rw [hp0 i h2] at h
    split at h
    · rename_i h3
      obtain rfl := Option.some.inj (Option.some.inj h)
      exact ⟨h2, h3.1, h3.2, rfl⟩
    · cases h
  have hx : x.length ≤ (x ++ ys).length := by simp
  obtain ⟨s1, l1⟩ := inputs_src x ([] : List (Step R)) (by simp)
  obtain ⟨s2, l2⟩ := inputs_src x' ([] : List (Step R)) (by simp)
  rw [List.length_nil, Nat.zero_add] at l1 l2
  refine ⟨J, p, .base s1 s2 (by simp [p, l1]) ?_ ?_ ?_, fun k h1 h2 h3 => by rw [hp0 k h1, if_pos ⟨h2, h3⟩], ?_⟩
  · intro k hk
    obtain ⟨i, hk⟩ := List.mem_iff_getElem?.mp hk
    rw [l2]
    exact (hpn hk).2.2.1
  · intro i j a h1 h2
    have h1 := hpn h1
    have h2 := hpn h2
    exact hinj i j (by omega) (by omega) h1.2.1 h2.2.1 (h1.2.2.2.trans h2.2.2.2.symm)
  · rintro k ⟨h1, i, h2, h3, h5, h4⟩
    rw [l2]
    refine ⟨h1, fun hk => ?_⟩
    obtain ⟨j, hk⟩ := List.mem_iff_getElem?.mp hk
    have hk := hpn hk
    have := hinj i j h3 (by omega) h5 hk.2.1 (h4.trans hk.2.2.2.symm)
    omega
  · intro i h
    rw [begun_length] at h
    rw [show opd (begun x ys) i = _ from opd_inputs x ys i]
    refine ⟨fun hK => ?_, fun hK => ⟨by rw [begun_length]; exact hlt i h hK, ?_⟩⟩
    · show Gone p (if _ then _ else _)
      split
      · rename_i h1
        exact .inr ⟨i, rfl, by rw [hp0 i h1, if_neg fun h => h.1 hK]⟩
      · exact .inl rfl
    · rw [show opd (begun x' ys') (σ i) = _ from opd_inputs x' ys' (σ i)]
      refine ⟨hnum i h hK, ?_⟩
      show RefRel J p _ _
      split
      · rename_i h1
        refine .inr ⟨i, rfl, ?_⟩
        rw [hp0 i h1]
        by_cases h2 : σ i < x'.length
        · rw [if_pos ⟨hK, h2⟩, if_pos h2]
        · rw [if_neg fun h => h2 h.2, if_neg h2]
      · rename_i h1
        refine .inl ⟨rfl, fun k' hk => ?_⟩
        split at hk
        · rename_i h2
          obtain rfl := Option.some.inj hk
          exact ⟨h2, i, Nat.le_of_not_lt h1, h, hK, rfl⟩
        · cases hk

/-- the books of both programs, when inputs and variables of the caller stand elsewhere -/
theorem unused_steps {ys ys' x x' : List R} {σ : Nat → Nat} {f f' : Code R} (hc : Stands σ (x ++ ys) (x' ++ ys'))
    (hu : Unused (x ++ ys) (x' ++ ys') σ f f') (hm : f.Meets false (x ++ ys)) (hp : f.Plain) (hp' : f'.Plain) :
    ∃ (J : Nat → Prop) (q : List (Option Nat)), Ins J q (f.steps ys x []).2 (f'.steps ys' x' []).2 ∧
      (∀ k < x.length, σ k < x'.length → q[k]? = some (some (σ k))) ∧
      List.Forall₂ (NumRel J q) (f.steps ys x []).1 (f'.steps ys' x' []).1 := by
  obtain ⟨J, p, hi, hp0, hr⟩ := start_ins (K := fun _ => False) (fun i h _ => hc.lt i h) (fun i h _ => hc.num i h)
    (fun i j h h' _ _ => hc.inj i j h h')
  obtain ⟨q, hpq, h1, h2⟩ := unused_writes hu (begun_vals x ys) (begun_vals x' ys')
    ⟨fun i h => ((hr i h).2 id).1, fun i h => ((hr i h).2 id).2⟩ hi hm hp hp'
  exact ⟨J, q, h1, fun k hk hk' => Fz.prefix_get hpq (hp0 k hk id hk'), h2⟩

theorem stands_id (ys : List R) : Stands id ys ys := ⟨fun _ h => h, fun _ _ => rfl, fun _ _ _ _ h => h⟩

theorem row_at {T : List (Step R)} {n k : Nat} {o : Num R} (h : k < n) :
    (rowOf T n o)[k]? = some (backFrom 0 T (seed o.ref) k) := by
  simp [rowOf, h]

theorem carried_gradient {ys ys' x x' : List R} {σ : Nat → Nat} {f f' : Code R} (hc : Stands σ (x ++ ys) (x' ++ ys'))
    (hu : Unused (x ++ ys) (x' ++ ys') σ f f') (hm : f.Meets false (x ++ ys)) (hp : f.Plain) (hp' : f'.Plain)
    {y y' : R} {df df' : List R} (h : f.bookGradient ys x = some (y, df)) (h' : f'.bookGradient ys' x' = some (y', df')) :
    y' = y ∧ ∀ i < x.length, σ i < x'.length → df'[σ i]? = df[i]? := by
  obtain ⟨J, q, h1, h2, h3⟩ := unused_steps hc hu hm hp hp'
  unfold Code.bookGradient at h h'
  cases e : (f.steps ys x [] : List (Num R) × List (Step R)) with
  | mk os T =>
    cases e' : (f'.steps ys' x' [] : List (Num R) × List (Step R)) with
    | mk os' T' =>
      rw [e] at h h1 h3
      rw [e'] at h' h1 h3
      cases h3 with
      | nil => cases h
      | cons h4 _ =>
        cases h
        cases h'
        exact ⟨h4.val, fun i hi hi' => by rw [row_at hi, row_at hi', entry_same h1 h4 (h2 i hi hi')]⟩

theorem carried_jacobian {ys ys' x x' : List R} {σ : Nat → Nat} {f f' : Code R} (hc : Stands σ (x ++ ys) (x' ++ ys'))
    (hu : Unused (x ++ ys) (x' ++ ys') σ f f') (hm : f.Meets false (x ++ ys)) (hp : f.Plain) (hp' : f'.Plain)
    {fx fx' : List R} {D D' : List (List R)} (h : f.bookJacobian ys x = (fx, D)) (h' : f'.bookJacobian ys' x' = (fx', D')) :
    fx' = fx ∧ List.Forall₂ (fun r r' => ∀ i < x.length, σ i < x'.length → r'[σ i]? = r[i]?) D D' := by
  obtain ⟨J, q, h1, h2, h3⟩ := unused_steps hc hu hm hp hp'
  unfold Code.bookJacobian at h h'
  cases e : (f.steps ys x [] : List (Num R) × List (Step R)) with
  | mk os T =>
    cases e' : (f'.steps ys' x' [] : List (Num R) × List (Step R)) with
    | mk os' T' =>
      rw [e] at h h1 h3
      rw [e'] at h' h1 h3
      cases h
      cases h'
      refine ⟨vals_same h3, ?_⟩
      rw [List.forall₂_map_left_iff, List.forall₂_map_right_iff]
      exact h3.imp fun o o' h4 i hi hi' => by rw [row_at hi, row_at hi', entry_same h1 h4 (h2 i hi hi')]

theorem unused_gradient {ys x : List R} {f f' : Code R} (hu : Unused (x ++ ys) (x ++ ys) id f f')
    (hm : f.Meets false (x ++ ys)) (hp : f.Plain) (hp' : f'.Plain) : f'.bookGradient ys x = f.bookGradient ys x := by
  obtain ⟨J, q, h1, h2, h3⟩ := unused_steps (stands_id _) hu hm hp hp'
  unfold Code.bookGradient
  cases h : (f.steps ys x [] : List (Num R) × List (Step R)) with
  | mk os T =>
    cases h' : (f'.steps ys x [] : List (Num R) × List (Step R)) with
    | mk os' T' =>
      rw [h, h'] at h1 h3
      cases h3 with
      | nil => rfl
      | cons h4 _ => simp only [h4.val, rows_same h1 (fun k hk => h2 k hk hk) h4]

theorem unused_jacobian {ys x : List R} {f f' : Code R} (hu : Unused (x ++ ys) (x ++ ys) id f f')
    (hm : f.Meets false (x ++ ys)) (hp : f.Plain) (hp' : f'.Plain) : f'.bookJacobian ys x = f.bookJacobian ys x := by
  obtain ⟨J, q, h1, h2, h3⟩ := unused_steps (stands_id _) hu hm hp hp'
  unfold Code.bookJacobian
  cases h : (f.steps ys x [] : List (Num R) × List (Step R)) with
  | mk os T =>
    cases h' : (f'.steps ys x [] : List (Num R) × List (Step R)) with
    | mk os' T' =>
      rw [h, h'] at h1 h3
      simp only at h1 h3
      simp only [vals_same h3, Prod.mk.injEq, true_and]
      clear h h'
      induction h3 with
      | nil => rfl
      | cons h4 _ ih => simp only [List.map_cons, rows_same h1 (fun k hk => h2 k hk hk) h4, ih]

/-! ## calls with quiet steps -/

/-- what chain procedures do with the adjoint -/
inductive Lin : (R → R) → Prop where
  | id : Lin fun a => a
  | neg {φ : R → R} (h : Lin φ) : Lin fun a => Arith.neg (φ a)
  | mul {φ : R → R} (c : R) (h : Lin φ) : Lin fun a => φ a *. c
  | mul' {φ : R → R} (c : R) (h : Lin φ) : Lin fun a => c *. φ a
  | div {φ : R → R} (c : R) (h : Lin φ) : Lin fun a => φ a /. c
  | nan (h : feq (nan : R) nan = false) : Lin fun _ => nan

/-- the step passes on such numbers -/
def Step.Lin (c : Step R) : Prop := ∃ φs : List (R → R), (∀ φ ∈ φs, Spec.Lin φ) ∧ ∀ a, c.pass a = φs.map fun φ => φ a

/-- the computation writes down such steps only -/
def LinLog {α : Type} (m : Log R α) : Prop := ∀ T, ∃ D, (m T).2 = T ++ D ∧ ∀ c ∈ D, c.Lin

theorem LinLog.ret {α : Type} (x : α) : LinLog (.ret x : Log R α) := fun T => ⟨[], by simp [Log.ret], by simp⟩

theorem linLog_step {v : R} {xs : List (Num R)} {pass : R → List R} (φs : List (R → R)) (h : ∀ φ ∈ φs, Spec.Lin φ)
    (hp : ∀ a, pass a = φs.map fun φ => φ a) : LinLog (step v xs pass) := by
  intro T
  refine ⟨[_], rfl, ?_⟩
  intro c hc
  rw [List.mem_singleton.mp hc]
  exact ⟨φs, h, hp⟩

theorem linLog_one {v : R} {xs : List (Num R)} {φ : R → R} (h : Lin φ) : LinLog (step v xs fun a => [φ a]) :=
  linLog_step [φ] (by simpa using h) fun _ => rfl

theorem linLog_two {v : R} {xs : List (Num R)} {φ ψ : R → R} (h : Lin φ) (h' : Lin ψ) :
    LinLog (step v xs fun a => [φ a, ψ a]) :=
  linLog_step [φ, ψ] (by intro x hx; simp only [List.mem_cons, List.not_mem_nil, or_false] at hx; rcases hx with rfl | rfl <;> assumption) fun _ => rfl

theorem linLog_map {α : Type} {v : R} {xs : List (Num R)} {l : List α} {φ : α → R → R} (h : ∀ x ∈ l, Lin (φ x)) :
    LinLog (step v xs fun a => l.map fun x => φ x a) :=
  linLog_step (l.map φ) (by
    intro x hx
    obtain ⟨y, hy, rfl⟩ := List.mem_map.mp hx
    exact h y hy) fun a => by simp [List.map_map, Function.comp_def]

theorem linLog_each {α : Type} {f : α → Log R (Num R)} : ∀ {l : List α}, (∀ x ∈ l, LinLog (f x)) → LinLog (.each f l) := by
  intro l
  induction l with
  | nil => intro _; exact .ret _
  | cons x l ih =>
    intro h T
    obtain ⟨D, e, hD⟩ := h x (by simp) T
    obtain ⟨D', e', hD'⟩ := ih (fun y hy => h y (by simp [hy])) (f x T).2
    refine ⟨D ++ D', ?_, ?_⟩
    · simp only [Log.each, Log.next, Log.ret]
      rw [e', e, List.append_assoc]
    · intro c hc
      rcases List.mem_append.mp hc with h1 | h1
      · exact hD c h1
      · exact hD' c h1

theorem linLog_fn (f : Fn) (x : Num R) : LinLog (f.write x) := by
  have new : ∀ v : R, LinLog (step v [x] fun a => [f.pass x.val v a]) := by
    intro v
    have hl : Lin fun a => f.pass x.val v a := ?_
    · exact linLog_one hl
    cases f <;> simp only [Fn.pass]
    case pos => exact .id
    case neg => exact .neg .id
    case abs => exact .id
    case sin => exact .mul _ .id
    case cos => exact .neg (.mul _ .id)
    case tan => exact .mul _ .id
    case asin => exact .div _ .id
    case acos => exact .neg (.div _ .id)
    case atan => exact .div _ .id
    case sinh => exact .mul _ .id
    case cosh => exact .mul _ .id
    case tanh => exact .div _ .id
    case asinh => exact .div _ .id
    case acosh => exact .div _ .id
    case atanh => exact .div _ .id
    case sqrt => exact .div _ (.mul' _ .id)
    case inv => exact .neg (.div _ .id)
    case square => exact .mul _ (.mul _ .id)
    case invSquare => exact .neg (.div _ (.mul _ .id))
    case invSqrt => exact .neg (.div _ (.mul' _ .id))
    case exp => exact .mul _ .id
    case log => exact .div _ .id
    case logit => exact .div _ .id
    case invLogit => exact .mul _ (.mul _ .id)
    case erf => exact .mul _ (.mul _ .id)
    case erfc => exact .neg (.mul _ (.mul _ .id))
    case logGamma => exact .mul _ .id
  cases f <;> (try exact new _)
  case pos => exact .ret _
  case abs =>
    simp only [Fn.write]
    split
    · exact .ret _
    split
    · exact linLog_one (.neg .id)
    split
    · exact linLog_step [] (by simp) fun _ => rfl
    · by_cases h : feq (nan : R) nan = true
      · simp only [h, if_true]
        exact linLog_step [] (by simp) fun _ => rfl
      · simp only [if_neg h]
        exact linLog_one (.nan (by simpa using h))
  case acosh =>
    simp only [Fn.write]
    split
    · exact new _
    · exact .ret _
  case atanh =>
    simp only [Fn.write]
    split
    · exact new _
    · exact .ret _

theorem linLog_bin (f : Bin) (x y : Num R) : LinLog (f.write x y) := by
  unfold Bin.write
  generalize f.plain x.val y.val = v
  cases f <;> simp only [Bin.pass]
  case add => exact linLog_two .id .id
  case sub => exact linLog_two .id (.neg .id)
  case mul => exact linLog_two (.mul' _ .id) (.mul' _ .id)
  case div => exact linLog_two (.div _ .id) (.neg (.div _ (.mul' _ .id)))
  case pow =>
    split
    · exact linLog_step [] (by simp) fun _ => rfl
    · exact linLog_two (.div _ (.mul _ (.mul _ .id))) (.mul _ (.mul _ .id))
  case hypot => exact linLog_two (.div _ (.mul _ .id)) (.div _ (.mul _ .id))

theorem linLog_binVD (f : Bin) (x : Num R) (d : R) : LinLog (f.writeVD x d) := by
  have new : ∀ v, LinLog (step v [x] fun a => f.passVD x.val d v a) := by
    intro v
    cases f <;> simp only [Bin.passVD]
    case add => exact linLog_one .id
    case sub => exact linLog_one .id
    case mul => exact linLog_one (.mul _ .id)
    case div => exact linLog_one (.div _ .id)
    case pow =>
      split
      · exact linLog_step [] (by simp) fun _ => rfl
      · exact linLog_one (.div _ (.mul _ (.mul _ .id)))
    case hypot => exact linLog_one (.div _ (.mul _ .id))
  cases f <;> (try exact new _)
  simp only [Bin.writeVD]
  split
  · exact linLog_fn _ _
  split
  · exact .ret _
  split
  · exact linLog_fn _ _
  split
  · exact linLog_fn _ _
  split
  · exact linLog_fn _ _
  · exact new _

theorem linLog_binDV (f : Bin) (x : Num R) (d : R) : LinLog (f.writeDV d x) := by
  unfold Bin.writeDV
  generalize f.plainDV d x.val = v
  cases f <;> simp only [Bin.passDV]
  case add => exact linLog_one .id
  case sub => exact linLog_one (.neg .id)
  case mul => exact linLog_one (.mul _ .id)
  case div => exact linLog_one (.neg (.div _ (.mul' _ .id)))
  case pow =>
    split
    · exact linLog_step [] (by simp) fun _ => rfl
    · exact linLog_one (.mul _ (.mul _ .id))
  case hypot => exact linLog_one (.div _ (.mul _ .id))

theorem linLog_dot {v : R} {r c : List (Num R)} : LinLog (dotStep v r c) := by
  unfold dotStep
  refine linLog_step (c.map (fun y a => a *. y.val) ++ r.map fun x a => a *. x.val) ?_ ?_
  · intro φ hφ
    rcases List.mem_append.mp hφ with h | h
    · obtain ⟨y, -, rfl⟩ := List.mem_map.mp h
      exact .mul _ .id
    · obtain ⟨y, -, rfl⟩ := List.mem_map.mp h
      exact .mul _ .id
  · intro a
    simp [List.map_map, Function.comp_def]

/-- all calls of the library write down such steps -/
theorem linLog_make (m : Make R) (hm : m.Library) (env : List (Num R)) : LinLog (m.write env) := by
  have hin : ∀ v : R, LinLog (input v) := fun v => linLog_step [] (by simp) fun _ => rfl
  cases m with
  | new0 => exact linLog_each fun _ _ => hin _
  | new d => exact linLog_each fun _ _ => hin _
  | newVals ds => exact linLog_each fun _ _ => hin _
  | newArr n => exact linLog_each fun _ _ => hin _
  | fn f i => exact linLog_each fun _ _ => linLog_fn _ _
  | fnArr f is => exact linLog_each fun _ _ => linLog_fn _ _
  | bin f i j => exact linLog_each fun _ _ => linLog_bin _ _ _
  | binArr f is js => exact linLog_each fun _ _ => linLog_bin _ _ _
  | binVD f i d => exact linLog_each fun _ _ => linLog_binVD _ _ _
  | binDV f d i => exact linLog_each fun _ _ => linLog_binDV _ _ _
  | sum is => exact linLog_each fun _ _ => linLog_map fun _ _ => .id
  | norm2 is => exact linLog_each fun _ _ => linLog_map fun _ _ => .div _ (.mul _ .id)
  | logSumExp is => exact linLog_each fun _ _ => linLog_map fun _ _ => .mul _ .id
  | dotVV is js => exact linLog_each fun _ _ => linLog_dot
  | dotVD is ds => exact linLog_each fun _ _ => linLog_map fun _ _ => .mul _ .id
  | dotDV ds is => exact linLog_each fun _ _ => linLog_map fun _ _ => .mul _ .id
  | matmulVV a b => exact linLog_each fun _ _ => linLog_dot
  | matmulVD a b => exact linLog_each fun _ _ => linLog_map fun _ _ => .mul _ .id
  | matmulDV a b => exact linLog_each fun _ _ => linLog_map fun _ _ => .mul _ .id
  | lpdfVV d ys m s => exact linLog_each fun _ _ => linLog_two (.mul _ .id) (.mul _ .id)
  | lpdfVD d ys m s => exact linLog_each fun _ _ => linLog_one (.mul _ .id)
  | lpdfDV d ys m s => exact linLog_each fun _ _ => linLog_one (.mul _ .id)
  | partials x is ds => exact linLog_each fun _ _ => linLog_map fun _ _ => .mul _ .id
  | user x r is ds => exact hm.elim

/-- where such numbers vanish with the adjoint, calls of the library are quiet -/
theorem quiet_of_lin {fin : R → Prop} (hz : ∀ φ : R → R, Lin φ → fin (φ Arith.one) → φ zero = zero)
    (ht : ∀ a : R, Total a → a +. zero = a) (m : Make R) (hm : m.Library) {ys : List R} (hf : m.Finite fin ys) :
    m.Quiet ys := by
  intro env T e
  obtain ⟨D, hD, hL⟩ := linLog_make m hm env T
  refine ⟨D, hD, ?_⟩
  intro c hc d hd a ha
  obtain ⟨φs, h1, h2⟩ := hL c hc
  rw [h2] at hd
  obtain ⟨φ, hφ, rfl⟩ := List.mem_map.mp hd
  obtain ⟨D', hD', hF⟩ := hf env T e
  rw [hD] at hD'
  obtain rfl := List.append_cancel_left hD'
  rw [hz φ (h1 φ hφ) (hF c hc _ (by rw [h2]; exact List.mem_map.mpr ⟨φ, hφ, rfl⟩)), ht a ha]

end Spec
