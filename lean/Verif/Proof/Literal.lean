import Verif.Spec.Literal
import Verif.Proof.Unused

/-!
# Reals in place of variables: the books

Steps with constants as operands pass on the same to the other operands; steps of constants only are missing in the other
book.
-/

set_option linter.unusedSectionVars false

namespace Spec
open Fz Arith
variable {R : Type} [Arith R]
variable {J : Nat → Prop} {p q p0 : List (Option Nat)} {T T' : List (Step R)}

/-! ## steps of constants only -/

/-- a computation of which the other book has nothing -/
def GoneLog {α : Type} (J : Nat → Prop) (p0 : List (Option Nat)) (m : Log R α) (Q : List (Option Nat) → α → Prop) : Prop :=
  ∀ p T T', p0 <+: p → Ins J p T T' → ∃ q, p <+: q ∧ Ins J q (m T).2 T' ∧ Q q (m T).1

/-- what it has as result -/
def GoneNum (q : List (Option Nat)) (x : Num R) : Prop := Gone q x.ref

theorem GoneNum.mono {x : Num R} (h : p <+: q) (hx : GoneNum p x) : GoneNum q x := Gone.mono h hx

theorem goneLog_step {v : R} {xs : List (Num R)} {pass : R → List R} (h : ∀ x ∈ xs, GoneNum p0 x) :
    GoneLog J p0 (step v xs pass) GoneNum := by
  intro p T T' hp hi
  refine ⟨p ++ [none], List.prefix_append _ _, hi.gone (c := ⟨v, xs.map Num.ref, pass⟩) ?_, .inr ⟨_, rfl, ?_⟩⟩
  · intro r hr
    obtain ⟨x, hx, rfl⟩ := List.mem_map.mp hr
    exact (h x hx).mono hp
  · rw [← hi.length]
    simp

theorem goneLog_same {x : Num R} (h : GoneNum p0 x) : GoneLog J p0 (.ret x : Log R (Num R)) GoneNum :=
  fun p _ _ hp hi => ⟨p, List.prefix_refl p, hi, h.mono hp⟩

theorem goneLog_each {α : Type} {f : α → Log R (Num R)} : ∀ {l : List α}, (∀ x ∈ l, GoneLog J p0 (f x) GoneNum) →
    GoneLog J p0 (.each f l) fun q a => ∀ x ∈ a, GoneNum q x := by
  intro l
  induction l with
  | nil => intro _ p T T' hp hi; exact ⟨p, List.prefix_refl p, hi, by simp [Log.each, Log.ret]⟩
  | cons x l ih =>
    intro h p T T' hp hi
    obtain ⟨q, hpq, hi1, h1⟩ := h x (by simp) p T T' hp hi
    obtain ⟨q', hqq, hi2, h2⟩ := ih (fun x hx => h x (by simp [hx])) q _ _ (hp.trans hpq) hi1
    refine ⟨q', hpq.trans hqq, hi2, ?_⟩
    intro y hy
    rcases List.mem_cons.mp hy with rfl | hy
    · exact h1.mono hqq
    · exact h2 y hy

theorem goneLog_fn (f : Fn) {x : Num R} (h : GoneNum p0 x) : GoneLog J p0 (f.write x) GoneNum := by
  have one : ∀ (v : R) (pass : R → List R), GoneLog J p0 (step v [x] pass) GoneNum :=
    fun v pass => goneLog_step (by simpa using h)
  have same : GoneLog J p0 (.ret x : Log R (Num R)) GoneNum := goneLog_same h
  have hin : GoneLog J p0 (input (zero : R)) GoneNum := goneLog_step (by simp)
  cases f <;> simp only [Fn.write] <;> (try exact one _ _) <;> (try exact same) <;> split <;> (try exact same) <;>
    (try exact one _ _) <;> split <;> (try exact one _ _) <;> split <;> (try exact one _ _) <;> exact hin

theorem goneLog_binVD (f : Bin) (d : R) {x : Num R} (h : GoneNum p0 x) : GoneLog J p0 (f.writeVD x d) GoneNum := by
  have one : ∀ (v : R) (pass : R → List R), GoneLog J p0 (step v [x] pass) GoneNum :=
    fun v pass => goneLog_step (by simpa using h)
  cases f <;> simp only [Bin.writeVD] <;> (try exact one _ _)
  split
  · exact goneLog_fn _ h
  split
  · exact goneLog_same h
  split
  · exact goneLog_fn _ h
  split
  · exact goneLog_fn _ h
  split
  · exact goneLog_fn _ h
  · exact one _ _

theorem goneLog_make (m : Make R) {env : List (Num R)} (h : ∀ i ∈ m.args, GoneNum p0 (opd env i)) {ys : List R}
    (hm : m.Meets false ys) : GoneLog J p0 (m.write env) fun q a => ∀ x ∈ a, GoneNum q x := by
  have hl : ∀ {is : List Nat}, (∀ i ∈ is, GoneNum p0 (opd env i)) → ∀ x ∈ is.map (opd env), GoneNum p0 x := by
    intro is hi x hx
    obtain ⟨i, h1, rfl⟩ := List.mem_map.mp hx
    exact hi i h1
  have none' : ∀ (v : R), GoneLog J p0 (input v) GoneNum := fun v => goneLog_step (by simp)
  cases m with
  | new0 => exact goneLog_each fun _ _ => none' _
  | new d => exact goneLog_each fun _ _ => none' _
  | newVals ds => exact goneLog_each fun _ _ => none' _
  | newArr n => exact goneLog_each fun _ _ => none' _
  | fn f i => exact goneLog_each (by simpa using goneLog_fn f (h i (by simp [Make.args])))
  | fnArr f is => exact goneLog_each fun x hx => goneLog_fn f (hl h x hx)
  | bin f i j =>
    exact goneLog_each (by
      simp only [List.mem_singleton, forall_eq]
      exact goneLog_step (by simpa using ⟨h i (by simp [Make.args]), h j (by simp [Make.args])⟩))
  | binArr f is js =>
    simp only [Make.args, List.mem_append] at h
    refine goneLog_each fun x hx => goneLog_step ?_
    have h1 := hl (fun i hi => h i (.inl hi)) x.1 (List.of_mem_zip hx).1
    have h2 := hl (fun i hi => h i (.inr hi)) x.2 (List.of_mem_zip hx).2
    simpa using ⟨h1, h2⟩
  | binVD f i d => exact goneLog_each (by simpa using goneLog_binVD f d (h i (by simp [Make.args])))
  | binDV f d i =>
    exact goneLog_each (by
      simp only [List.mem_singleton, forall_eq]
      exact goneLog_step (by simpa using h i (by simp [Make.args])))
  | sum is => exact goneLog_each (by simpa only [List.mem_singleton, forall_eq] using goneLog_step (hl (is := is) h))
  | norm2 is => exact goneLog_each (by simpa only [List.mem_singleton, forall_eq] using goneLog_step (hl (is := is) h))
  | logSumExp is => exact goneLog_each (by simpa only [List.mem_singleton, forall_eq] using goneLog_step (hl (is := is) h))
  | dotVV is js =>
    simp only [Make.args, List.mem_append] at h
    refine goneLog_each ?_
    simp only [List.mem_singleton, forall_eq]
    refine goneLog_step fun x hx => ?_
    rcases List.mem_append.mp hx with hx | hx
    · exact hl (fun i hi => h i (.inl hi)) x hx
    · exact hl (fun i hi => h i (.inr hi)) x hx
  | dotVD is ds => exact goneLog_each (by simpa only [List.mem_singleton, forall_eq] using goneLog_step (hl (is := is) h))
  | dotDV ds is => exact goneLog_each (by simpa only [List.mem_singleton, forall_eq] using goneLog_step (hl (is := is) h))
  | matmulVV a b =>
    simp only [Make.args, List.mem_append] at h
    refine goneLog_each fun q hq => goneLog_step fun x hx => ?_
    obtain ⟨h1, h2⟩ := entries_lt hq
    rcases List.mem_append.mp hx with hx | hx
    · obtain ⟨k, hk, rfl⟩ := List.mem_map.mp hx
      exact h _ (.inl (mem_list a h1 (List.mem_range.mp hk)))
    · obtain ⟨k, hk, rfl⟩ := List.mem_map.mp hx
      exact h _ (.inr (mem_list b (by rw [← show a.ncol = b.nrow from hm]; exact List.mem_range.mp hk) h2))
  | matmulVD a b =>
    refine goneLog_each fun q hq => goneLog_step fun x hx => ?_
    obtain ⟨h1, h2⟩ := entries_lt hq
    obtain ⟨k, hk, rfl⟩ := List.mem_map.mp hx
    exact h _ (mem_list a h1 (List.mem_range.mp hk))
  | matmulDV a b =>
    refine goneLog_each fun q hq => goneLog_step fun x hx => ?_
    obtain ⟨h1, h2⟩ := entries_lt hq
    obtain ⟨k, hk, rfl⟩ := List.mem_map.mp hx
    exact h _ (mem_list b (by rw [← show a.ncol = b.nrow from hm]; exact List.mem_range.mp hk) h2)
  | lpdfVV d ys m s =>
    exact goneLog_each (by
      simp only [List.mem_singleton, forall_eq]
      exact goneLog_step (by simpa using ⟨h m (by simp [Make.args]), h s (by simp [Make.args])⟩))
  | lpdfVD d ys m s =>
    exact goneLog_each (by
      simp only [List.mem_singleton, forall_eq]
      exact goneLog_step (by simpa using h m (by simp [Make.args])))
  | lpdfDV d ys m s =>
    exact goneLog_each (by
      simp only [List.mem_singleton, forall_eq]
      exact goneLog_step (by simpa using h s (by simp [Make.args])))
  | partials x is ds => exact goneLog_each (by simpa only [List.mem_singleton, forall_eq] using goneLog_step (hl (is := is) h))
  | user x r is ds => exact goneLog_each (by simpa only [List.mem_singleton, forall_eq] using goneLog_step (hl (is := is) h))

/-! ## steps with constants among their operands -/

theorem receive_none (f : Nat → R) : ∀ src : List (Option Nat), receive f src ([] : List R) = f
  | [] => rfl
  | none :: _ => rfl
  | some _ :: _ => rfl

/-- constants after the other operands -/
theorem logRel_right {v v' : R} {xs xs' cs : List (Num R)} {pass pass' : R → List R} (hv : v' = v)
    (h : List.Forall₂ (NumRel J p0) xs xs') (hg : ∀ x ∈ cs, GoneNum p0 x)
    (hp : ∀ a, pass a = [] ∧ pass' a = [] ∨ ∃ B, pass a = pass' a ++ B ∧ xs.length = (pass' a).length) :
    LogRel J p0 (step v (xs ++ cs) pass) (step v' xs' pass') (NumRel J) := by
  refine logRel_alike hv fun q f f' a hpq hn hd ha => ?_
  obtain ⟨h1, h2⟩ | ⟨B, hB, hl⟩ := hp a
  · rw [h1, h2, receive_none, receive_none]
    exact ha
  rw [hB, List.map_append, receive_append (by rw [List.length_map, hl])]
  refine AdjSame.gones ?_ (AdjSame.receive hn hd ?_ ha)
  · intro r hr
    obtain ⟨x, hx, rfl⟩ := List.mem_map.mp hr
    exact Gone.mono hpq (hg x hx)
  · rw [List.forall₂_map_left_iff, List.forall₂_map_right_iff]
    exact h.imp fun _ _ hr => hr.ref.mono hpq

/-- constants before the other operands -/
theorem logRel_left {v v' : R} {xs xs' cs : List (Num R)} {pass pass' : R → List R} (hv : v' = v)
    (h : List.Forall₂ (NumRel J p0) xs xs') (hg : ∀ x ∈ cs, GoneNum p0 x)
    (hp : ∀ a, pass a = [] ∧ pass' a = [] ∨ ∃ B, pass a = B ++ pass' a ∧ cs.length = B.length) :
    LogRel J p0 (step v (cs ++ xs) pass) (step v' xs' pass') (NumRel J) := by
  refine logRel_alike hv fun q f f' a hpq hn hd ha => ?_
  obtain ⟨h1, h2⟩ | ⟨B, hB, hl⟩ := hp a
  · rw [h1, h2, receive_none, receive_none]
    exact ha
  rw [hB, List.map_append, receive_append (by rw [List.length_map, hl])]
  refine AdjSame.receive hn hd ?_ (AdjSame.gones ?_ ha)
  · rw [List.forall₂_map_left_iff, List.forall₂_map_right_iff]
    exact h.imp fun _ _ hr => hr.ref.mono hpq
  · intro r hr
    obtain ⟨x, hx, rfl⟩ := List.mem_map.mp hr
    exact Gone.mono hpq (hg x hx)

theorem logRel_realVD (hc : Commutes R) (f : Bin) {x x' y : Num R} (hx : NumRel J p0 x x') (hy : GoneNum p0 y)
    (hf : f = .pow → ¬ special y.val) (hb : (Make.binVD f 0 y.val).Regular) :
    LogRel J p0 (f.write x y) (f.writeVD x' y.val) (NumRel J) := by
  have key : f.plainVD x.val y.val = f.plain x.val y.val →
      (∀ v a : R, f.pass x.val y.val v a = [] ∧ f.passVD x.val y.val v a = [] ∨
        ∃ B, f.pass x.val y.val v a = f.passVD x.val y.val v a ++ B ∧ 1 = (f.passVD x.val y.val v a).length) →
      LogRel J p0 (f.write x y)
        (step (f.plainVD x'.val y.val) [x'] fun a => f.passVD x'.val y.val (f.plainVD x'.val y.val) a) (NumRel J) := by
    intro h1 h2
    rw [hx.val]
    refine logRel_right (xs := [x]) (cs := [y]) h1 (.cons hx .nil) (by simpa using hy) ?_
    rw [h1]
    exact h2 _
  cases f <;> simp only [Bin.writeVD]
  case add => exact key (by simp only [Bin.plainVD, Bin.plain]; rw [if_neg (by simp [show feq y.val zero = false from hb])])
                fun v a => .inr ⟨[a], rfl, rfl⟩
  case sub => exact key (by simp only [Bin.plainVD, Bin.plain]; rw [if_neg (by simp [show feq y.val zero = false from hb])])
                fun v a => .inr ⟨[_], rfl, rfl⟩
  case mul => exact key (by simp only [Bin.plainVD, Bin.plain]; rw [if_neg (by simp [show feq y.val Arith.one = false from hb])])
                fun v a => .inr ⟨[_], by simp only [Bin.pass, Bin.passVD]; rw [hc.mul y.val a]; rfl, rfl⟩
  case div => exact key (by simp only [Bin.plainVD, Bin.plain]; rw [if_neg (by simp [show feq y.val Arith.one = false from hb])])
                fun v a => .inr ⟨[_], rfl, rfl⟩
  case hypot => exact key rfl fun v a => .inr ⟨[_], rfl, rfl⟩
  case pow =>
    have h := hf rfl
    simp only [special, not_or] at h
    obtain ⟨h1, h2, h3, h4, h5, h6⟩ := h
    rw [if_neg h1, if_neg h2, if_neg h3, if_neg h5, if_neg h6]
    refine key ?_ fun v a => ?_
    · simp only [Bin.plainVD, Bin.plain]
      rw [if_neg h1, if_neg h2, if_neg h3, if_neg h4, if_neg h5, if_neg h6]
    · simp only [Bin.pass, Bin.passVD]
      split
      · exact .inl ⟨rfl, rfl⟩
      · exact .inr ⟨[_], rfl, rfl⟩

theorem logRel_realDV (hc : Commutes R) (f : Bin) {x y y' : Num R} (hx : GoneNum p0 x) (hy : NumRel J p0 y y')
    (hb : (Make.binDV f x.val 0).Regular) : LogRel J p0 (f.write x y) (f.writeDV x.val y') (NumRel J) := by
  have key : f.plainDV x.val y.val = f.plain x.val y.val →
      (∀ v a : R, f.pass x.val y.val v a = [] ∧ f.passDV x.val y.val v a = [] ∨
        ∃ B, f.pass x.val y.val v a = B ++ f.passDV x.val y.val v a ∧ 1 = B.length) →
      LogRel J p0 (f.write x y) (f.writeDV x.val y') (NumRel J) := by
    intro h1 h2
    unfold Bin.writeDV
    rw [hy.val]
    refine logRel_left (cs := [x]) (xs := [y]) h1 (.cons hy .nil) (by simpa using hx) ?_
    rw [h1]
    exact h2 _
  cases f
  case add => exact key (by simp only [Bin.plainDV, Bin.plain]; rw [if_neg (by simp [show feq x.val zero = false from hb])])
                fun v a => .inr ⟨[a], rfl, rfl⟩
  case sub => exact key rfl fun v a => .inr ⟨[_], rfl, rfl⟩
  case mul => exact key (by simp only [Bin.plainDV, Bin.plain]; rw [if_neg (by simp [show feq x.val Arith.one = false from hb])])
                fun v a => .inr ⟨[_], by simp only [Bin.pass, Bin.passDV]; rw [hc.mul x.val a]; rfl, rfl⟩
  case div => exact key rfl fun v a => .inr ⟨[_], rfl, rfl⟩
  case hypot => exact key rfl fun v a => .inr ⟨[_], rfl, rfl⟩
  case pow =>
    refine key rfl fun v a => ?_
    simp only [Bin.pass, Bin.passDV]
    split
    · exact .inl ⟨rfl, rfl⟩
    · exact .inr ⟨[_], rfl, rfl⟩

theorem logRel_dotVD {v v' : R} {r r' c : List (Num R)} {ds : List R} (hv : v' = v) (hr : List.Forall₂ (NumRel J p0) r r')
    (hc : ∀ x ∈ c, GoneNum p0 x) (hd : c.map Num.val = ds) (hl : r.length = c.length) :
    LogRel J p0 (dotStep v r c) (step v' r' fun a => ds.map fun d => a *. d) (NumRel J) := by
  subst hd
  refine logRel_right hv hr hc fun a => .inr ⟨_, by rw [List.map_map]; rfl, by simpa using hl⟩

theorem logRel_dotDV {v v' : R} {r c c' : List (Num R)} {ds : List R} (hv : v' = v) (hr : ∀ x ∈ r, GoneNum p0 x)
    (hc : List.Forall₂ (NumRel J p0) c c') (hd : r.map Num.val = ds) (hl : r.length = c.length) :
    LogRel J p0 (dotStep v r c) (step v' c' fun a => ds.map fun d => a *. d) (NumRel J) := by
  subst hd
  refine logRel_left hv hc hr fun a => .inr ⟨_, by rw [List.map_map]; rfl, by simpa using hl⟩

/-- the variables of both programs -/
structure KEnv (J : Nat → Prop) (p : List (Option Nat)) (K : Nat → Prop) (σ : Nat → Nat) (env env' : List (Num R)) :
    Prop where
  gone : ∀ i < env.length, K i → GoneNum p (opd env i)
  lt : ∀ i < env.length, ¬ K i → σ i < env'.length
  rel : ∀ i < env.length, ¬ K i → NumRel J p (opd env i) (opd env' (σ i))

theorem KEnv.mono {K : Nat → Prop} {σ : Nat → Nat} {env env' : List (Num R)} (h : KEnv J p K σ env env') (hpq : p <+: q) :
    KEnv J q K σ env env' :=
  ⟨fun i hi hK => (h.gone i hi hK).mono hpq, h.lt, fun i hi hK => (h.rel i hi hK).mono hpq⟩

theorem KEnv.make {K : Nat → Prop} {σ : Nat → Nat} {env env' vs vs' : List (Num R)} (h : KEnv J p K σ env env')
    (hv : List.Forall₂ (NumRel J p) vs vs') :
    KEnv J p (fun i => i < env.length ∧ K i) (after σ env.length env'.length) (env ++ vs) (env' ++ vs') := by
  refine ⟨?_, ?_, ?_⟩
  · rintro i - ⟨h1, h2⟩
    rw [opd_left h1]
    exact h.gone i h1 h2
  · intro i hi hK
    have := hv.length_eq
    simp only [List.length_append] at hi ⊢
    unfold after
    split
    · rename_i h1
      have := h.lt i h1 fun hk => hK ⟨h1, hk⟩
      omega
    · omega
  · intro i hi hK
    simp only [List.length_append] at hi
    unfold after
    split
    · rename_i h1
      have h2 : ¬ K i := fun hk => hK ⟨h1, hk⟩
      rw [opd_left h1, opd_left (h.lt i h1 h2)]
      exact h.rel i h1 h2
    · rename_i h1
      obtain ⟨k, rfl⟩ := Nat.exists_eq_add_of_le (Nat.le_of_not_lt h1)
      rw [opd_right, show env.length + k - env.length + env'.length = env'.length + k by omega, opd_right]
      have hk : k < vs.length := by omega
      have hk' : k < vs'.length := by rw [← hv.length_eq]; exact hk
      have := List.Forall₂.get hv hk hk'
      simpa [opd, List.getD_eq_getElem?_getD, hk, hk'] using this

theorem KEnv.real {K : Nat → Prop} {σ : Nat → Nat} {env env' vs : List (Num R)} (h : KEnv J p K σ env env')
    (hv : ∀ x ∈ vs, GoneNum p x) : KEnv J p (fun i => env.length ≤ i ∨ K i) σ (env ++ vs) env' := by
  refine ⟨?_, ?_, ?_⟩
  · intro i hi hK
    by_cases h1 : i < env.length
    · rw [opd_left h1]
      exact h.gone i h1 (hK.resolve_left (by omega))
    · obtain ⟨k, rfl⟩ := Nat.exists_eq_add_of_le (Nat.le_of_not_lt h1)
      simp only [List.length_append] at hi
      rw [opd_right]
      have hk : k < vs.length := by omega
      simpa [opd, List.getD_eq_getElem?_getD, hk] using hv _ (List.getElem_mem hk)
  · intro i hi hK
    exact h.lt i (by by_contra hn; exact hK (.inl (by omega))) fun hk => hK (.inr hk)
  · intro i hi hK
    have h1 : i < env.length := by by_contra hn; exact hK (.inl (by omega))
    rw [opd_left h1]
    exact h.rel i h1 fun hk => hK (.inr hk)

/-- a call with reals in place of the constants writes down steps that do the same -/
theorem logRel_mixed (hc : Commutes R) {ys : List R} {K : Nat → Prop} {σ : Nat → Nat} {m m' : Make R}
    (h : Mixed ys K σ m m') {env env' : List (Num R)} (e : env.map Num.val = ys) (hr : KEnv J p0 K σ env env')
    (ha : ∀ i ∈ m.args, i < env.length) (hm : m.Meets false ys) (hb : m'.Regular) :
    LogRel J p0 (m.write env) (m'.write env') fun q a b => List.Forall₂ (NumRel J q) a b := by
  have ev : ∀ i, (opd env i).val = num ys i := fun i => by rw [opd_val, e]
  have hl : ∀ {is : List Nat}, (∀ i ∈ is, i < env.length) → (∀ i ∈ is, ¬ K i) →
      List.Forall₂ (NumRel J p0) (is.map (opd env)) ((is.map σ).map (opd env')) := by
    intro is h1 h2
    rw [List.map_map, List.forall₂_map_left_iff, List.forall₂_map_right_iff]
    exact forall₂_same fun i hi => hr.rel i (h1 i hi) (h2 i hi)
  have hg : ∀ {is : List Nat}, (∀ i ∈ is, i < env.length) → (∀ i ∈ is, K i) → ∀ x ∈ is.map (opd env), GoneNum p0 x := by
    intro is h1 h2 x hx
    obtain ⟨i, hi, rfl⟩ := List.mem_map.mp hx
    exact hr.gone i (h1 i hi) (h2 i hi)
  have hv : ∀ is : List Nat, (is.map (opd env)).map Num.val = is.map (num ys) := by
    intro is
    rw [List.map_map]
    exact List.map_congr_left fun i _ => ev i
  cases h with
  | @binVD f i j hi hj hf =>
    refine logRel_one ?_
    rw [← ev j] at hf hb ⊢
    refine logRel_realVD hc f (hr.rel i (ha i (by simp [Make.args])) hi) (hr.gone j (ha j (by simp [Make.args])) hj) hf ?_
    cases f <;> exact hb
  | @binDV f i j hi hj =>
    refine logRel_one ?_
    rw [← ev i] at hb ⊢
    refine logRel_realDV hc f (hr.gone i (ha i (by simp [Make.args])) hi) (hr.rel j (ha j (by simp [Make.args])) hj) ?_
    cases f <;> exact hb
  | @dotVD is js hi hj =>
    simp only [Make.args, List.mem_append] at ha
    have h1 := hl (fun i h => ha i (.inl h)) hi
    refine logRel_one (logRel_dotVD ?_ h1 (hg (fun i h => ha i (.inr h)) hj) (hv js) (by simpa using show is.length = js.length from hm))
    simp only [vals_same h1, hv]
  | @dotDV is js hi hj =>
    simp only [Make.args, List.mem_append] at ha
    have h1 := hl (fun i h => ha i (.inr h)) hj
    refine logRel_one (logRel_dotDV ?_ (hg (fun i h => ha i (.inl h)) hi) h1 (hv is) (by simpa using show is.length = js.length from hm))
    simp only [vals_same h1, hv]
  | @matmulVD a b hi hj =>
    simp only [Make.args, List.mem_append] at ha
    refine logRel_each (forall₂_same fun q hq => ?_)
    obtain ⟨h1, h2⟩ := entries_lt hq
    have hab : a.ncol = b.nrow := hm
    have e1 : List.Forall₂ (NumRel J p0) ((List.range a.ncol).map fun k => opd env (a.get q.1 k))
        ((List.range a.ncol).map fun k => opd env' (σ (a.get q.1 k))) := by
      rw [List.forall₂_map_left_iff, List.forall₂_map_right_iff]
      exact forall₂_same fun k hk =>
        have := mem_list a h1 (List.mem_range.mp hk)
        hr.rel _ (ha _ (.inl this)) (hi _ this)
    have e2 : ∀ x ∈ (List.range a.ncol).map fun k => opd env (b.get k q.2), GoneNum p0 x := by
      intro x hx
      obtain ⟨k, hk, rfl⟩ := List.mem_map.mp hx
      have := mem_list b (i := k) (j := q.2) (by rw [← hab]; exact List.mem_range.mp hk) h2
      exact hr.gone _ (ha _ (.inr this)) (hj _ this)
    have v1 := vals_same e1
    simp only [List.map_map, Function.comp_def] at v1
    have := logRel_dotVD (v := mulEntry a.ncol (fun i k => (opd env (a.get i k)).val) (fun k j => (opd env (b.get k j)).val) q.1 q.2)
      (v' := mulEntry a.ncol (fun i k => (opd env' (σ (a.get i k))).val) (fun k j => num ys (b.get k j)) q.1 q.2)
      (ds := (List.range a.ncol).map fun k => num ys (b.get k q.2)) (by simp only [mulEntry, v1, ev]) e1 e2
      (by simp only [List.map_map, Function.comp_def, ev]) (by simp)
    simpa only [Matrix'.rename, List.map_map, Function.comp_def] using this
  | @matmulDV a b hi hj =>
    simp only [Make.args, List.mem_append] at ha
    refine logRel_each (forall₂_same fun q hq => ?_)
    obtain ⟨h1, h2⟩ := entries_lt hq
    have hab : a.ncol = b.nrow := hm
    have e1 : ∀ x ∈ (List.range a.ncol).map fun k => opd env (a.get q.1 k), GoneNum p0 x := by
      intro x hx
      obtain ⟨k, hk, rfl⟩ := List.mem_map.mp hx
      have := mem_list a h1 (List.mem_range.mp hk)
      exact hr.gone _ (ha _ (.inl this)) (hi _ this)
    have e2 : List.Forall₂ (NumRel J p0) ((List.range a.ncol).map fun k => opd env (b.get k q.2))
        ((List.range a.ncol).map fun k => opd env' (σ (b.get k q.2))) := by
      rw [List.forall₂_map_left_iff, List.forall₂_map_right_iff]
      exact forall₂_same fun k hk =>
        have := mem_list b (i := k) (j := q.2) (by rw [← hab]; exact List.mem_range.mp hk) h2
        hr.rel _ (ha _ (.inr this)) (hj _ this)
    have v2 := vals_same e2
    simp only [List.map_map, Function.comp_def] at v2
    have := logRel_dotDV (v := mulEntry a.ncol (fun i k => (opd env (a.get i k)).val) (fun k j => (opd env (b.get k j)).val) q.1 q.2)
      (v' := mulEntry a.ncol (fun i k => num ys (a.get i k)) (fun k j => (opd env' (σ (b.get k j))).val) q.1 q.2)
      (ds := (List.range a.ncol).map fun k => num ys (a.get q.1 k)) (by simp only [mulEntry, v2, ev]) e1 e2
      (by simp only [List.map_map, Function.comp_def, ev]) (by simp)
    simpa only [Matrix'.rename, List.map_map, Function.comp_def] using this
  | @lpdfVD d xs i j hi hj =>
    refine logRel_one ?_
    have h1 := hr.rel i (ha i (by simp [Make.args])) hi
    simp only [ev j, h1.val]
    exact logRel_right (xs := [_]) (cs := [_]) rfl (.cons h1 .nil)
      (by simpa using hr.gone j (ha j (by simp [Make.args])) hj) fun a => .inr ⟨[_], rfl, rfl⟩
  | @lpdfDV d xs i j hi hj =>
    refine logRel_one ?_
    have h1 := hr.rel j (ha j (by simp [Make.args])) hj
    simp only [ev i, h1.val]
    exact logRel_left (xs := [_]) (cs := [_]) rfl (.cons h1 .nil)
      (by simpa using hr.gone i (ha i (by simp [Make.args])) hi) fun a => .inr ⟨[_], rfl, rfl⟩

/-! ## programs -/

theorem literal_writes (hc : Commutes R) {ys ys' : List R} {K : Nat → Prop} {σ : Nat → Nat} {f f' : Code R}
    (hu : Literal ys ys' K σ f f') :
    ∀ {env env' : List (Num R)} {p : List (Option Nat)} {T T' : List (Step R)}, env.map Num.val = ys →
      env'.map Num.val = ys' → KEnv J p K σ env env' → Ins J p T T' → f.Meets false ys → f.Plain → f'.Regular →
      ∃ q, p <+: q ∧ Ins J q (f.write env T).2 (f'.write env' T').2 ∧
        List.Forall₂ (NumRel J q) (f.write env T).1 (f'.write env' T').1 := by
  induction hu with
  | @ret ys ys' K σ is h =>
    intro env env' p T T' e e' hr hi hm _ _
    refine ⟨p, List.prefix_refl p, hi, ?_⟩
    simp only [Code.write, Log.ret]
    rw [List.map_map, List.forall₂_map_left_iff, List.forall₂_map_right_iff]
    refine forall₂_same fun i hi => hr.rel i ?_ (h i hi)
    have := hm i hi
    rwa [← e, List.length_map] at this
  | @make ys ys' K σ m k k' h _ ih =>
    intro env env' p T T' e e' hr hi hm hp hb
    obtain ⟨q, hpq, hi1, hv⟩ := logRel_make (σ := σ) (env' := env') m (fun i h1 => hr.rel i (by
      have := hm.1 i h1
      rwa [← e, List.length_map] at this) (h i h1)) hm.2.1 p T T' (List.prefix_refl p) hi
    have ev := write_val m hp.1 env T
    rw [e] at ev
    have er := (hr.mono hpq).make hv
    rw [← List.length_map (f := Num.val) (as := env), e, ← List.length_map (f := Num.val) (as := env'), e'] at er
    obtain ⟨q', hqq, hi2, hv2⟩ := ih (env := env ++ (m.write env T).1) (env' := env' ++ ((m.rename σ).write env' T').1)
      (by rw [List.map_append, e, ev]) (by rw [List.map_append, e', vals_same hv, ev]) er hi1 hm.2.2 hp.2 hb.2
    exact ⟨q', hpq.trans hqq, hi2, hv2⟩
  | @mixed ys ys' K σ m m' k k' h _ ih =>
    intro env env' p T T' e e' hr hi hm hp hb
    obtain ⟨q, hpq, hi1, hv⟩ := logRel_mixed hc h e hr (fun i h1 => by
      have := hm.1 i h1
      rwa [← e, List.length_map] at this) hm.2.1 hb.1 p T T' (List.prefix_refl p) hi
    have ev := write_val m hp.1 env T
    rw [e] at ev
    have er := (hr.mono hpq).make hv
    rw [← List.length_map (f := Num.val) (as := env), e, ← List.length_map (f := Num.val) (as := env'), e'] at er
    obtain ⟨q', hqq, hi2, hv2⟩ := ih (env := env ++ (m.write env T).1) (env' := env' ++ (m'.write env' T').1)
      (by rw [List.map_append, e, ev]) (by rw [List.map_append, e', vals_same hv, ev]) er hi1 hm.2.2 hp.2 hb.2
    exact ⟨q', hpq.trans hqq, hi2, hv2⟩
  | @real ys ys' K σ m k k' h _ ih =>
    intro env env' p T T' e e' hr hi hm hp hb
    obtain ⟨q, hpq, hi1, hv⟩ := goneLog_make m (fun i h1 => hr.gone i (by
      have := hm.1 i h1
      rwa [← e, List.length_map] at this) (h i h1)) hm.2.1 p T T' (List.prefix_refl p) hi
    have ev := write_val m hp.1 env T
    rw [e] at ev
    have er := (hr.mono hpq).real hv
    rw [← List.length_map (f := Num.val) (as := env), e] at er
    obtain ⟨q', hqq, hi2, hv2⟩ := ih (env := env ++ (m.write env T).1) (env' := env')
      (by rw [List.map_append, e, ev]) e' er hi1 hm.2.2 hp.2 hb
    exact ⟨q', hpq.trans hqq, hi2, hv2⟩
  | @look ys ys' K σ i k k' h _ ih =>
    intro env env' p T T' e e' hr hi hm hp hb
    have h1 : i < env.length := by
      have := hm.1
      rwa [← e, List.length_map] at this
    have v1 : (opd env i).val = num ys i := by rw [opd_val, e]
    have v2 : (opd env' (σ i)).val = num ys i := by rw [(hr.rel i h1 h).val, v1]
    simp only [Code.write, v1, v2]
    exact ih e e' hr hi hm.2 (hp _) (hb _)
  | @known ys ys' K σ i k k' h _ ih =>
    intro env env' p T T' e e' hr hi hm hp hb
    have v1 : (opd env i).val = num ys i := by rw [opd_val, e]
    simp only [Code.write, v1]
    exact ih e e' hr hi hm.2 (hp _) hb

theorem literal_steps (hc : Commutes R) {ys ys' x x' : List R} {K : Nat → Prop} {σ : Nat → Nat} {f f' : Code R}
    (hs : Placed K σ (x ++ ys) (x' ++ ys')) (hu : Literal (x ++ ys) (x' ++ ys') K σ f f') (hm : f.Meets false (x ++ ys))
    (hp : f.Plain) (hb : f'.Regular) :
    ∃ (J : Nat → Prop) (q : List (Option Nat)), Ins J q (f.steps ys x []).2 (f'.steps ys' x' []).2 ∧
      (∀ k < x.length, ¬ K k → σ k < x'.length → q[k]? = some (some (σ k))) ∧
      List.Forall₂ (NumRel J q) (f.steps ys x []).1 (f'.steps ys' x' []).1 := by
  obtain ⟨J, p, hi, hp0, hr⟩ := start_ins hs.lt hs.num hs.inj
  obtain ⟨q, hpq, h1, h2⟩ := literal_writes hc hu (begun_vals x ys) (begun_vals x' ys')
    ⟨fun i h => (hr i h).1, fun i h hK => ((hr i h).2 hK).1, fun i h hK => ((hr i h).2 hK).2⟩ hi hm hp hb
  exact ⟨J, q, h1, fun k hk hK hk' => Fz.prefix_get hpq (hp0 k hk hK hk'), h2⟩

theorem literal_gradient (hc : Commutes R) {ys ys' x x' : List R} {K : Nat → Prop} {σ : Nat → Nat} {f f' : Code R}
    (hs : Placed K σ (x ++ ys) (x' ++ ys')) (hu : Literal (x ++ ys) (x' ++ ys') K σ f f') (hm : f.Meets false (x ++ ys))
    (hp : f.Plain) (hb : f'.Regular) {y y' : R} {df df' : List R} (h : f.bookGradient ys x = some (y, df))
    (h' : f'.bookGradient ys' x' = some (y', df')) :
    y' = y ∧ ∀ i < x.length, ¬ K i → σ i < x'.length → df'[σ i]? = df[i]? := by
  obtain ⟨J, q, h1, h2, h3⟩ := literal_steps hc hs hu hm hp hb
  unfold Code.bookGradient at h h'
  cases e : (f.steps ys x [] : List (Num R) × List (Step R)) with
  | mk os T =>
    cases e' : (f'.steps ys' x' [] : List (Num R) × List (Step R)) with
    | mk os' T' =>
      rw [e] at h h1 h3
      rw [e'] at h' h1 h3
      cases h3 with
      | nil => cases h
      | cons h4 _ =>
        cases h
        cases h'
        exact ⟨h4.val, fun i hi hK hi' => by rw [row_at hi, row_at hi', entry_same h1 h4 (h2 i hi hK hi')]⟩

theorem literal_jacobian (hc : Commutes R) {ys ys' x x' : List R} {K : Nat → Prop} {σ : Nat → Nat} {f f' : Code R}
    (hs : Placed K σ (x ++ ys) (x' ++ ys')) (hu : Literal (x ++ ys) (x' ++ ys') K σ f f') (hm : f.Meets false (x ++ ys))
    (hp : f.Plain) (hb : f'.Regular) {fx fx' : List R} {D D' : List (List R)} (h : f.bookJacobian ys x = (fx, D))
    (h' : f'.bookJacobian ys' x' = (fx', D')) :
    fx' = fx ∧ List.Forall₂ (fun r r' => ∀ i < x.length, ¬ K i → σ i < x'.length → r'[σ i]? = r[i]?) D D' := by
  obtain ⟨J, q, h1, h2, h3⟩ := literal_steps hc hs hu hm hp hb
  unfold Code.bookJacobian at h h'
  cases e : (f.steps ys x [] : List (Num R) × List (Step R)) with
  | mk os T =>
    cases e' : (f'.steps ys' x' [] : List (Num R) × List (Step R)) with
    | mk os' T' =>
      rw [e] at h h1 h3
      rw [e'] at h' h1 h3
      cases h
      cases h'
      refine ⟨vals_same h3, ?_⟩
      rw [List.forall₂_map_left_iff, List.forall₂_map_right_iff]
      exact h3.imp fun o o' h4 i hi hK hi' => by rw [row_at hi, row_at hi', entry_same h1 h4 (h2 i hi hK hi')]

end Spec
