import Verif.Proof.Lenient
import Verif.Spec.Lenient

/-!
# A run with chain procedures left behind, and its twin without

`Akin T s t`: the states differ only in chain procedures of table slots where `t` has the procedure `mark`, which
fits no record with operands, and `s` one that leaves a record without operands alone.  Calls that create variables
do the same in both.
-/

set_option linter.unusedSectionVars false

namespace Fz
variable {W R : Type} [Arith R] [Rep W R]
open Arith Spec

/-- a chain procedure that fits no record with operands -/
def mark : Chain := .user (.fixed 0 0 [])

theorem mark_tame : mark.Tame := rfl

/-- the states differ only in the chain procedures of marked slots; the slots in `T` have no chain procedure of a
matrix product -/
structure Akin (T : Nat → Prop) (s t : St W) : Prop where
  vhead : s.vhead = t.vhead
  nVaris : s.nVaris = t.nVaris
  tape : s.tape = t.tape
  nestTape : s.nestTape = t.nestTape
  nestVari : s.nestVari = t.nestVari
  level : s.level = t.level
  idx : ∀ k, (s.varis k).i = (t.varis k).i
  slot : ∀ k, (s.varis k).chain = (t.varis k).chain ∨ ((t.varis k).chain = mark ∧ (s.varis k).chain.Tame)
  tame : ∀ k, T k → (s.varis k).chain.Tame

theorem Akin.same {T : Nat → Prop} {s : St W} (h : ∀ k, T k → (s.varis k).chain.Tame) : Akin T s s :=
  ⟨.refl _, .refl _, .refl _, .refl _, .refl _, .refl _, fun _ => .refl _, fun _ => Or.inl (.refl _), h⟩

theorem Akin.weaken {T T' : Nat → Prop} {s t : St W} (h : Akin T s t) (hT : ∀ k, T' k → T k) : Akin T' s t :=
  ⟨h.vhead, h.nVaris, h.tape, h.nestTape, h.nestVari, h.level, h.idx, h.slot, fun k hk => h.tame k (hT k hk)⟩

theorem Akin.tame' {T : Nat → Prop} {s t : St W} (h : Akin T s t) {k : Nat} (hk : T k) : (t.varis k).chain.Tame := by
  rcases h.slot k with e | ⟨e, -⟩
  · rw [← e]; exact h.tame k hk
  · rw [e]; exact mark_tame

/-- if `m` does not fail, `m'` returns the same and has the same effect -/
def Mirrors (T : Nat → Prop) {α : Type} (m' m : M W α) : Prop :=
  ∀ s t a t', Akin T s t → m t = .ok (a, t') → ∃ s', m' s = .ok (a, s') ∧ Akin T s' t'

/-- the same for one program -/
abbrev Blind (T : Nat → Prop) {α : Type} (m : M W α) : Prop := Mirrors T m m

section rules
variable {T : Nat → Prop} {α β : Type}

theorem Mirrors.pure (a : α) : Mirrors T (Pure.pure a : M W α) (Pure.pure a) := by
  intro s t b t' h e
  cases e
  exact ⟨s, rfl, h⟩

theorem Mirrors.bind {m' m : M W α} {k' k : α → M W β} (h : Mirrors T m' m) (hk : ∀ a, Mirrors T (k' a) (k a)) :
    Mirrors T (m' >>= k') (m >>= k) := by
  intro s t b t' ha e
  obtain ⟨a, t1, e1, e2⟩ := bind_inv e
  obtain ⟨s1, e1', h1⟩ := h _ _ _ _ ha e1
  obtain ⟨s2, e2', h2⟩ := hk a _ _ _ _ h1 e2
  exact ⟨s2, by rw [bind_ok e1', e2'], h2⟩

theorem Mirrors.ite {c : Prop} [Decidable c] {m1' m1 m2' m2 : M W α} (h1 : Mirrors T m1' m1) (h2 : Mirrors T m2' m2) :
    Mirrors T (if c then m1' else m2') (if c then m1 else m2) := by
  split
  · exact h1
  · exact h2

theorem blind_fail (e : Err) : Blind T (fail e : M W α) := by
  intro s t a t' _ h
  cases h

theorem blind_readTape (f : Tape W → Except Err α) : Blind T (readTape f) := by
  intro s t a t' h e
  unfold readTape at e ⊢
  rw [h.tape]
  split at e
  · rename_i e1
    cases e
    exact ⟨s, rfl, h⟩
  · cases e

theorem Akin.setTape {s t : St W} (h : Akin T s t) (p : Tape W) : Akin T { s with tape := p } { t with tape := p } :=
  ⟨h.vhead, h.nVaris, rfl, h.nestTape, h.nestVari, h.level, h.idx, h.slot, h.tame⟩

theorem blind_modTape (f : Tape W → Except Err (Tape W)) : Blind T (modTape f) := by
  intro s t a t' h e
  unfold modTape at e ⊢
  rw [h.tape]
  split at e
  · rename_i e1
    cases e
    exact ⟨_, rfl, h.setTape _⟩
  · cases e

theorem blind_pushTape (f : Tape W → Except Err (Nat × Tape W)) : Blind T (pushTape f) := by
  intro s t a t' h e
  unfold pushTape at e ⊢
  rw [h.tape]
  split at e
  · rename_i e1
    cases e
    exact ⟨_, rfl, h.setTape _⟩
  · cases e

/-- a use of a table entry that does not depend on its chain procedure -/
theorem blind_getVari (k : Nat) {f' f : Vari → M W β} (hf : ∀ i c c', Mirrors T (f' ⟨i, c⟩) (f ⟨i, c'⟩)) :
    Mirrors T (getVari k >>= f') (getVari k >>= f) := by
  intro s t b t' h e
  obtain ⟨v, t1, e1, e2⟩ := bind_inv e
  unfold getVari at e1
  split at e1
  · rename_i hk
    cases e1
    have hi := h.idx k
    have e1' : (getVari k : M W Vari) s = .ok (s.varis k, s) := by
      unfold getVari
      rw [if_pos (by rw [h.nVaris]; exact hk)]
    rw [bind_ok e1']
    have := hf (t.varis k).i (s.varis k).chain (t.varis k).chain s t b t' h e2
    rw [← hi] at this
    exact this
  · cases e1

theorem blind_mapM {γ : Type} {f : γ → M W α} (hf : ∀ a, Blind T (f a)) : ∀ l : List γ, Blind T (l.mapM f)
  | [] => Mirrors.pure _
  | a :: l => by
    show Mirrors T _ _
    rw [List.mapM_cons]
    exact .bind (hf a) fun _ => .bind (blind_mapM hf l) fun _ => .pure _

theorem blind_variIndex (k : Nat) : Blind T (variIndex k : M W Nat) := blind_getVari k fun _ _ _ => .pure _

theorem blind_val (v : Var) : Blind T (v.val : M W R) := blind_getVari _ fun _ _ _ => blind_readTape _
theorem blind_adj (v : Var) : Blind T (v.adj : M W R) := blind_getVari _ fun _ _ _ => blind_readTape _
theorem blind_vals (vs : List Var) : Blind T (vals vs : M W (List R)) := blind_mapM blind_val vs
theorem blind_adjs (vs : List Var) : Blind T (adjs vs : M W (List R)) := blind_mapM blind_adj vs
theorem blind_viIndex (v : Var) : Blind T (v.viIndex : M W Nat) := blind_variIndex _
theorem blind_assign (v : Var) (d : R) : Blind T (v.assign d : M W Unit) :=
  blind_getVari _ fun _ _ _ => blind_modTape _

theorem allocLoop_akin (n : Nat) : ∀ (j : Nat) {s t t' : St W}, n + t.vhead - t.nVaris = j → Akin T s t →
    allocVarisLoop t n = .ok t' → ∃ s', allocVarisLoop s n = .ok s' ∧ Akin T s' t' := by
  intro j
  induction j using Nat.strong_induction_on with
  | _ j ih =>
    intro s t t' hj h e
    rw [allocVarisLoop] at e ⊢
    rw [h.nVaris, h.vhead]
    split at e
    · rename_i h1
      rw [if_pos h1]
      split at e
      · cases e
      · rename_i h2
        rw [dif_neg h2]
        split at e
        · rename_i h3
          rw [if_pos h3]
          refine ih (n + t.vhead - 2 * t.nVaris) (by omega) (t := { t with
            nVaris := 2 * t.nVaris
            varis := fun k => if k ≤ t.nVaris then t.varis k else {} }) rfl ?_ e
          refine ⟨rfl, rfl, h.tape, h.nestTape, h.nestVari, h.level, fun k => ?_, fun k => ?_, fun k hk => ?_⟩
          · dsimp only
            split
            · exact h.idx k
            · rfl
          · dsimp only
            split
            · exact h.slot k
            · exact Or.inl rfl
          · dsimp only
            split
            · exact h.tame k hk
            · trivial
        · cases e
    · rename_i h1
      rw [if_neg h1]
      cases e
      exact ⟨s, rfl, h⟩

theorem blind_allocVaris (n : Nat) : Blind T (allocVaris n : M W Unit) := by
  intro s t a t' h e
  unfold allocVaris at e ⊢
  rw [h.nVaris]
  by_cases h0 : t.nVaris = 0
  · rw [if_pos h0] at e ⊢
    split at e
    · rename_i t1 e1
      cases e
      obtain ⟨s', e2, h2⟩ := allocLoop_akin (s := { s with nVaris := initVariStackSize, varis := fun _ => {} })
        (t := { t with nVaris := initVariStackSize, varis := fun _ => {} }) n _ rfl
        ⟨h.vhead, rfl, h.tape, h.nestTape, h.nestVari, h.level, fun k => rfl, fun k => Or.inl rfl, fun _ _ => trivial⟩ e1
      rw [e2]
      exact ⟨s', rfl, h2⟩
    · cases e
  · rw [if_neg h0] at e ⊢
    split at e
    · rename_i t1 e1
      cases e
      obtain ⟨s', e2, h2⟩ := allocLoop_akin n _ rfl h e1
      rw [e2]
      exact ⟨s', rfl, h2⟩
    · cases e

/-- writing a slot -/
theorem Akin.setSlot {s t : St W} (h : Akin T s t) (k i : Nat) (c c' : Chain)
    (hc : c = c' ∨ (c' = mark ∧ c.Tame)) (ht : T k → c.Tame) :
    Akin T { s with varis := fun m => if m = k then ⟨i, c⟩ else s.varis m }
      { t with varis := fun m => if m = k then ⟨i, c'⟩ else t.varis m } := by
  refine ⟨h.vhead, h.nVaris, h.tape, h.nestTape, h.nestVari, h.level, fun j => ?_, fun j => ?_, fun j hj => ?_⟩
  · dsimp only
    split
    · rfl
    · exact h.idx j
  · dsimp only
    split
    · exact hc
    · exact h.slot j
  · dsimp only
    split
    · rename_i hjk; exact ht (hjk ▸ hj)
    · exact h.tame j hj

theorem setVari_ok {k : Nat} {v : Vari} {s : St W} (hk : 1 ≤ k ∧ k ≤ s.nVaris) :
    (setVari k v : M W Unit) s = .ok ((), { s with varis := fun m => if m = k then v else s.varis m }) := by
  unfold setVari
  rw [if_pos hk]

theorem blind_setIndexedChain (k : Nat) {c : Chain} (hc : T k → c.Tame) : Blind T (setIndexedChain k c : M W Unit) := by
  intro s t a t' h e
  unfold setIndexedChain at e ⊢
  obtain ⟨v, t1, e1, e2⟩ := bind_inv e
  unfold getVari at e1
  split at e1
  · rename_i hk
    cases e1
    have hk' : 1 ≤ k ∧ k ≤ s.nVaris := by rw [h.nVaris]; exact hk
    have e1' : (getVari k : M W Vari) s = .ok (s.varis k, s) := by
      unfold getVari
      rw [if_pos hk']
    rw [bind_ok e1', setVari_ok hk']
    rw [setVari_ok hk] at e2
    cases e2
    refine ⟨_, rfl, ?_⟩
    rw [← h.idx k]
    exact h.setSlot k _ c c (Or.inl rfl) hc
  · cases e1

theorem blind_setChain (v : Var) {c : Chain} (hc : c.Tame) : Blind T (v.setChain c : M W Unit) :=
  blind_setIndexedChain _ fun _ => hc

theorem blind_newVariWith (f : Tape W → Except Err (Nat × Tape W)) : Blind T (newVariWith f) := by
  unfold newVariWith
  refine .bind (blind_allocVaris 1) fun _ => .bind (blind_pushTape f) fun id => ?_
  intro s t a t' h e
  rw [bind_ok (a := t) (s' := t) rfl] at e
  rw [bind_ok (a := s) (s' := s) rfl]
  obtain ⟨v, t1, e1, e2⟩ := bind_inv e
  unfold getVari at e1
  split at e1
  · rename_i hk
    cases e1
    have hk' : 1 ≤ s.vhead ∧ s.vhead ≤ s.nVaris := by rw [h.nVaris, h.vhead]; exact hk
    have e1' : (getVari s.vhead : M W Vari) s = .ok (s.varis s.vhead, s) := by
      unfold getVari
      rw [if_pos hk']
    rw [bind_ok e1', bind_ok (setVari_ok hk')]
    rw [bind_ok (setVari_ok hk)] at e2
    obtain ⟨u, t2, e3, e4⟩ := bind_inv e2
    cases e3
    cases e4
    refine ⟨{ s with
      vhead := s.vhead + 1
      varis := fun m => if m = s.vhead then ⟨id, (s.varis s.vhead).chain⟩ else s.varis m }, ?_, ?_⟩
    · rw [← h.vhead]
      rfl
    · rw [h.vhead]
      have := h.setSlot t.vhead id (s.varis t.vhead).chain (t.varis t.vhead).chain (h.slot _) (fun hT => h.tame _ hT)
      dsimp only
      exact ⟨by dsimp only, this.nVaris, this.tape, this.nestTape, this.nestVari, this.level, this.idx,
        this.slot, this.tame⟩
  · cases e1

theorem blind_newVar (d : R) : Blind T (newVar d : M W Var) := .bind (blind_newVariWith _) fun _ => .pure _
theorem blind_newVar0 : Blind T (newVar0 (R := R) : M W Var) := .bind (blind_newVariWith _) fun _ => .pure _
theorem blind_newVars (ds : List R) : Blind T (newVars ds : M W (List Var)) := blind_mapM blind_newVar ds
theorem blind_newVar1d : ∀ n, Blind T (newVar1d (R := R) n : M W (List Var))
  | 0 => .pure _
  | n + 1 => .bind blind_newVar0 fun _ => .bind (blind_newVar1d n) fun _ => .pure _
theorem blind_newVarOp (d : R) (vs : List Var) : Blind T (newVarOp d vs : M W Var) :=
  .bind (blind_mapM blind_viIndex vs) fun _ => .bind (blind_newVariWith _) fun _ => .pure _
theorem blind_newVarOpDop (d : R) (vs : List Var) (ds : List R) : Blind T (newVarOpDop d vs ds : M W Var) :=
  .bind (blind_mapM blind_viIndex vs) fun _ => .bind (blind_newVariWith _) fun _ => .pure _
theorem blind_newVarOpId (d : R) (l : List Nat) : Blind T (newVarOpId d l : M W Var) :=
  .bind (blind_newVariWith _) fun _ => .pure _

/-! ## the calls -/

theorem blind_chained {m : M W Var} (hm : Blind T m) {c : Chain} (hc : c.Tame) :
    Blind T (do let w ← m; w.setChain c; pure w) :=
  .bind hm fun w => .bind (blind_setChain w hc) fun _ => .pure _

theorem blind_unary (f : R → R) {c : Chain} (hc : c.Tame) (v : Var) : Blind T (unary f c v : M W Var) :=
  .bind (blind_val v) fun _ => blind_chained (blind_newVarOp _ _) hc
theorem blind_binary (f : R → R → R) {c : Chain} (hc : c.Tame) (v w : Var) : Blind T (binary f c v w : M W Var) :=
  .bind (blind_val v) fun _ => .bind (blind_val w) fun _ => blind_chained (blind_newVarOp _ _) hc
theorem blind_unaryData (f : R → R) (d : R) {c : Chain} (hc : c.Tame) (v : Var) :
    Blind T (unaryData f d c v : M W Var) :=
  .bind (blind_val v) fun _ => blind_chained (blind_newVarOpDop _ _ _) hc
theorem blind_reduceV (f : List R → R) {c : Chain} (hc : c.Tame) (vs : List Var) : Blind T (reduceV f c vs : M W Var) :=
  .bind (blind_vals vs) fun _ => blind_chained (blind_newVarOp _ _) hc
theorem blind_again (v : Var) {c : Chain} (hc : c.Tame) : Blind T (do v.setChain c; pure v : M W Var) :=
  .bind (blind_setChain v hc) fun _ => .pure _
theorem blind_relVD (o : RelOp) (v : Var) (d : R) : Blind T (relVD o v d : M W Bool) :=
  .bind (blind_val v) fun _ => .pure _
theorem blind_isNanV (v : Var) : Blind T (isNanV (R := R) v : M W Bool) := .bind (blind_val v) fun _ => .pure _

theorem blind_absV (v : Var) : Blind T (absV (R := R) v : M W Var) :=
  .bind (blind_val v) fun _ => .ite (.pure _) (.ite (blind_unary _ (by trivial) v) (.ite blind_newVar0
    (blind_chained (blind_newVarOp _ _) (by trivial))))

theorem blind_fn (f : Fn) (v : Var) : Blind T (f.api v : M W Var) := by
  cases f
  case pos => exact .pure _
  case abs => exact blind_absV v
  case acosh =>
    exact .bind (blind_isNanV v) fun _ => .ite (.pure _) (.bind (blind_relVD _ _ _) fun _ =>
      .ite (blind_fail _) (blind_unary _ (by trivial) v))
  case atanh =>
    exact .bind (blind_isNanV v) fun _ => .ite (.pure _) (.bind (blind_relVD _ _ _) fun _ =>
      .bind (blind_relVD _ _ _) fun _ => .ite (blind_fail _) (blind_unary _ (by trivial) v))
  all_goals exact blind_unary _ (by trivial) v

theorem blind_binVV (f : Bin) (v w : Var) : Blind T (f.callVV v w : M W Var) := by
  cases f <;> exact blind_binary _ (by trivial) v w

theorem blind_binVD (f : Bin) (v : Var) (d : R) : Blind T (f.callVD v d : M W Var) := by
  cases f
  case add => exact .ite (blind_unary _ (by trivial) v) (blind_again v (by trivial))
  case sub => exact .ite (blind_unary _ (by trivial) v) (blind_again v (by trivial))
  case mul => exact .ite (blind_unaryData _ _ (by trivial) v) (blind_again v (by trivial))
  case div => exact .ite (blind_unaryData _ _ (by trivial) v) (blind_again v (by trivial))
  case pow =>
    exact .ite (blind_unary _ (by trivial) v) (.ite (.pure _) (.ite (blind_unary _ (by trivial) v) (.ite (blind_unary _ (by trivial) v)
      (.ite (blind_unary _ (by trivial) v) (.ite (blind_unary _ (by trivial) v) (blind_unaryData _ _ (by trivial) v))))))
  case hypot =>
    show Blind T (hypotVD v d : M W Var)
    unfold hypotVD
    split
    · exact .bind (blind_val v) fun _ => blind_chained (blind_newVarOp _ _) (by trivial)
    · exact blind_chained (blind_absV (R := R) v) (by trivial)

theorem blind_binDV (f : Bin) (d : R) (v : Var) : Blind T (f.callDV d v : M W Var) := by
  cases f
  case add => exact .ite (blind_unary _ (by trivial) v) (blind_again v (by trivial))
  case sub => exact blind_unary _ (by trivial) v
  case mul => exact .ite (blind_unaryData _ _ (by trivial) v) (blind_again v (by trivial))
  case div => exact blind_unaryData _ _ (by trivial) v
  case pow => exact blind_unaryData _ _ (by trivial) v
  case hypot =>
    show Blind T (hypotDV d v : M W Var)
    unfold hypotDV
    split
    · exact .bind (blind_val v) fun _ => blind_chained (blind_newVarOp _ _) (by trivial)
    · exact blind_again v (by trivial)

theorem blind_single {m : M W Var} (h : Blind T m) : Blind T (single m) := .bind h fun _ => .pure _

theorem blind_elemental2 {γ δ : Type} {f : γ → δ → M W Var} (hf : ∀ a b, Blind T (f a b)) : ∀ (as : List γ) (bs : List δ),
    Blind T (elemental2 f as bs)
  | [], [] => .pure _
  | a :: as, b :: bs => .bind (hf a b) fun _ => .bind (blind_elemental2 hf as bs) fun _ => .pure _
  | [], _ :: _ => blind_fail _
  | _ :: _, [] => blind_fail _

theorem blind_partials (x : R) (vs : List Var) (ds : List R) : Blind T (varWithPartials x vs ds : M W Var) :=
  .ite (blind_fail _) (blind_chained (blind_newVarOpDop _ _ _) (by trivial))

theorem blind_userOp (x : R) {r : URule} (hr : r.fits = true) (vs : List Var) (ds : List R) :
    Blind T (userOp x r vs ds : M W Var) := by
  unfold userOp
  cases ds with
  | nil => exact blind_chained (blind_newVarOp _ _) hr
  | cons d ds => exact blind_chained (blind_newVarOpDop _ _ _) hr

theorem blind_pushVarMat (a : Mat Var) : Blind T (pushVarMat a : M W Nat) :=
  .bind (blind_mapM blind_viIndex _) fun _ => blind_pushTape _
theorem blind_pushDataMat (a : Mat R) : Blind T (pushDataMat a : M W Nat) :=
  .bind (blind_pushTape _) fun _ => .bind (blind_pushTape _) fun _ => .pure _
theorem blind_matVals (a : Mat Var) : Blind T (matVals (R := R) a : M W (Mat R)) :=
  .bind (blind_vals _) fun _ => .pure _

theorem blind_matmulLoop (hT : ∀ k, ¬ T k) (c : Chain) (la lb : Nat) (f : Nat → Nat → R) : ∀ l,
    Blind T (matmulLoop c la lb f l : M W (List Var))
  | [] => .pure _
  | (_, _) :: l => .bind (blind_newVarOpId _ _) fun _ => .bind (blind_setIndexedChain _ fun h => (hT _ h).elim) fun _ =>
      .bind (blind_matmulLoop hT c la lb f l) fun _ => .pure _

theorem blind_make (m : Make R) (env : List Var) (hp : m.product = true → ∀ k, ¬ T k)
    (hu : ∀ x r is ds, m = .user x r is ds → r.fits = true) : Blind T (m.call env : M W (List Var)) := by
  cases m with
  | new0 => exact blind_single blind_newVar0
  | new d => exact blind_single (blind_newVar d)
  | newVals ds => exact blind_newVars ds
  | newArr n => exact blind_newVar1d n
  | fn f i => exact blind_single (blind_fn f _)
  | fnArr f is => exact blind_mapM (fun v => blind_fn f v) _
  | bin f i j => exact blind_single (blind_binVV f _ _)
  | binArr f is js => exact blind_elemental2 (blind_binVV f) _ _
  | binVD f i d => exact blind_single (blind_binVD f _ _)
  | binDV f d i => exact blind_single (blind_binDV f _ _)
  | sum is => exact blind_single (blind_reduceV _ (by trivial) _)
  | norm2 is => exact blind_single (blind_reduceV _ (by trivial) _)
  | logSumExp is => exact blind_single (blind_reduceV _ (by trivial) _)
  | dotVV is js =>
    exact blind_single (.bind (blind_vals _) fun _ => .bind (blind_vals _) fun _ =>
      .ite (blind_chained (blind_newVarOp _ _) (by trivial)) (blind_fail _))
  | dotVD is ds =>
    exact blind_single (.bind (blind_vals _) fun _ =>
      .ite (blind_chained (blind_newVarOpDop _ _ _) (by trivial)) (blind_fail _))
  | dotDV ds is =>
    exact blind_single (.bind (blind_vals _) fun _ =>
      .ite (blind_chained (blind_newVarOpDop _ _ _) (by trivial)) (blind_fail _))
  | matmulVV a b =>
    exact .bind (blind_pushVarMat _) fun _ => .bind (blind_pushVarMat _) fun _ => .bind (blind_matVals _) fun _ =>
      .bind (blind_matVals _) fun _ => .ite (blind_matmulLoop (hp rfl) _ _ _ _ _) (blind_fail _)
  | matmulVD a b =>
    exact .bind (blind_pushVarMat _) fun _ => .bind (blind_pushDataMat _) fun _ => .bind (blind_matVals _) fun _ =>
      .ite (blind_matmulLoop (hp rfl) _ _ _ _ _) (blind_fail _)
  | matmulDV a b =>
    exact .bind (blind_pushDataMat _) fun _ => .bind (blind_pushVarMat _) fun _ => .bind (blind_matVals _) fun _ =>
      .ite (blind_matmulLoop (hp rfl) _ _ _ _ _) (blind_fail _)
  | lpdfVV d ys m s =>
    cases d <;> exact blind_single (.bind (blind_val _) fun _ => .bind (blind_val _) fun _ => blind_partials _ _ _)
  | lpdfVD d ys m s => cases d <;> exact blind_single (.bind (blind_val _) fun _ => blind_partials _ _ _)
  | lpdfDV d ys m s => cases d <;> exact blind_single (.bind (blind_val _) fun _ => blind_partials _ _ _)
  | partials x is ds => exact blind_single (blind_partials _ _ _)
  | user x r is ds => exact blind_single (blind_userOp _ (hu _ _ _ _ rfl) _ _)

end rules
end Fz
