import Verif.Proof.Views
import Verif.Model.Rest

/-!
# Creation of variables, word by word
-/

set_option linter.unusedSectionVars false

namespace Fz
open Arith

section words
variable {W R : Type} [Arith R] [Rep W R]

/-- the words of a value written over `m` at `p` -/
def putReal (m : Nat → W) (p : Nat) (x : R) : Nat → W := overlay m p [Rep.lo x, Rep.hi x]

/-- the values of consecutive variables without operands, the first one at `p` -/
def putReals (m : Nat → W) : Nat → List R → Nat → W
  | _, [] => m
  | p, x :: xs => putReals (putReal m p x) (p + 6) xs

theorem putReal_off {m : Nat → W} {p : Nat} {x : R} {k : Nat} (h : k < p ∨ p + 2 ≤ k) : putReal m p x k = m k := by
  rcases h with h | h
  · exact overlay_lt h
  · exact overlay_ge (by simpa using h)

theorem putReal_on {m m' : Nat → W} {p : Nat} {x : R} {k : Nat} (h : p ≤ k) (h' : k < p + 2) :
    putReal m p x k = putReal m' p x k := by
  unfold putReal overlay
  rw [if_neg (by omega), if_neg (by omega)]
  have : k - p < 2 := by omega
  simp [this]

theorem putReal_putReal (m : Nat → W) (p : Nat) (x y : R) : putReal (putReal m p x) p y = putReal m p y := by
  funext k
  by_cases h : k < p ∨ p + 2 ≤ k
  · rw [putReal_off h, putReal_off h, putReal_off h]
  · exact putReal_on (by omega) (by omega)

theorem putReal_comm (m : Nat → W) {p q : Nat} (h : p + 2 ≤ q) (x y : R) :
    putReal (putReal m q y) p x = putReal (putReal m p x) q y := by
  funext k
  by_cases h1 : k < p ∨ p + 2 ≤ k
  · rw [putReal_off h1]
    by_cases h2 : k < q ∨ q + 2 ≤ k
    · rw [putReal_off h2, putReal_off h2, putReal_off h1]
    · exact putReal_on (by omega) (by omega)
  · rw [putReal_off (p := q) (by omega)]
    exact putReal_on (by omega) (by omega)

theorem putReals_comm (xs : List R) : ∀ (m : Nat → W) {p q : Nat}, p + 2 ≤ q → ∀ x : R,
    putReal (putReals m q xs) p x = putReals (putReal m p x) q xs := by
  induction xs with
  | nil => intros; rfl
  | cons y ys ih =>
    intro m p q h x
    show putReal (putReals (putReal m q y) (q + 6) ys) p x = putReals (putReal (putReal m p x) q y) (q + 6) ys
    rw [ih _ (by omega), putReal_comm m h]

/-- what is written over the same places a second time counts -/
theorem putReals_putReals (ds : List R) : ∀ (xs : List R), xs.length = ds.length → ∀ (m : Nat → W) (p : Nat),
    putReals (putReals m p xs) p ds = putReals m p ds := by
  induction ds with
  | nil => intro xs h m p; obtain rfl := List.length_eq_zero_iff.mp h; rfl
  | cons d ds ih =>
    intro xs h m p
    match xs, h with
    | x :: xs, h =>
      show putReals (putReal (putReals (putReal m p x) (p + 6) xs) p d) (p + 6) ds = putReals (putReal m p d) (p + 6) ds
      rw [putReals_comm xs _ (by omega), putReal_putReal]
      exact ih xs (by simpa using h) _ _

theorem putReals_off (xs : List R) : ∀ (m : Nat → W) (p k : Nat), k < p ∨ p + 6 * xs.length ≤ k →
    putReals m p xs k = m k := by
  induction xs with
  | nil => intros; rfl
  | cons x xs ih =>
    intro m p k h
    simp only [List.length_cons] at h
    show putReals (putReal m p x) (p + 6) xs k = _
    rw [ih _ _ _ (by omega), putReal_off (by omega)]

/-! ## the storage grows in the same way whatever it holds -/

theorem Tape.allocLoop_with (t : Tape W) (n : Nat) (m : Nat → W) (hm : ∀ i, t.size < i → m i = Rep.ofNat 0) :
    Tape.allocLoop { t with mem := m } n = (t.allocLoop n).map fun t' => { t' with mem := m } := by
  fun_induction Tape.allocLoop t n with
  | case1 t h1 h2 => rw [Tape.allocLoop, if_pos (by exact h1), dif_pos (by exact h2)]; rfl
  | case2 t h1 h2 h3 ih =>
    rw [Tape.allocLoop, if_pos (by exact h1), dif_neg (by exact h2), if_pos (by exact h3)]
    simp only [dite_eq_ite] at ih ⊢
    rw [← ih fun i hi => hm i (by omega)]
    congr 2
    funext i
    by_cases hi : i ≤ t.size
    · rw [if_pos hi]
    · rw [if_neg hi, hm i (by omega)]
  | case3 t h1 h2 h3 => rw [Tape.allocLoop, if_pos (by exact h1), dif_neg (by exact h2), if_neg (by exact h3)]; rfl
  | case4 t h1 => rw [Tape.allocLoop, if_neg (by exact h1)]; rfl

theorem Tape.alloc_with (t : Tape W) (n : Nat) (m : Nat → W) (hm : ({ t with mem := m } : Tape W).OK) :
    Tape.alloc { t with mem := m } n = (t.alloc n).map fun t' => { t' with mem := m } := by
  have hl := hm.head_le
  have hp := hm.head_pos
  unfold Tape.alloc
  simp only
  split
  · rename_i h0
    have hz : m = fun _ => Rep.ofNat 0 := by
      funext i
      exact hm.zero i (by simp only [h0] at hl ⊢; omega)
    have := Tape.allocLoop_with { t with size := initTapeSize, mem := fun _ => Rep.ofNat 0 } n m (by simp [hz])
    simp only at this
    rw [← this, hz]
  · refine Tape.allocLoop_with t n m fun i hi => hm.zero i (Or.inr ?_)
    simp only at hl ⊢
    omega

theorem allocVarisLoop_shape (s : St W) (n : Nat) :
    (∃ e, ∀ t : Tape W, allocVarisLoop { s with tape := t } n = .error e) ∨
    ∃ z f, n + s.vhead ≤ z + 1 ∧ (∀ k, k ≤ s.nVaris → f k = s.varis k) ∧
      ∀ t : Tape W, allocVarisLoop { s with tape := t } n = .ok { s with tape := t, nVaris := z, varis := f } := by
  fun_induction allocVarisLoop s n with
  | case1 s h1 h2 =>
    refine .inl ⟨.overflow, fun t => ?_⟩
    rw [allocVarisLoop, if_pos (by exact h1), dif_pos (by exact h2)]
  | case2 s h1 h2 h3 ih =>
    rcases ih with ⟨e, ih⟩ | ⟨z, f, h4, h5, ih⟩
    · refine .inl ⟨e, fun t => ?_⟩
      rw [allocVarisLoop, if_pos (by exact h1), dif_neg (by exact h2), if_pos (by exact h3)]
      exact ih t
    · refine .inr ⟨z, f, h4, fun k hk => ?_, fun t => ?_⟩
      · rw [h5 k (by simp only; omega)]
        simp [hk]
      · rw [allocVarisLoop, if_pos (by exact h1), dif_neg (by exact h2), if_pos (by exact h3)]
        exact ih t
  | case3 s h1 h2 h3 =>
    refine .inl ⟨.overflow, fun t => ?_⟩
    rw [allocVarisLoop, if_pos (by exact h1), dif_neg (by exact h2), if_neg (by exact h3)]
  | case4 s h1 =>
    refine .inr ⟨s.nVaris, s.varis, by omega, fun _ _ => rfl, fun t => ?_⟩
    rw [allocVarisLoop, if_neg (by exact h1)]

theorem allocVaris_shape (s : St W) (hv : s.vhead ≤ s.nVaris + 1) (n : Nat) :
    (∃ e, ∀ t : Tape W, (allocVaris n : M W Unit) { s with tape := t } = .error e) ∨
    ∃ z f, n + s.vhead ≤ z + 1 ∧ (∀ k, 1 ≤ k → k < s.vhead → f k = s.varis k) ∧
      ∀ t : Tape W, (allocVaris n : M W Unit) { s with tape := t } = .ok ((), { s with tape := t, nVaris := z, varis := f }) := by
  unfold allocVaris
  simp only
  by_cases h0 : s.nVaris = 0
  · simp only [if_pos h0]
    rcases allocVarisLoop_shape { s with nVaris := initVariStackSize, varis := fun _ => {} } n with
      ⟨e, h⟩ | ⟨z, f, h1, h2, h⟩
    · exact .inl ⟨e, fun t => by rw [h t]⟩
    · refine .inr ⟨z, f, h1, fun k hk hk' => by omega, fun t => by rw [h t]⟩
  · simp only [if_neg h0]
    rcases allocVarisLoop_shape s n with ⟨e, h⟩ | ⟨z, f, h1, h2, h⟩
    · exact .inl ⟨e, fun t => by rw [h t]⟩
    · exact .inr ⟨z, f, h1, fun k _ hk => h2 k (by omega), fun t => by rw [h t]⟩

end words

section made
variable {W R : Type} [Arith R] [Rep W R] [LawfulRep W R]

/-- the words `m` on the tape of `s` -/
abbrev OkWith (s : St W) (m : Nat → W) : Prop := (s.withMem m).tape.OK

/-- the creation of `n` variables leads from `s` to `F`, up to the values written -/
structure Made (R : Type) [Arith R] [Rep W R] (s : St W) (n : Nat) (F : St W) : Prop where
  vhead : F.vhead = s.vhead + n
  room : F.vhead ≤ F.nVaris + 1
  head : F.tape.head = s.tape.head + 6 * n
  ok : ∀ m, OkWith s m → ∀ xs : List R, xs.length = n → OkWith F (putReals m s.tape.head xs)
  keep : ∀ k, 1 ≤ k → k < s.vhead → F.varis k = s.varis k
  new : ∀ j, j < n → (F.varis (s.vhead + j)).i = s.tape.head + 6 * j
  run : ∀ m, OkWith s m → ∀ xs : List R, xs.length = n →
    (newVars xs : M W (List Var)) (s.withMem m) =
      .ok ((List.range' s.vhead n).map Var.mk, F.withMem (putReals m s.tape.head xs))

theorem setVari_in {s : St W} {k : Nat} {v : Vari} (h : 1 ≤ k ∧ k ≤ s.nVaris) :
    (setVari k v : M W Unit) s = .ok ((), { s with varis := fun m => if m = k then v else s.varis m }) := by
  unfold setVari
  rw [if_pos h]

theorem newVar_shape {s : St W} (ho : s.tape.OK) (h1 : 1 ≤ s.vhead) (hv : s.vhead ≤ s.nVaris + 1) :
    (∃ e, ∀ m, OkWith s m → ∀ x : R, (newVar x : M W Var) (s.withMem m) = .error e) ∨
    ∃ F : St W, F.vhead = s.vhead + 1 ∧ F.vhead ≤ F.nVaris + 1 ∧ F.tape.head = s.tape.head + 6 ∧
      (∀ m, OkWith s m → ∀ x : R, OkWith F (putReal m s.tape.head x)) ∧
      (∀ k, 1 ≤ k → k < s.vhead → F.varis k = s.varis k) ∧ (F.varis s.vhead).i = s.tape.head ∧
      ∀ m, OkWith s m → ∀ x : R,
        (newVar x : M W Var) (s.withMem m) = .ok (⟨s.vhead⟩, F.withMem (putReal m s.tape.head x)) := by
  rcases allocVaris_shape s hv 1 with ⟨e, ha⟩ | ⟨z, f, h2, h3, ha⟩
  · refine .inl ⟨e, fun m hm x => ?_⟩
    unfold newVar newVariVal newVariWith
    exact bind_err (bind_err (ha _))
  · cases hal : s.tape.alloc 6 with
    | error e =>
      refine .inl ⟨e, fun m hm x => ?_⟩
      unfold newVar newVariVal newVariWith
      refine bind_err ?_
      refine (bind_ok (ha { s.tape with mem := m })).trans ?_
      refine bind_err ?_
      unfold pushTape Tape.pushVal
      simp only [minRecSize]
      rw [Tape.alloc_with s.tape 6 m hm, hal]
      rfl
    | ok t1 =>
      by_cases hc : s.tape.head + 6 ≤ cap
      case neg =>
        exfalso
        rw [Tape.alloc_fail _ _ ho (by omega)] at hal
        cases hal
      obtain ⟨sz, e, g1, g2, g3, g4, g5, g6⟩ := Tape.alloc_ok s.tape 6 ho hc
      rw [hal] at e
      cases e
      refine .inr ⟨{ s with
        vhead := s.vhead + 1
        nVaris := z
        varis := fun k => if k = s.vhead then ⟨s.tape.head, (f s.vhead).chain⟩ else f k
        tape := { s.tape with size := sz, head := s.tape.head + 6 } }, rfl, by simp only; omega, rfl, ?_, ?_, ?_, ?_⟩
      · intro m hm x
        refine ⟨by simp [St.withMem], by simp [St.withMem]; omega, g3, ?_, .inr g6⟩
        intro i hi
        simp only [St.withMem] at hi ⊢
        rw [putReal_off (by have := ho.head_pos; omega)]
        exact hm.zero i (by simp only [St.withMem]; omega)
      · intro k hk hk'
        simp only
        rw [if_neg (by omega)]
        exact h3 k hk hk'
      · simp
      · intro m hm x
        unfold newVar newVariVal newVariWith
        have hp : Tape.pushVal (s.withMem m).tape x = .ok (s.tape.head, { s.tape with
            size := sz, head := s.tape.head + 6, mem := putReal m s.tape.head x }) := by
          unfold Tape.pushVal
          have := Tape.alloc_with s.tape 6 m hm
          rw [hal] at this
          simp only [minRecSize, St.withMem, bind, Except.bind, Except.map] at this ⊢
          rw [this]
          simp only
          have hw := Tape.wrSec_ok [Rep.lo x, Rep.hi x] ({ s.tape with size := sz, mem := m } : Tape W) s.tape.head
            ho.head_pos (by simp; omega)
          unfold Tape.setValCurr Tape.setValAt Tape.setRealAt
          rw [hw]
          rfl
        have hb : (s.withMem m) = { s with tape := (s.withMem m).tape } := rfl
        rw [hb]
        refine bind_ok (a := s.vhead) ?_ |>.trans rfl
        rw [bind_ok (ha _), bind_ok (pushTape_ok (s := { s with nVaris := z, varis := f, tape := (s.withMem m).tape }) hp),
          bind_ok (get_ok _)]
        have hg : (Fz.getVari s.vhead : M W Vari) { s with nVaris := z, varis := f, tape := { s.tape with
            size := sz, head := s.tape.head + 6, mem := putReal m s.tape.head x } } = .ok (f s.vhead, { s with nVaris := z, varis := f, tape := { s.tape with
            size := sz, head := s.tape.head + 6, mem := putReal m s.tape.head x } }) := by
          unfold Fz.getVari
          rw [if_pos (by simp only; omega)]
        show (Fz.getVari s.vhead >>= _) _ = _
        rw [bind_ok hg, bind_ok (setVari_in (by simp only; omega))]
        rfl

theorem newVars_shape (n : Nat) : ∀ {s : St W}, s.tape.OK → 1 ≤ s.vhead → s.vhead ≤ s.nVaris + 1 →
    (∃ e, ∀ m, OkWith s m → ∀ xs : List R, xs.length = n → (newVars xs : M W (List Var)) (s.withMem m) = .error e) ∨
    ∃ F : St W, Made R s n F := by
  induction n with
  | zero =>
    intro s ho h1 hv
    refine .inr ⟨s, rfl, hv, rfl, ?_, fun _ _ _ => rfl, fun j hj => absurd hj (by omega), ?_⟩
    · intro m hm xs hx
      obtain rfl := List.length_eq_zero_iff.mp hx
      exact hm
    · intro m hm xs hx
      obtain rfl := List.length_eq_zero_iff.mp hx
      rfl
  | succ n ih =>
    intro s ho h1 hv
    have cons : ∀ (x : R) (xs : List R), (newVars (x :: xs) : M W (List Var)) =
        (newVar x >>= fun v => newVars xs >>= fun vs => pure (v :: vs)) := fun x xs => by
      unfold newVars
      rw [List.mapM_cons]
    rcases newVar_shape (R := R) ho h1 hv with ⟨e, he⟩ | ⟨F, f1, f2, f3, f4, f5, f6, f7⟩
    · refine .inl ⟨e, fun m hm xs hx => ?_⟩
      match xs, hx with
      | x :: xs, _ =>
        rw [cons]
        exact bind_err (he m hm x)
    · have base := f4 s.tape.mem ho (zero : R)
      rcases ih (s := F.withMem (putReal s.tape.mem s.tape.head (zero : R))) base
          (by simp only [St.withMem]; omega) f2 with ⟨e, he⟩ | ⟨G, g⟩
      · refine .inl ⟨e, fun m hm xs hx => ?_⟩
        match xs, hx with
        | x :: xs, hx =>
          rw [cons, bind_ok (f7 m hm x)]
          exact bind_err (he _ (f4 m hm x) xs (by simpa using hx))
      · have hvh : (F.withMem (putReal s.tape.mem s.tape.head (zero : R))).vhead = s.vhead + 1 := f1
        have hhd : (F.withMem (putReal s.tape.mem s.tape.head (zero : R))).tape.head = s.tape.head + 6 := f3
        refine .inr ⟨G, ?_, g.room, ?_, ?_, ?_, ?_, ?_⟩
        · rw [g.vhead, hvh]; omega
        · rw [g.head, hhd]; omega
        · intro m hm xs hx
          match xs, hx with
          | x :: xs, hx =>
            have := g.ok _ (f4 m hm x) xs (by simpa using hx)
            rw [hhd] at this
            exact this
        · intro k hk hk'
          rw [g.keep k hk (by rw [hvh]; omega)]
          exact f5 k hk hk'
        · intro j hj
          cases j with
          | zero => rw [g.keep _ (by omega) (by rw [hvh]; omega)]; exact f6
          | succ j =>
            have := g.new j (by omega)
            rw [hvh, hhd] at this
            rw [show s.vhead + (j + 1) = s.vhead + 1 + j by omega, this]
            omega
        · intro m hm xs hx
          match xs, hx with
          | x :: xs, hx =>
            rw [cons, bind_ok (f7 m hm x)]
            have := g.run _ (f4 m hm x) xs (by simpa using hx)
            rw [hvh, hhd] at this
            refine (bind_ok this).trans ?_
            rfl

theorem newVar1d_eq (n : Nat) : (newVar1d (R := R) n : M W (List Var)) = newVars (List.replicate n (zero : R)) := by
  induction n with
  | zero => rfl
  | succ n ih =>
    unfold newVar1d
    rw [ih, List.replicate_succ]
    unfold newVars
    rw [List.mapM_cons]
    rfl

/-- assignments to consecutive variables without operands -/
theorem assign1d_words (ds : List R) : ∀ {F : St W} {v p : Nat}, 1 ≤ v → v + ds.length ≤ F.nVaris + 1 → 1 ≤ p →
    p + 6 * ds.length ≤ F.tape.size + 1 → (∀ j, j < ds.length → (F.varis (v + j)).i = p + 6 * j) → ∀ m : Nat → W,
    (Var.assign1d ((List.range' v ds.length).map Var.mk) ds : M W Unit) (F.withMem m) =
      .ok ((), F.withMem (putReals m p ds)) := by
  induction ds with
  | nil => intros; rfl
  | cons d ds ih =>
    intro F v p hv hn hp hs hi m
    simp only [List.length_cons] at hn hs
    show (Var.assign ⟨v⟩ d >>= fun _ => Var.assign1d ((List.range' (v + 1) ds.length).map Var.mk) ds : M W Unit) _ = _
    have e1 : (Var.assign ⟨v⟩ d : M W Unit) (F.withMem m) = .ok ((), F.withMem (putReal m p d)) := by
      unfold Var.assign setIndexedVal
      have hg : (getVari v : M W Vari) (F.withMem m) = .ok (F.varis v, F.withMem m) := by
        unfold getVari
        rw [if_pos (by simp only [St.withMem]; omega)]
        rfl
      refine (bind_ok hg).trans ?_
      have h0 : (F.varis v).i = p := by simpa using hi 0 (by simp)
      refine modTape_ok (s := F.withMem m) ?_
      rw [h0]
      exact Tape.wrSec_ok _ (F.withMem m).tape p hp (by simp only [St.withMem, List.length_cons, List.length_nil]; omega)
    rw [bind_ok e1]
    refine ih (by omega) (by omega) (by omega) (by omega) (fun j hj => ?_) _
    have := hi (j + 1) (by simpa using hj)
    rw [show v + 1 + j = v + (j + 1) by omega, this]
    omega

/-- declaration followed by assignment is construction -/
theorem declare_assign {s : St W} (ho : s.tape.OK) (h1 : 1 ≤ s.vhead) (hv : s.vhead ≤ s.nVaris + 1) {α : Type}
    (ds : List R) (k : List Var → M W α) :
    (do let vs ← newVar1d (R := R) ds.length; Var.assign1d vs ds; k vs : M W α) s = (newVars ds >>= k) s := by
  rw [newVar1d_eq]
  rcases newVars_shape (R := R) ds.length ho h1 hv with ⟨e, he⟩ | ⟨F, g⟩
  · exact (bind_err (he s.tape.mem ho _ (by simp))).trans (bind_err (he s.tape.mem ho ds rfl)).symm
  · have e1 := g.run s.tape.mem ho (List.replicate ds.length (zero : R)) (by simp)
    have e2 := g.run s.tape.mem ho ds rfl
    have hok := g.ok s.tape.mem ho ds rfl
    have hl := hok.head_le
    simp only [St.withMem] at hl
    refine (bind_ok e1).trans (Eq.trans ?_ (bind_ok e2).symm)
    refine (bind_ok (assign1d_words ds h1 (by rw [← g.vhead]; exact g.room) ho.head_pos ?_ g.new _)).trans ?_
    · rw [← g.head]; exact hl
    · rw [putReals_putReals ds _ (by simp)]

end made
end Fz
