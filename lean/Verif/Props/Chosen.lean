import Verif.Proof.Chosen
import Verif.Props.Proper

/-!
# C75: derivatives do not depend on which other arguments are differentiated, nor on their order

A function may be differentiated by all of its arguments, or by some of them with the others as variables of the caller,
and the arguments may stand in any order.  The derivatives by the arguments that are inputs both times are the same, to
the last bit, in every arithmetic.  `Spec/Chosen.lean` says what the same program for other places is.
-/

set_option linter.unusedSectionVars false

namespace Props
open Fz Spec

variable {W R : Type} [Arith R] [Rep W R] [LawfulRep W R]
variable {h h' : List (Call R)} {c c' : Client W}

/-- **C75**: the function `f` of the inputs `x` and the variables `e` of the caller (with values `ys`), and the same
function of other inputs `x'` and other variables `e'`, where each variable stands at its new place (`σ`): the value is
the same, and so are the derivatives by the inputs that are inputs in both calls.  The calls may be made in different
states, after different histories. -/
theorem C75_gradient (hc : Commutes R) (hr : Reach h c) (hr' : Reach h' c') {e e' : List Var} (he : ∀ v ∈ e, v ∈ c.env)
    (he' : ∀ v ∈ e', v ∈ c'.env) {f : Code R} (hs : f.Sane) (hp : f.Plain) (hb : f.Regular)
    {ys ys' : List R} (hy : (vals e : M W (List R)) c.st = .ok (ys, c.st))
    (hy' : (vals e' : M W (List R)) c'.st = .ok (ys', c'.st)) {x x' : List R} (hm : f.Meets false (x ++ ys))
    {σ : Nat → Nat} (hσ : Stands σ (x ++ ys) (x' ++ ys'))
    {y y' : R} {df df' : List R} {s s' : St W} (hg : gradient (f.scalar e) x c.st = .ok ((y, df), s))
    (hg' : gradient ((f.rename σ (x ++ ys).length (x' ++ ys').length).scalar e') x' c'.st = .ok ((y', df'), s')) :
    y' = y ∧ ∀ i < x.length, σ i < x'.length → df'[σ i]? = df[i]? :=
  carried_gradient hσ (rename_unused f _ _ _) hm hp (rename_plain f _ _ _ hp) (C49_gradient hc hr he hs hp hb hy hg)
    (C49_gradient hc hr' he' (rename_sane f _ _ _ hs) (rename_plain f _ _ _ hp) (rename_regular f _ _ _ hb) hy' hg')

/-- **C75** for `jacobian`: the same values, and the same entries in every row. -/
theorem C75_jacobian (hc : Commutes R) (hr : Reach h c) (hr' : Reach h' c') {e e' : List Var} (he : ∀ v ∈ e, v ∈ c.env)
    (he' : ∀ v ∈ e', v ∈ c'.env) {f : Code R} (hs : f.Sane) (hp : f.Plain) (hb : f.Regular)
    {ys ys' : List R} (hy : (vals e : M W (List R)) c.st = .ok (ys, c.st))
    (hy' : (vals e' : M W (List R)) c'.st = .ok (ys', c'.st)) {n n' : Nat} {x x' : List R} (hm : f.Meets false (x ++ ys))
    {σ : Nat → Nat} (hσ : Stands σ (x ++ ys) (x' ++ ys'))
    {fx fx' : List R} {J J' : List (List R)} {s s' : St W} (hg : jacobian (f.vector e) n x c.st = .ok ((fx, J), s))
    (hg' : jacobian ((f.rename σ (x ++ ys).length (x' ++ ys').length).vector e') n' x' c'.st = .ok ((fx', J'), s')) :
    fx' = fx ∧ List.Forall₂ (fun r r' => ∀ i < x.length, σ i < x'.length → r'[σ i]? = r[i]?) J J' :=
  carried_jacobian hσ (rename_unused f _ _ _) hm hp (rename_plain f _ _ _ hp) (C49_jacobian hc hr he hs hp hb hy hg)
    (C49_jacobian hc hr' he' (rename_sane f _ _ _ hs) (rename_plain f _ _ _ hp) (rename_regular f _ _ _ hb) hy' hg')

theorem take_same {n m : Nat} {df df' : List R} (h1 : df.length = n + m) (h2 : df'.length = n)
    (h : ∀ i < n, df'[i]? = df[i]?) : df' = df.take n := by
  refine List.ext_getElem? fun i => ?_
  by_cases hi : i < n
  · rw [h i hi, List.getElem?_take_of_lt hi]
  · rw [List.getElem?_eq_none (by omega), List.getElem?_eq_none (by simp; omega)]

/-- **C75**: the gradient by some of the inputs, the others being variables of the caller with the same values, is the
beginning of the gradient by all inputs. -/
theorem C75_fewer (hc : Commutes R) (hr : Reach h c) (hr' : Reach h' c') {e e' : List Var} (he : ∀ v ∈ e, v ∈ c.env)
    (he' : ∀ v ∈ e', v ∈ c'.env) {f : Code R} (hs : f.Sane) (hp : f.Plain) (hb : f.Regular)
    {ys x x₂ : List R} (hy : (vals e : M W (List R)) c.st = .ok (ys, c.st))
    (hy' : (vals e' : M W (List R)) c'.st = .ok (x₂ ++ ys, c'.st)) (hm : f.Meets false (x ++ x₂ ++ ys))
    {y y' : R} {df df' : List R} {s s' : St W} (hg : gradient (f.scalar e) (x ++ x₂) c.st = .ok ((y, df), s))
    (hg' : gradient (f.scalar e') x c'.st = .ok ((y', df'), s')) : y' = y ∧ df' = df.take x.length := by
  have ee : x ++ (x₂ ++ ys) = x ++ x₂ ++ ys := (List.append_assoc _ _ _).symm
  have b := C49_gradient hc hr he hs hp hb hy hg
  have b' := C49_gradient hc hr' he' hs hp hb hy' hg'
  obtain ⟨h1, h2⟩ := carried_gradient (x := x ++ x₂) (x' := x) (ys := ys) (ys' := x₂ ++ ys) (σ := id) (f := f) (f' := f)
    (ee ▸ stands_id _) (by
      have := rename_unused f (x ++ x₂ ++ ys) (x ++ x₂ ++ ys) id
      rw [rename_id] at this
      rwa [ee]) hm hp hp b b'
  have l : ∀ {ys x df : List R} {y : R}, f.bookGradient ys x = some (y, df) → df.length = x.length := by
    intro ys x df y hb
    unfold Code.bookGradient at hb
    split at hb
    · cases hb
      simp [rowOf]
    · cases hb
  refine ⟨h1, take_same (m := x₂.length) ((l b).trans (by simp)) (l b') fun i hi => h2 i (by simp; omega) hi⟩

/-- **C75**, the same for `jacobian`. -/
theorem C75_fewer_rows (hc : Commutes R) (hr : Reach h c) (hr' : Reach h' c') {e e' : List Var} (he : ∀ v ∈ e, v ∈ c.env)
    (he' : ∀ v ∈ e', v ∈ c'.env) {f : Code R} (hs : f.Sane) (hp : f.Plain) (hb : f.Regular)
    {ys x x₂ : List R} (hy : (vals e : M W (List R)) c.st = .ok (ys, c.st))
    (hy' : (vals e' : M W (List R)) c'.st = .ok (x₂ ++ ys, c'.st)) (hm : f.Meets false (x ++ x₂ ++ ys)) {n n' : Nat}
    {fx fx' : List R} {J J' : List (List R)} {s s' : St W} (hg : jacobian (f.vector e) n (x ++ x₂) c.st = .ok ((fx, J), s))
    (hg' : jacobian (f.vector e') n' x c'.st = .ok ((fx', J'), s')) : fx' = fx ∧ J' = J.map (List.take x.length) := by
  have ee : x ++ (x₂ ++ ys) = x ++ x₂ ++ ys := (List.append_assoc _ _ _).symm
  have b := C49_jacobian hc hr he hs hp hb hy hg
  have b' := C49_jacobian hc hr' he' hs hp hb hy' hg'
  obtain ⟨h1, h2⟩ := carried_jacobian (x := x ++ x₂) (x' := x) (ys := ys) (ys' := x₂ ++ ys) (σ := id) (f := f) (f' := f)
    (ee ▸ stands_id _) (by
      have := rename_unused f (x ++ x₂ ++ ys) (x ++ x₂ ++ ys) id
      rw [rename_id] at this
      rwa [ee]) hm hp hp b b'
  have l : ∀ {ys x fx : List R} {J : List (List R)}, f.bookJacobian ys x = (fx, J) → ∀ r ∈ J, r.length = x.length := by
    intro ys x fx J hb r hr
    unfold Code.bookJacobian at hb
    cases hb
    obtain ⟨o, -, rfl⟩ := List.mem_map.mp hr
    simp [rowOf]
  refine ⟨h1, ?_⟩
  have l1 := l b
  have l2 := l b'
  clear b b' hg hg' h1
  induction h2 with
  | nil => rfl
  | @cons r r' J J' h3 _ ih =>
    rw [List.map_cons, ih (fun r hr => l1 r (by simp [hr])) (fun r hr => l2 r (by simp [hr]))]
    congr 1
    exact take_same (m := x₂.length) ((l1 r (by simp)).trans (by simp)) (l2 r' (by simp))
      fun i hi => h3 i (by simp; omega) hi

/-! ## The hypotheses are met -/

/-- `exp(x y) z` -/
def expTimes : Code R := .make (.bin .mul 0 1) (.make (.fn .exp 3) (.make (.bin .mul 4 2) (.ret [5])))

/-- each variable one place further, the last one first -/
def turn (i : Nat) : Nat := (i + 1) % 3

/-- in every arithmetic: `exp(x y) z` by `x`, `y`, `z`, and by `z` and `x`, in this order, where `y` is a variable of
the caller -/
example (hc : Commutes R) (a b d : R) : ∃ (h : List (Call R)) (c : Client W) (y : R) (dx dy dz : R) (s s' : St W),
    Reach h c ∧ (vals c.env : M W (List R)) c.st = .ok ([b], c.st) ∧ (expTimes : Code R).Sane ∧
    (expTimes : Code R).Plain ∧ (expTimes : Code R).Regular ∧ (expTimes : Code R).Meets false ([a, b, d] ++ []) ∧
    Stands turn ([a, b, d] ++ []) ([d, a] ++ [b]) ∧
    gradient ((expTimes : Code R).scalar []) [a, b, d] c.st = .ok ((y, [dx, dy, dz]), s) ∧
    gradient (((expTimes : Code R).rename turn 3 3).scalar c.env) [d, a] c.st = .ok ((y, [dz, dx]), s') := by
  have e0 : (vals (Client.init : Client W).env : M W (List R)) (Client.init : Client W).st = .ok ([], Client.init.st) := rfl
  obtain ⟨c, -, o, v, hh, hm⟩ := C52_make (m := .new b) hc (Orderly.start (W := W))
    ⟨by simp [Call.args, Make.args], trivial, trivial, [], e0, rfl, by
      simp [Client.init, St.init, Tape.init, Make.words, tapeLimit]⟩ trivial e0
  have hd : c.st.tape.head = 7 := hh
  have hs : (expTimes : Code R).Sane := ⟨trivial, trivial, trivial, trivial⟩
  have hp : (expTimes : Code R).Plain := ⟨trivial, by simp [Make.Plain], trivial, trivial⟩
  have hb : (expTimes : Code R).Regular := ⟨trivial, trivial, trivial, trivial⟩
  have me : (expTimes : Code R).Meets false ([a, b, d] ++ []) := by
    refine ⟨?_, trivial, ?_, ?_, ?_, trivial, ?_⟩ <;> simp [Make.args, Make.plain, Code.Meets, Make.Meets, Fn.Meets]
  have me' : ((expTimes : Code R).rename turn 3 3).Meets false ([d, a] ++ [b]) := by
    refine ⟨?_, trivial, ?_, ?_, ?_, trivial, ?_⟩ <;>
      simp [Make.args, Make.plain, Code.Meets, Make.Meets, Fn.Meets, Make.rename, turn, after, Make.results, Code.rename]
  have hσ : Stands turn ([a, b, d] ++ []) ([d, a] ++ [b]) := by
    refine ⟨?_, ?_, ?_⟩
    · intro i _
      exact Nat.mod_lt _ (by decide)
    · intro i hi
      match i, hi with
      | 0, _ => rfl
      | 1, _ => rfl
      | 2, _ => rfl
    · intro i j hi hj e
      simp only [List.append_nil, List.length_cons, List.length_nil] at hi hj
      simp only [turn] at e
      omega
  obtain ⟨r, s, e, -⟩ := C52_ask (q := .gradient (expTimes : Code R) [a, b, d]) hc o (by rw [hm]; simp [Client.init])
    (e := []) (by simp) (ys := []) rfl (by
      rw [hd]
      refine ⟨hs, hp, hb, me, by simp [expTimes, Code.plain], ?_, ?_⟩
      · show 7 + (6 * 3 + 23) ≤ tapeLimit
        simp [tapeLimit]
      · intro j
        show 7 + (6 * 3 + 23) ≠ _
        have := Nat.one_le_two_pow (n := j)
        omega)
  obtain ⟨r', s', e', -⟩ := C52_ask (q := .gradient ((expTimes : Code R).rename turn 3 3) [d, a]) hc o
    (by rw [hm]; simp [Client.init]) (fun _ h => h) v (by
      rw [hd]
      refine ⟨rename_sane _ _ _ _ hs, rename_plain _ _ _ _ hp, rename_regular _ _ _ _ hb, me', by
        simp [expTimes, Code.plain, Code.rename], ?_, ?_⟩
      · show 7 + (6 * 2 + 23) ≤ tapeLimit
        simp [tapeLimit]
      · intro j
        show 7 + (6 * 2 + 23) ≠ _
        have := Nat.one_le_two_pow (n := j)
        omega)
  obtain ⟨⟨y, df⟩, s1, e1, -⟩ := Fz.bind_inv e
  obtain ⟨⟨y', df'⟩, s2, e2, -⟩ := Fz.bind_inv e'
  obtain ⟨l, hr⟩ := C52_reach o
  have b1 := C49_gradient hc hr (e := []) (by simp) hs hp hb (ys := []) rfl e1
  have b2 := C49_gradient hc hr (fun _ h => h) (rename_sane _ _ _ _ hs) (rename_plain _ _ _ _ hp)
    (rename_regular _ _ _ _ hb) v e2
  obtain ⟨q1, q2⟩ := C75_gradient hc hr hr (e := []) (by simp) (fun _ h => h) hs hp hb (ys := []) rfl v me hσ e1 e2
  have q3 := q2 0 (by simp) (by simp [turn])
  have q4 := q2 2 (by simp) (by simp [turn])
  subst q1
  obtain ⟨dx, dy, dz, rfl⟩ : ∃ dx dy dz, df = [dx, dy, dz] := by
    cases b1
    exact ⟨_, _, _, rfl⟩
  obtain ⟨dz', dx', rfl⟩ : ∃ dz' dx', df' = [dz', dx'] := by
    cases b2
    exact ⟨_, _, rfl⟩
  obtain rfl : dx' = dx := Option.some.inj q3
  obtain rfl : dz' = dz := Option.some.inj q4
  exact ⟨l, c, y', dx', dy, dz', s1, s2, hr, v, hs, hp, hb, me, hσ, e1, e2⟩

end Props
