import Verif.Proof.Unused
import Verif.Props.Overflow
import Verif.Props.Textbook

/-!
# C57: results that are not used do not matter

A user who adds a call to a function and does not use its result expects the same value and the same derivatives.  The
chain procedure of the unused result runs nevertheless, with adjoint zero.  `Unused` (`Spec/Unused.lean`) says what a
program with further calls is.
-/

set_option linter.unusedSectionVars false

namespace Props
open Fz Spec

section generic
variable {W R : Type} [Arith R] [Rep W R] [LawfulRep W R]
variable {h : List (Call R)} {c : Client W}

/-- **C57**, the part that holds: in every arithmetic, after every history, further calls whose results are not used
change neither value nor derivatives of `gradient`, to the last bit, if what their chain procedures pass on for adjoint
zero changes no sum (`Make.Quiet`, in `Unused`).  Missing: calls that are not quiet (`C57_refuted`). -/
theorem C57_gradient_partial (hc : Commutes R) (hr : Reach h c) {e : List Var} (he : ∀ v ∈ e, v ∈ c.env)
    {f f' : Code R} (hs : f.Sane) (hp : f.Plain) (hb : f.Regular) (hs' : f'.Sane) (hp' : f'.Plain) (hb' : f'.Regular)
    {ys : List R} (hy : (vals e : M W (List R)) c.st = .ok (ys, c.st)) {x : List R}
    (hm : f.Meets false (x ++ ys)) (hu : Unused (x ++ ys) (x ++ ys) id f f')
    {y y' : R} {df df' : List R} {s s' : St W} (hg : gradient (f.scalar e) x c.st = .ok ((y, df), s))
    (hg' : gradient (f'.scalar e) x c.st = .ok ((y', df'), s')) : y' = y ∧ df' = df := by
  have h1 := C49_gradient hc hr he hs hp hb hy hg
  have h2 := C49_gradient hc hr he hs' hp' hb' hy hg'
  rw [unused_gradient hu hm hp hp', h1] at h2
  simpa [eq_comm] using h2

/-- **C57**, the same for `jacobian`. -/
theorem C57_jacobian_partial (hc : Commutes R) (hr : Reach h c) {e : List Var} (he : ∀ v ∈ e, v ∈ c.env)
    {f f' : Code R} (hs : f.Sane) (hp : f.Plain) (hb : f.Regular) (hs' : f'.Sane) (hp' : f'.Plain) (hb' : f'.Regular)
    {ys : List R} (hy : (vals e : M W (List R)) c.st = .ok (ys, c.st)) {n : Nat} {x : List R}
    (hm : f.Meets false (x ++ ys)) (hu : Unused (x ++ ys) (x ++ ys) id f f')
    {fx fx' : List R} {J J' : List (List R)} {s s' : St W} (hg : jacobian (f.vector e) n x c.st = .ok ((fx, J), s))
    (hg' : jacobian (f'.vector e) n x c.st = .ok ((fx', J'), s')) : fx' = fx ∧ J' = J := by
  have h1 := C49_jacobian hc hr he hs hp hb hy hg
  have h2 := C49_jacobian hc hr he hs' hp' hb' hy hg'
  rw [unused_jacobian hu hm hp hp', h1] at h2
  simpa [eq_comm] using h2

end generic

/-! ## which calls are quiet -/

theorem lin_real {φ : ℝ → ℝ} (h : Lin φ) : φ 0 = 0 := by
  induction h with
  | id => rfl
  | neg _ ih => show -_ = (0:ℝ); rw [ih, neg_zero]
  | mul c _ ih => show _ * c = (0:ℝ); rw [ih, zero_mul]
  | mul' c _ ih => show c * _ = (0:ℝ); rw [ih, mul_zero]
  | div c _ ih => show _ / c = (0:ℝ); rw [ih, zero_div]
  | nan h => exact absurd h (by simp [Arith.feq])

/-- **C57**: in exact arithmetic all calls of the library are quiet. -/
theorem C57_real (m : Make ℝ) (hm : m.Library) (ys : List ℝ) : m.Quiet ys :=
  quiet_of_lin (fin := fun _ => True) (fun _ h _ => lin_real h) (fun a _ => add_zero a) m hm fun env T _ => by
    obtain ⟨D, hD, -⟩ := linLog_make m hm env T
    exact ⟨D, hD, fun _ _ _ _ => trivial⟩

variable [SumOrder]

theorem total_over {a : Over} (h : Total a) : Arith.add a (.fin 0) = a := by
  have fit0 : ∀ x : ℝ, Over.add (Over.fit x) (.fin 0) = Over.fit x := by
    intro x
    unfold Over.fit
    split
    · rfl
    split
    · rfl
    · simp only [Over.add, add_zero]
      unfold Over.fit
      rw [if_neg (by assumption), if_neg (by assumption)]
  have hb := big_ge
  norm_num at hb
  cases h with
  | zero => exact (Over.add_fin (by simp; linarith)).trans (by rw [add_zero]; rfl)
  | one => exact (Over.add_fin (by simp; linarith)).trans (by rw [add_zero]; rfl)
  | @add a d h =>
    show Over.add (Over.add a d) (.fin 0) = Over.add a d
    cases a <;> cases d <;> first | rfl | exact fit0 _

theorem fit_zero : Over.fit 0 = .fin 0 := by
  have hb := big_ge
  norm_num at hb
  exact Over.fit_eq (by simp; linarith)

theorem lin_over {φ : Over → Over} (h : Lin φ) (hf : ∃ r, φ (.fin 1) = .fin r) : φ (.fin 0) = .fin 0 := by
  induction h with
  | id => rfl
  | @neg φ _ ih =>
    obtain ⟨r, hr⟩ := hf
    change Over.neg _ = _ at hr
    show Over.neg _ = _
    rw [ih]
    · simp [Over.neg]
    · cases e : φ (.fin 1) <;> rw [e] at hr <;> simp [Over.neg] at hr
      exact ⟨_, rfl⟩
  | @mul φ c _ ih =>
    obtain ⟨r, hr⟩ := hf
    change Over.mul _ _ = _ at hr
    show Over.mul _ _ = _
    cases e : φ (.fin 1) <;> cases c <;> rw [e] at hr <;> simp only [Over.mul] at hr <;>
      first
        | (rw [ih ⟨_, e⟩]
           simp only [Over.mul, zero_mul]
           exact fit_zero)
        | (exact absurd hr (by simp))
        | (exfalso; revert hr; split <;> (try split) <;> simp)
  | @mul' φ c _ ih =>
    obtain ⟨r, hr⟩ := hf
    change Over.mul _ _ = _ at hr
    show Over.mul _ _ = _
    cases e : φ (.fin 1) <;> cases c <;> rw [e] at hr <;> simp only [Over.mul] at hr <;>
      first
        | (rw [ih ⟨_, e⟩]
           simp only [Over.mul, mul_zero]
           exact fit_zero)
        | (exact absurd hr (by simp))
        | (exfalso; revert hr; split <;> (try split) <;> simp)
  | @div φ c _ ih =>
    obtain ⟨r, hr⟩ := hf
    change Over.div _ _ = _ at hr
    show Over.div _ _ = _
    cases e : φ (.fin 1) with
    | fin x =>
      rw [e] at hr
      rw [ih ⟨_, e⟩]
      cases c with
      | fin y =>
        simp only [Over.div, zero_div] at hr ⊢
        split at hr
        · exfalso; revert hr; split <;> (try split) <;> simp
        · rw [if_neg (by assumption)]
          exact fit_zero
      | pinf => rfl
      | ninf => rfl
      | nan => simp [Over.div] at hr
    | pinf =>
      rw [e] at hr
      cases c <;> simp only [Over.div] at hr <;> (try split at hr) <;> simp at hr
    | ninf =>
      rw [e] at hr
      cases c <;> simp only [Over.div] at hr <;> (try split at hr) <;> simp at hr
    | nan =>
      rw [e] at hr
      cases c <;> simp [Over.div] at hr
  | nan h =>
    obtain ⟨r, hr⟩ := hf
    exact absurd hr (by simp [Arith.nan])

/-- **C57**: in an arithmetic with infinities and NaN, a call of the library is quiet if its local derivatives are
finite. -/
theorem C57_finite (m : Make Over) (hm : m.Library) {ys : List Over} (hf : m.Finite (fun d => ∃ r, d = .fin r) ys) :
    m.Quiet ys :=
  quiet_of_lin (fun _ h h1 => lin_over h h1) (fun _ => total_over) m hm hf

/-! ## an unused result that matters -/

/-- `2 x` -/
def twice : Code Over := .make (.binVD .mul 0 (.fin 2)) (.ret [1])

/-- `2 x`, after an unused `sqrt(x)` -/
def twiceSqrt : Code Over := .make (.fn .sqrt 0) (.make (.binVD .mul 0 (.fin 2)) (.ret [2]))

variable {W : Type} [Rep W Over] [LawfulRep W Over] {c : Client W}

/-- **C57**, why only a part holds: after every history of correct calls, at `x = 0`, an unused `sqrt(x)` turns the
derivative of `2 x` from 2 into NaN. -/
theorem C57_refuted (h : Orderly (R := Over) false c) (hl : c.marks.length < 10)
    (room : c.st.tape.head + 22 ≤ tapeLimit) (full : ∀ j, c.st.tape.head + 15 ≠ 12288 * 2 ^ j + 1)
    (full' : ∀ j, c.st.tape.head + 22 ≠ 12288 * 2 ^ j + 1) :
    (∃ s', (gradient (twice.scalar []) [.fin 0] : M W (Over × List Over)) c.st = .ok ((.fin 0, [.fin 2]), s')) ∧
    ∃ s', (gradient (twiceSqrt.scalar []) [.fin 0] : M W (Over × List Over)) c.st = .ok ((.fin 0, [.nan]), s') := by
  have hb := big_ge
  norm_num at hb
  have n1 : Over.eq (.fin 2) (.fin 1) = false := by simp [Over.eq]
  have w1 : 6 * 1 + twice.words ([.fin 0] ++ []) = 15 := by
    simp [twice, Code.words, Make.words, Bin.wordsVD]
  have w2 : 6 * 1 + twiceSqrt.words ([.fin 0] ++ []) = 22 := by
    simp [twiceSqrt, Code.words, Make.words, Bin.wordsVD, Fn.words]
  have hv : (Bin.plainVD .mul (.fin 0) (.fin 2) : Over) = .fin 0 := by
    show (if Over.eq (.fin 2) (.fin 1) then _ else Over.fit (0 * 2)) = _
    rw [n1, zero_mul, fit_zero]
    rfl
  have hd : (Arith.add (.fin 0) (Arith.mul (.fin 1) (.fin 2)) : Over) = .fin 2 := by
    rw [Over.mul_fin (by rw [abs_of_pos] <;> norm_num; linarith), Over.add_fin (by rw [abs_of_pos] <;> norm_num; linarith)]
    norm_num
  refine ⟨?_, ?_⟩
  · obtain ⟨y, df, s', e, hb⟩ := gradient_by_code (W := W) (k := twice) (x := [.fin 0]) commutes_over h hl
      (fun xv s hx => rfl) ⟨⟨trivial, trivial⟩, ⟨trivial, trivial⟩, ⟨n1, trivial⟩, by
        simp [twice, Code.Meets, Make.args, Make.Meets, Make.plain], by simp [twice, Code.plain],
        by rw [show 6 * [Over.fin 0].length + _ = _ from w1]; omega, by rw [show 6 * [Over.fin 0].length + _ = _ from w1]; exact full⟩
    have h1 : twice.bookGradient [] [.fin 0] = some (Bin.plainVD .mul (.fin 0) (.fin 2),
      [Arith.add (.fin 0) (Arith.mul (.fin 1) (.fin 2))]) := rfl
    rw [h1, hv, hd] at hb
    cases hb
    exact ⟨s', e⟩
  · obtain ⟨y, df, s', e, hb⟩ := gradient_by_code (W := W) (k := twiceSqrt) (x := [.fin 0]) commutes_over h hl
      (fun xv s hx => rfl) ⟨⟨trivial, trivial, trivial⟩, ⟨by simp [Make.Plain], trivial, trivial⟩, ⟨trivial, n1, trivial⟩, by
        simp [twiceSqrt, Code.Meets, Make.args, Make.Meets, Make.plain, Fn.Meets], by simp [twiceSqrt, Code.plain],
        by rw [show 6 * [Over.fin 0].length + _ = _ from w2]; omega,
        by rw [show 6 * [Over.fin 0].length + _ = _ from w2]; exact full'⟩
    have h1 : twiceSqrt.bookGradient [] [.fin 0] = some (Bin.plainVD .mul (.fin 0) (.fin 2),
      [Arith.add (Arith.add (.fin 0) (Arith.mul (.fin 1) (.fin 2)))
        (Arith.div (Arith.mul Arith.half (.fin 0)) (Arith.sqrt (.fin 0)))]) := rfl
    have h2 : (Arith.div (Arith.mul Arith.half (.fin 0)) (Arith.sqrt (.fin 0)) : Over) = .nan := by
      rw [show (Arith.mul Arith.half (.fin 0) : Over) = .fin 0 by
        show Over.fit (1 / 2 * 0) = _
        rw [mul_zero]
        exact fit_zero]
      show Over.div (.fin 0) (if (0:ℝ) < 0 then _ else .fin √0) = _
      simp [Over.div]
    rw [h1, hv, hd, h2] at hb
    cases hb
    exact ⟨s', e⟩

/-- without any history -/
example : (∃ s', (gradient (twice.scalar []) [.fin 0] : M W (Over × List Over)) St.init = .ok ((.fin 0, [.fin 2]), s')) ∧
    ∃ s', (gradient (twiceSqrt.scalar []) [.fin 0] : M W (Over × List Over)) St.init = .ok ((.fin 0, [.nan]), s') :=
  C57_refuted (c := Client.init) .start (by simp [Client.init]) (by simp [Client.init, St.init, Tape.init, tapeLimit])
    (fun j => small_full (by simp [Client.init, St.init, Tape.init]) (by simp [Client.init, St.init, Tape.init]) j)
    (fun j => small_full (by simp [Client.init, St.init, Tape.init]) (by simp [Client.init, St.init, Tape.init]) j)

/-! ## The hypotheses are met -/

/-- `2 x`, with unused `exp(x)` and `sin(exp(x))` before -/
def twiceExp : Code Over := .make (.fn .exp 0) (.make (.fn .sin 1) (.make (.binVD .mul 0 (.fin 2)) (.ret [3])))

theorem sin_quiet (b : ℝ) {ys : List Over} {i : Nat} (hi : num ys i = .fin b) : (Make.fn .sin i).Quiet ys := by
  refine C57_finite (.fn _ i) trivial fun env T e => ⟨[⟨_, _, _⟩], rfl, ?_⟩
  have h1 : (opd env i).val = .fin b := by rw [opd_val, e, hi]
  intro c hc d hd
  rw [List.mem_singleton.mp hc] at hd
  simp only [Fn.pass, h1, List.mem_singleton] at hd
  have hb := big_ge
  norm_num at hb
  refine ⟨Real.cos b, ?_⟩
  rw [hd]
  show Over.fit (1 * Real.cos b) = _
  rw [one_mul]
  exact Over.fit_eq ((Real.abs_cos_le_one b).trans (by linarith))

theorem exp_quiet (b : ℝ) {ys : List Over} {i : Nat} (hi : num ys i = .fin b) (h : Real.exp b ≤ big) :
    (Make.fn .exp i).Quiet ys := by
  refine C57_finite (.fn _ i) trivial fun env T e => ⟨[⟨_, _, _⟩], rfl, ?_⟩
  have h1 : (opd env i).val = .fin b := by rw [opd_val, e, hi]
  intro c hc d hd
  rw [List.mem_singleton.mp hc] at hd
  simp only [Fn.pass, Fn.plain, h1, List.mem_singleton] at hd
  have h2 : (Arith.exp (.fin b) : Over) = .fin (Real.exp b) := Over.fit_eq (by rw [abs_of_pos (Real.exp_pos b)]; exact h)
  refine ⟨Real.exp b, ?_⟩
  rw [hd, h2]
  show Over.fit (1 * Real.exp b) = _
  rw [one_mul]
  exact Over.fit_eq (by rw [abs_of_pos (Real.exp_pos b)]; exact h)

/-- the programs `twice` and `twiceExp` at 0 -/
theorem twice_unused : Unused [.fin 0] [.fin 0] id twice twiceExp ∧ twice.Meets false [.fin 0] ∧ twice.Regular ∧
    twiceExp.Regular := by
  have hb := big_ge
  norm_num at hb
  have n1 : Over.eq (.fin 2) (.fin 1) = false := by simp [Over.eq]
  have h2 : (Arith.exp (Over.fin 0) : Over) = .fin (Real.exp 0) := Over.fit_eq (by simp; linarith)
  refine ⟨.extra (exp_quiet 0 rfl (by simp; linarith)) (.extra (sin_quiet (Real.exp 0) ?_)
    (.make (m := Make.binVD .mul 0 (Over.fin 2)) (σ := id) (.ret (is := [1])))), ?_, ⟨n1, trivial⟩, ⟨trivial, trivial, n1, trivial⟩⟩
  · simp only [Make.plain, Fn.plain, num]
    exact h2
  · simp [twice, Code.Meets, Make.args, Make.Meets, Make.plain]

/-- the calls succeed, and return the same -/
example : ∃ s' s'', (gradient (twice.scalar []) [.fin 0] : M W (Over × List Over)) St.init = .ok ((.fin 0, [.fin 2]), s') ∧
    (gradient (twiceExp.scalar []) [.fin 0] : M W (Over × List Over)) St.init = .ok ((.fin 0, [.fin 2]), s'') := by
  have w2 : 6 * 1 + twiceExp.words ([.fin 0] ++ []) = 29 := by
    simp [twiceExp, Code.words, Make.words, Bin.wordsVD, Fn.words]
  obtain ⟨hu, hm, hb, hb'⟩ := twice_unused
  obtain ⟨⟨s1, e1⟩, -⟩ := C57_refuted (W := W) (c := Client.init) .start (by simp [Client.init])
    (by simp [Client.init, St.init, Tape.init, tapeLimit])
    (fun j => small_full (by simp [Client.init, St.init, Tape.init]) (by simp [Client.init, St.init, Tape.init]) j)
    (fun j => small_full (by simp [Client.init, St.init, Tape.init]) (by simp [Client.init, St.init, Tape.init]) j)
  obtain ⟨y, df, s2, e2, -⟩ := gradient_by_code (W := W) (k := twiceExp) (x := [.fin 0]) (c := Client.init) commutes_over
    .start (by simp [Client.init]) (fun xv s hx => rfl) ⟨⟨trivial, trivial, trivial, trivial⟩,
      ⟨by simp [Make.Plain], by simp [Make.Plain], trivial, trivial⟩, hb', by
        simp [twiceExp, Code.Meets, Make.args, Make.Meets, Make.plain, Fn.Meets], by simp [twiceExp, Code.plain],
        by rw [show 6 * [Over.fin 0].length + _ = _ from w2]; simp [Client.init, St.init, Tape.init, tapeLimit],
        by
          rw [show 6 * [Over.fin 0].length + _ = _ from w2]
          exact fun j => small_full (by simp [Client.init, St.init, Tape.init]) (by simp [Client.init, St.init, Tape.init]) j⟩
  obtain ⟨l, hr⟩ := C52_reach (W := W) (R := Over) .start
  obtain ⟨rfl, rfl⟩ := C57_gradient_partial (f := twice) (f' := twiceExp) commutes_over hr (e := []) (by simp) ⟨trivial, trivial⟩ ⟨trivial, trivial⟩ hb
    ⟨trivial, trivial, trivial, trivial⟩ ⟨by simp [Make.Plain], by simp [Make.Plain], trivial, trivial⟩ hb' (ys := []) rfl
    hm hu e1 e2
  exact ⟨s1, s2, e1, e2⟩

end Props
