import Verif.Proof.FlowRun
import Verif.Props.Deep
import Verif.Props.Lenient

/-!
# C62: `gradient` and `jacobian` inside the function that is being differentiated, without checks of array shapes

Variables an outer function creates after an inner call take the place of variables of the inner function and keep
their chain procedures (C33).  With a compiler that checks array shapes this can stop the program, so
`Props/Deep.lean` speaks of calls that do not fail.  Without such checks every correct call completes, with the numbers
of the book, whatever lies in memory behind the end of arrays (`Junk`).
-/

set_option linter.unusedSectionVars false

namespace Fz
variable {W R : Type} [Arith R] [Rep W R]
open Arith Spec

theorem refines_ite {α : Type} {p : Prop} [Decidable p] {m m' n : M W α} (h : Refines m m') :
    Refines (if p then m else n) (if p then m' else n) := by
  split
  · exact h
  · exact .rfl

theorem refines_gradientOf (J : Junk W R) {f' f : List Var → M W Var} (h : ∀ xv, Refines (f' xv) (f xv)) (x : List R) :
    Refines (gradientL J f' x) (gradient f x) :=
  .bind .rfl fun _ => .bind .rfl fun _ => .bind (h _) fun _ => .bind .rfl fun _ => .bind (refines_grad _ _) fun _ => .rfl

theorem refines_jacobianOf (J : Junk W R) {f' f : List Var → Nat → M W (List Var)}
    (h : ∀ xv n, Refines (f' xv n) (f xv n)) (n : Nat) (x : List R) : Refines (jacobianL J f' n x) (jacobian f n x) :=
  .bind .rfl fun _ => .bind .rfl fun _ => .bind (h _ _) fun _ => .bind .rfl fun _ => .bind .rfl fun _ =>
    .bind (refines_jacLoop _ _ _) fun _ => .rfl

theorem refines_deep (J : Junk W R) (f : Deep R) : ∀ env, Refines (f.runL J env : M W (List Var)) (f.run env) := by
  induction f with
  | ret is => intro env; unfold Deep.runL Deep.run; exact .rfl
  | make m k ih =>
    intro env
    unfold Deep.runL Deep.run
    exact refines_ite (.bind .rfl fun _ => ih _)
  | look i k ih =>
    intro env
    unfold Deep.runL Deep.run
    exact refines_ite (.bind .rfl fun _ => ih _ _)
  | gradient f x is k ihf ihk =>
    intro env
    unfold Deep.runL Deep.run
    exact refines_ite (.bind (refines_gradientOf J (fun xv => .bind (ihf _) fun _ => .rfl) x) fun _ => ihk _ _ _)
  | jacobian f n x is k ihf ihk =>
    intro env
    unfold Deep.runL Deep.run
    exact refines_ite (.bind (refines_jacobianOf J (fun xv _ => ihf _) n x) fun _ => ihk _ _ _)

end Fz

namespace Props
open Fz Spec

section generic
variable {W R : Type} [Arith R] [Rep W R]

/-- **C62**: where the program with checks does not fail, the program without does the same, whatever is in memory. -/
theorem C62_agree (J : Junk W R) {f : Deep R} {e : List Var} {n : Nat} {x : List R} {s s' : St W} :
    (∀ r, gradient (f.scalar e) x s = .ok (r, s') → gradientL J (f.scalarL J e) x s = .ok (r, s')) ∧
    ∀ r, jacobian (f.vector e) n x s = .ok (r, s') → jacobianL J (f.vectorL J e) n x s = .ok (r, s') :=
  ⟨fun r h => refines_gradientOf J (fun _ => .bind (refines_deep J f _) fun _ => .rfl) x _ _ _ h,
    fun r h => refines_jacobianOf J (fun _ _ => refines_deep J f _) n x _ _ _ h⟩

variable [LawfulRep W R] {c : Client W}

/-- **C62**, outer `jacobian`, every interpretation of `real64` with commutative product: after every history of correct
calls a correct call completes and returns the numbers of the book, whatever is in memory; the variables of the caller
keep their values, and the tape is as long as before.  The inner functions may use variables of the outer one; functions
handed to an inner `gradient` make no inner calls themselves. -/
theorem C62_completes_jacobian (hc : Commutes R) (h : OrderlyL R c) {f : Deep R} {is : List Nat} {ys x : List R}
    (hf : f.ProperL c is ys x) (hk : f.Careful False) (hx : x ++ ys ≠ []) :
    ∃ s', (∀ J : Junk W R, jacobianL J (f.vectorL J (is.map (nth c.env))) (f.bookJacobian ys x).1.length x c.st =
        .ok (f.bookJacobian ys x, s')) ∧ OrderlyL R ⟨s', c.env, c.marks⟩ ∧ s'.tape.head = c.st.tape.head ∧
      (vals (is.map (nth c.env)) : M W (List R)) s' = .ok (ys, s') := by
  obtain ⟨d, g, val, adj, S⟩ := orderlyL_shadow hc h
  obtain ⟨s', e, h1, h2, -⟩ := S.deepJacobian hc False.elim hf hk hx
  exact ⟨s', e, .deepJacobian (fun _ _ _ _ => Arith.zero) f is ys x _ h hf hk hx (e _), h1, h2⟩

/-- **C62**: after such a history, with inner calls in the functions that were differentiated, every correct call
completes, with a result that does not depend on what is in memory. -/
theorem C62_then_call (hc : Commutes R) (h : OrderlyL R c) {k : Call R} (hk : k.ProperL c) :
    ∃ c', ∀ J : Junk W R, k.execL J c = .ok c' := by
  obtain ⟨d, g, val, adj, S⟩ := orderlyL_shadow hc h
  obtain ⟨c', e, -⟩ := S.exec hk
  exact ⟨c', e⟩

end generic

section real
variable {W : Type} [Rep W ℝ] [LawfulRep W ℝ] {c : Client W}

/-- **C62**, outer `jacobian`, real arithmetic: the same with inner calls at any depth (`f.Careful True`). -/
theorem C62_completes_jacobian_real (h : OrderlyS c) {f : Deep ℝ} {is : List Nat} {ys x : List ℝ}
    (hf : f.ProperL c is ys x) (hk : f.Careful True) (hx : x ++ ys ≠ []) :
    ∃ s', (∀ J : Junk W ℝ, jacobianL J (f.vectorL J (is.map (nth c.env))) (f.bookJacobian ys x).1.length x c.st =
        .ok (f.bookJacobian ys x, s')) ∧ OrderlyS ⟨s', c.env, c.marks⟩ ∧ s'.tape.head = c.st.tape.head ∧
      (vals (is.map (nth c.env)) : M W (List ℝ)) s' = .ok (ys, s') := by
  obtain ⟨d, g, val, adj, S⟩ := orderlyS_shadow commutes_real h
  obtain ⟨s', e, h1, h2, -⟩ := S.deepJacobian commutes_real (fun _ => quiet_real) hf hk hx
  exact ⟨s', e, .deepJacobian (fun _ _ _ _ => 0) f is ys x _ h hf hk hx (e _), h1, h2⟩

/-- **C62**, outer `gradient`, real arithmetic: the same, if the inner functions use no variables of the outer one
(`f.Apart True`).  Missing: inner functions that use them, for which the claim is false, see `C62_refuted`. -/
theorem C62_completes_gradient_partial (h : OrderlyS c) {f : Deep ℝ} {is : List Nat} {ys x : List ℝ}
    (hf : f.ProperL c is ys x) (ha : f.Apart True) (hk : f.Careful True) (hr : f.bookGradient ys x ≠ none) :
    ∃ r s', (∀ J : Junk W ℝ, gradientL J (f.scalarL J (is.map (nth c.env))) x c.st = .ok (r, s')) ∧
      f.bookGradient ys x = some r ∧ OrderlyS ⟨s', c.env, c.marks⟩ ∧ s'.tape.head = c.st.tape.head ∧
      (vals (is.map (nth c.env)) : M W (List ℝ)) s' = .ok (ys, s') := by
  obtain ⟨d, g, val, adj, S⟩ := orderlyS_shadow commutes_real h
  obtain ⟨r, s', e, hb, h1, h2, -⟩ := S.deepGradient commutes_real (fun _ => quiet_real) hf ha hk hr
  exact ⟨r, s', e, hb, .deepGradient (fun _ _ _ _ => 0) f is ys x _ h hf ha hk hr (e _), h1, h2⟩

/-! The hypotheses are met: `jacobian` for a function that hands one of its variables to an inner `gradient`, and then
`gradient` for a function whose inner function has no variables of others.  Both create variables after the inner call,
which take the place of the inner product. -/

theorem scaled_tidy (i j : Nat) (is : List Nat) : (scaled i j is).Tidy ∧ (scaled i j is).Careful True :=
  ⟨⟨⟨⟨trivial, trivial, trivial⟩, trivial⟩, fun _ _ => ⟨⟨trivial, trivial, trivial⟩, ⟨trivial, trivial, trivial⟩, trivial⟩⟩,
    ⟨trivial, trivial, fun _ _ => trivial⟩⟩

theorem few_not_full {n : Nat} (hn : n ≤ 100) (j : Nat) : n ≠ 12288 * 2 ^ j + 1 := by
  have := Nat.one_le_two_pow (n := j)
  omega

theorem inner_books : (Deep.make (.bin .mul 0 1) (.ret [2]) : Deep ℝ).bookGradient [3] [1] = some (3, [3]) ∧
    (Deep.make (.bin .mul 0 0) (.ret [1]) : Deep ℝ).bookGradient [] [1] = some (1, [2]) := by
  constructor <;>
  simp [Deep.bookGradient, gradientOf, stepsOf, Deep.write, Make.write,
    Log.next, Log.each, Log.ret, Bin.write, step, input, opd, rowOf, backFrom, receive, seed, List.range_succ, Bin.pass,
    Bin.plain, Arith.mul, Arith.one, Arith.zero, Arith.add]
  norm_num

theorem leaky_suits {c : Client W} (hm : c.marks = []) (hh : c.st.tape.head = 1) : leaky.ProperL c [] [] [3] := by
  refine ⟨by simp, rfl, (scaled_tidy _ _ _).1, by simp [hm], by simp [hh, tapeLimit], ?_, ?_⟩
  · rw [hm, hh]
    refine ⟨by simp, ⟨by simp, by simp [tapeLimit], ⟨by simp [Make.args], trivial, rfl, by simp [Make.words, tapeLimit], by simp [Deep.Suits, Make.plain]⟩,
      fun j => ?_⟩, 3, [3], ?_, ⟨by simp [Make.args], rfl, rfl, by simp [Make.words, tapeLimit], by simp [Make.args, Make.plain], trivial, rfl, by simp [Make.words, tapeLimit],
        by simp [Deep.Suits, Make.plain]⟩⟩
    · exact few_not_full (by simp [Deep.words, Make.words]) j
    · simpa [num] using inner_books.1
  · intro j
    have hb := inner_books.1
    refine few_not_full ?_ j
    simp [hh, leaky, scaled, Deep.words, Make.words, num, hb]

theorem tight_suits {c : Client W} (hm : c.marks = []) (hh : c.st.tape.head = 1) : tight.ProperL c [] [] [3] := by
  refine ⟨by simp, rfl, (scaled_tidy _ _ _).1, by simp [hm], by simp [hh, tapeLimit], ?_, ?_⟩
  · rw [hm, hh]
    refine ⟨by simp, ⟨by simp, by simp [tapeLimit], ⟨by simp [Make.args], trivial, rfl, by simp [Make.words, tapeLimit], by simp [Deep.Suits, Make.plain]⟩,
      fun j => ?_⟩, 1, [2], ?_, ⟨by simp [Make.args], rfl, rfl, by simp [Make.words, tapeLimit], by simp [Make.args, Make.plain], trivial, rfl, by simp [Make.words, tapeLimit],
        by simp [Deep.Suits, Make.plain]⟩⟩
    · exact few_not_full (by simp [Deep.words, Make.words]) j
    · simpa [num] using inner_books.2
  · intro j
    have hb := inner_books.2
    refine few_not_full ?_ j
    simp [hh, tight, scaled, Deep.words, Make.words, hb]

example : ∃ (s' s'' : St W), OrderlyS (⟨s', [], []⟩ : Client W) ∧
    (∀ J : Junk W ℝ, jacobianL J (leaky.vectorL J []) 1 [3] (St.init : St W) = .ok (([9], [[3]]), s')) ∧
    ∀ J : Junk W ℝ, gradientL J (tight.scalarL J []) [3] s' = .ok ((6, [2]), s'') := by
  obtain ⟨s', e, o, hh, -⟩ := C62_completes_jacobian_real (W := W) (c := Client.init) .start
    (leaky_suits rfl rfl) (scaled_tidy _ _ _).2 (by simp)
  rw [leaky_book.2] at e
  obtain ⟨r, s'', e', hb, -⟩ := C62_completes_gradient_partial o (tight_suits rfl hh) ⟨trivial, rfl, fun _ _ => trivial⟩
    (scaled_tidy _ _ _).2 (by rw [tight_book]; simp)
  rw [tight_book] at hb
  cases hb
  exact ⟨s', s'', o, e, e'⟩

end real

end Props
