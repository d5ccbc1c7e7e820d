import Verif.Proof.Textbook
import Verif.Props.Plain

/-!
# C49: the library is the textbook algorithm, to the last bit

`Code.bookGradient`, `Code.bookJacobian` (`Spec/Textbook.lean`) are reverse-mode differentiation over a plain list of
steps.  `gradient` and `jacobian` give exactly these numbers, for every interpretation of `real64` with commutative
product: no rounding error, NaN or infinity comes from the tape, the nesting or the variables of the caller.
-/

set_option linter.unusedSectionVars false

namespace Props
open Fz Spec

section generic
variable {W R : Type} [Arith R] [Rep W R] [LawfulRep W R]
variable {h : List (Call R)} {c : Client W}

/-- **C49**: after every history, for a program with branches that may use variables of the caller (values `ys`),
`gradient` returns value and derivatives of the textbook algorithm. -/
theorem C49_gradient (hc : Commutes R) (hr : Reach h c) {e : List Var} (he : ∀ v ∈ e, v ∈ c.env) {f : Code R}
    (hs : f.Sane) (hp : f.Plain) (hb : f.Regular) {ys : List R}
    (hy : (vals e : M W (List R)) c.st = .ok (ys, c.st)) {x df : List R} {y : R} {s' : St W}
    (hg : gradient (f.scalar e) x c.st = .ok ((y, df), s')) :
    f.bookGradient ys x = some (y, df) := by
  obtain ⟨g, val, adj, G, hv⟩ := reach_vals hr he hy
  exact gradient_book hc G hs hp hb hv hg

/-- **C49**: after every history `jacobian` returns the values and the rows of the textbook algorithm, one sweep per
component. -/
theorem C49_jacobian (hc : Commutes R) (hr : Reach h c) {e : List Var} (he : ∀ v ∈ e, v ∈ c.env) {f : Code R}
    (hs : f.Sane) (hp : f.Plain) (hb : f.Regular) {ys : List R}
    (hy : (vals e : M W (List R)) c.st = .ok (ys, c.st)) {n : Nat} {x fx : List R} {J : List (List R)} {s' : St W}
    (hg : jacobian (f.vector e) n x c.st = .ok ((fx, J), s')) :
    f.bookJacobian ys x = (fx, J) := by
  obtain ⟨g, val, adj, G, hv⟩ := reach_vals hr he hy
  exact jacobian_book hc G hs hp hb hv hg

end generic

/-! The hypotheses are met; the book computes what it should. -/

example : branchCode.Regular := by
  intro x y
  dsimp only
  split <;> simp [Code.Regular, Make.Regular]

/-- `sin x * y` has derivatives `y * cos x` and `sin x` -/
example {x y : ℝ} (hxy : x < y) :
    branchCode.bookGradient [] [x, y] = some (Real.sin x * y, [y * Real.cos x, Real.sin x]) := by
  have e : branchCode.write [⟨some 0, x⟩, ⟨some 1, y⟩] =
      Code.write (.make (.fn .sin 0) (.make (.bin .mul 2 1) (.ret [3]))) [⟨some 0, x⟩, ⟨some 1, y⟩] := by
    show Code.write (if x < y then _ else _) _ = _
    rw [if_pos hxy]
  unfold Code.bookGradient Code.steps
  simp only [Log.next, Log.each, input, step, Log.ret, List.map_nil, List.append_nil, List.length_nil, List.nil_append,
    List.length_singleton]
  rw [e]
  simp only [Code.write, Make.write, Log.next, Log.each, Log.ret, Fn.write, Bin.write, step, opd, rowOf]
  simp [opd, backFrom, receive, seed, List.range_succ, Fn.pass, Bin.pass, Fn.plain, Bin.plain, Arith.mul, Arith.one,
    Arith.zero, Arith.add, Arith.sin, Arith.cos]

/-- after the history `demo` the calls succeed; the function uses a variable of the caller, with value 2 -/
example {W : Type} [Rep W ℝ] [LawfulRep W ℝ] : ∃ (c : Client W) (y : ℝ) (df : List ℝ) (s' : St W), Reach demo c ∧
    (vals c.env : M W (List ℝ)) c.st = .ok ([2, 3, 6], c.st) ∧ (mulCode 0 1 4).Sane ∧ (mulCode 0 1 4).Plain ∧
    (mulCode 0 1 4).Regular ∧ gradient ((mulCode 0 1 4).scalar c.env) [5] c.st = .ok ((y, df), s') ∧
    (mulCode 0 1 4).bookGradient [2, 3, 6] [5] = some (y, df) := by
  obtain ⟨c, ⟨y, df⟩, -, s1, -, hr, -, hs, e, -⟩ := times_twice (W := W)
  obtain ⟨c', hr', hv⟩ := demo_real (W := W)
  have hcc : c' = c := by
    have h1 := hr.2
    rw [hr'.2] at h1
    exact Except.ok.inj h1
  subst hcc
  have hp : (mulCode 0 1 4).Plain := ⟨trivial, trivial⟩
  have hb : (mulCode 0 1 4).Regular := ⟨trivial, trivial⟩
  exact ⟨c', y, df, s1, hr, hv, hs, hp, hb, e, C49_gradient commutes_real hr (fun _ h => h) hs hp hb hv e⟩

end Props
