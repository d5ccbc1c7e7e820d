import Verif.Props.Chosen
import Verif.Props.Unused
import Verif.Props.Nan
import Verif.Props.Rounding
import Verif.Props.Literal
import Verif.Props.Deep
import Verif.Props.Neutral
import Verif.Props.Nesting

/-!
# Further concrete cases that meet the hypotheses of theorems in `Verif/Props`

Mostly theorems about `jacobian` whose companion about `gradient` has a case beside it.
-/

set_option linter.unusedSectionVars false

namespace Props
open Fz Spec Arith

section generic
variable {R W : Type} [Arith R] [Rep W R] [LawfulRep W R] {c : Client W}

/-- a correct call of `jacobian` completes -/
theorem jacobian_case (hc : Commutes R) (o : Orderly (R := R) false c) (hl : c.marks.length < 10) {e : List Var}
    (he : ∀ v ∈ e, v ∈ c.env) {ys : List R} (hy : (vals e : M W (List R)) c.st = .ok (ys, c.st)) {f : Code R} {n : Nat}
    {x : List R} (hq : (Ask.jacobian f n x).Suits false c.st.tape.head ys) :
    ∃ fx J s', jacobian (f.vector e) n x c.st = .ok ((fx, J), s') := by
  obtain ⟨r, s', e1, -⟩ := C52_ask (q := .jacobian f n x) hc o hl he hy hq
  obtain ⟨⟨fx, J⟩, s1, e2, -⟩ := Fz.bind_inv e1
  exact ⟨fx, J, s1, e2⟩

/-- a client with one variable, of value `b` -/
theorem one_variable (hc : Commutes R) (b : R) : ∃ (h : List (Call R)) (c : Client W), Reach h c ∧
    Orderly (R := R) false c ∧ (vals c.env : M W (List R)) c.st = .ok ([b], c.st) ∧ c.st.tape.head = 7 ∧ c.marks = [] := by
  have e0 : (vals (Client.init : Client W).env : M W (List R)) (Client.init : Client W).st = .ok ([], Client.init.st) := rfl
  obtain ⟨c, -, o, v, hh, hm⟩ := C52_make (m := .new b) hc (Orderly.start (W := W))
    ⟨by simp [Call.args, Make.args], trivial, trivial, [], e0, rfl, by
      simp [Client.init, St.init, Tape.init, Make.words, tapeLimit]⟩ trivial e0
  obtain ⟨h, hr⟩ := C52_reach o
  exact ⟨h, c, hr, o, v, hh, by rw [hm]; rfl⟩

/-- of `C75_jacobian`: the code `exp(x y) z` -/
example (hc : Commutes R) (a b d : R) : ∃ (h : List (Call R)) (c : Client W) (fx fx' : List R) (J J' : List (List R))
    (s s' : St W), Reach h c ∧ (vals c.env : M W (List R)) c.st = .ok ([b], c.st) ∧ (expTimes : Code R).Sane ∧
    (expTimes : Code R).Plain ∧ (expTimes : Code R).Regular ∧ (expTimes : Code R).Meets false ([a, b, d] ++ []) ∧
    Stands turn ([a, b, d] ++ []) ([d, a] ++ [b]) ∧
    jacobian ((expTimes : Code R).vector []) 1 [a, b, d] c.st = .ok ((fx, J), s) ∧
    jacobian (((expTimes : Code R).rename turn 3 3).vector c.env) 1 [d, a] c.st = .ok ((fx', J'), s') := by
  obtain ⟨h, c, hr, o, v, hd, hm⟩ := one_variable (W := W) hc b
  have hs : (expTimes : Code R).Sane := ⟨trivial, trivial, trivial, trivial⟩
  have hp : (expTimes : Code R).Plain := ⟨trivial, by simp [Make.Plain], trivial, trivial⟩
  have hb : (expTimes : Code R).Regular := ⟨trivial, trivial, trivial, trivial⟩
  have me : (expTimes : Code R).Meets false ([a, b, d] ++ []) := by
    refine ⟨?_, trivial, ?_, ?_, ?_, trivial, ?_⟩ <;> simp [Make.args, Make.plain, Code.Meets, Make.Meets, Fn.Meets]
  have me' : ((expTimes : Code R).rename turn 3 3).Meets false ([d, a] ++ [b]) := by
    refine ⟨?_, trivial, ?_, ?_, ?_, trivial, ?_⟩ <;>
      simp [Make.args, Make.plain, Code.Meets, Make.Meets, Fn.Meets, Make.rename, turn, after, Make.results, Code.rename]
  have hσ : Stands turn ([a, b, d] ++ []) ([d, a] ++ [b]) := by
    refine ⟨?_, ?_, ?_⟩
    · intro i _
      exact Nat.mod_lt _ (by decide)
    · intro i hi
      match i, hi with
      | 0, _ => rfl
      | 1, _ => rfl
      | 2, _ => rfl
    · intro i j hi hj e
      simp only [List.append_nil, List.length_cons, List.length_nil] at hi hj
      simp only [turn] at e
      omega
  obtain ⟨fx, J, s, e⟩ := jacobian_case hc o (by simp [hm]) (e := []) (by simp) (ys := []) rfl (f := expTimes) (n := 1)
    (x := [a, b, d]) (by
      rw [hd]
      refine ⟨hs, hp, hb, me, by simp, by simp [expTimes, Code.plain], ?_, ?_⟩
      · show 7 + (6 * 3 + 23) ≤ tapeLimit
        simp [tapeLimit]
      · intro j
        show 7 + (6 * 3 + 23) ≠ _
        have := Nat.one_le_two_pow (n := j)
        omega)
  obtain ⟨fx', J', s', e'⟩ := jacobian_case hc o (by simp [hm]) (fun _ h => h) v
    (f := (expTimes : Code R).rename turn 3 3) (n := 1) (x := [d, a]) (by
      rw [hd]
      refine ⟨rename_sane _ _ _ _ hs, rename_plain _ _ _ _ hp, rename_regular _ _ _ _ hb, me', by simp, by
        simp [expTimes, Code.plain, Code.rename], ?_, ?_⟩
      · show 7 + (6 * 2 + 23) ≤ tapeLimit
        simp [tapeLimit]
      · intro j
        show 7 + (6 * 2 + 23) ≠ _
        have := Nat.one_le_two_pow (n := j)
        omega)
  exact ⟨h, c, fx, fx', J, J', s, s', hr, v, hs, hp, hb, me, hσ, e, e'⟩

/-- `x y` -/
def times : Code R := .make (.bin .mul 0 1) (.ret [2])

/-- of `C75_fewer`: `x y` by `x` and `y`, and by `x` where `y` is a variable of the caller -/
example (hc : Commutes R) (a b : R) : ∃ (h : List (Call R)) (c : Client W) (y y' : R) (df df' : List R)
    (s s' : St W), Reach h c ∧ (vals c.env : M W (List R)) c.st = .ok ([b] ++ [], c.st) ∧ (times : Code R).Sane ∧
    (times : Code R).Plain ∧ (times : Code R).Regular ∧ (times : Code R).Meets false ([a] ++ [b] ++ []) ∧
    gradient ((times : Code R).scalar []) ([a] ++ [b]) c.st = .ok ((y, df), s) ∧
    gradient ((times : Code R).scalar c.env) [a] c.st = .ok ((y', df'), s') := by
  obtain ⟨h, c, hr, o, v, hd, hm⟩ := one_variable (W := W) hc b
  have hs : (times : Code R).Sane := ⟨trivial, trivial⟩
  have hp : (times : Code R).Plain := ⟨trivial, trivial⟩
  have hb : (times : Code R).Regular := ⟨trivial, trivial⟩
  have me : (times : Code R).Meets false [a, b] := by
    simp [times, Code.Meets, Make.args, Make.Meets, Make.plain]
  have w : (times : Code R).words [a, b] = 8 := rfl
  obtain ⟨r, s, e, -⟩ := C52_ask (q := .gradient (times : Code R) [a, b]) hc o (by simp [hm]) (e := []) (by simp) (ys := []) rfl (by
    rw [hd]
    refine ⟨hs, hp, hb, me, by simp [times, Code.plain], ?_, fun j => ?_⟩
    · show 7 + (6 * 2 + 8) ≤ tapeLimit
      simp [tapeLimit]
    · show 7 + (6 * 2 + 8) ≠ _
      have := Nat.one_le_two_pow (n := j)
      omega)
  obtain ⟨r', s', e', -⟩ := C52_ask (q := .gradient (times : Code R) [a]) hc o (by simp [hm]) (fun _ h => h) v (by
    rw [hd]
    refine ⟨hs, hp, hb, me, by simp [times, Code.plain], ?_, fun j => ?_⟩
    · show 7 + (6 * 1 + 8) ≤ tapeLimit
      simp [tapeLimit]
    · show 7 + (6 * 1 + 8) ≠ _
      have := Nat.one_le_two_pow (n := j)
      omega)
  obtain ⟨⟨y, df⟩, s1, e1, -⟩ := Fz.bind_inv e
  obtain ⟨⟨y', df'⟩, s1', e1', -⟩ := Fz.bind_inv e'
  exact ⟨h, c, y, y', df, df', s1, s1', hr, v, hs, hp, hb, me, e1, e1'⟩

/-- of `C75_fewer_rows`: the same with `jacobian` -/
example (hc : Commutes R) (a b : R) : ∃ (h : List (Call R)) (c : Client W) (fx fx' : List R) (J J' : List (List R))
    (s s' : St W), Reach h c ∧ (vals c.env : M W (List R)) c.st = .ok ([b] ++ [], c.st) ∧ (times : Code R).Sane ∧
    (times : Code R).Plain ∧ (times : Code R).Regular ∧ (times : Code R).Meets false ([a] ++ [b] ++ []) ∧
    jacobian ((times : Code R).vector []) 1 ([a] ++ [b]) c.st = .ok ((fx, J), s) ∧
    jacobian ((times : Code R).vector c.env) 1 [a] c.st = .ok ((fx', J'), s') := by
  obtain ⟨h, c, hr, o, v, hd, hm⟩ := one_variable (W := W) hc b
  have hs : (times : Code R).Sane := ⟨trivial, trivial⟩
  have hp : (times : Code R).Plain := ⟨trivial, trivial⟩
  have hb : (times : Code R).Regular := ⟨trivial, trivial⟩
  have me : (times : Code R).Meets false [a, b] := by
    simp [times, Code.Meets, Make.args, Make.Meets, Make.plain]
  obtain ⟨fx, J, s, e⟩ := jacobian_case hc o (by simp [hm]) (e := []) (by simp) (ys := []) rfl (f := times) (n := 1)
    (x := [a, b]) (by
      rw [hd]
      refine ⟨hs, hp, hb, me, by simp, by simp [times, Code.plain], ?_, fun j => ?_⟩
      · show 7 + (6 * 2 + 8) ≤ tapeLimit
        simp [tapeLimit]
      · show 7 + (6 * 2 + 8) ≠ _
        have := Nat.one_le_two_pow (n := j)
        omega)
  obtain ⟨fx', J', s', e'⟩ := jacobian_case hc o (by simp [hm]) (fun _ h => h) v (f := times) (n := 1) (x := [a]) (by
      rw [hd]
      refine ⟨hs, hp, hb, me, by simp, by simp [times, Code.plain], ?_, fun j => ?_⟩
      · show 7 + (6 * 1 + 8) ≤ tapeLimit
        simp [tapeLimit]
      · show 7 + (6 * 1 + 8) ≠ _
        have := Nat.one_le_two_pow (n := j)
        omega)
  exact ⟨h, c, fx, fx', J, J', s, s', hr, v, hs, hp, hb, me, e, e'⟩

end generic

section over
variable [SumOrder] {W : Type} [Rep W Over] [LawfulRep W Over]

/-- of `C57_jacobian_partial` -/
example : ∃ (fx fx' : List Over) (J J' : List (List Over)) (s s' : St W), Unused ([.fin 0] ++ []) ([.fin 0] ++ []) id twice twiceExp ∧
    jacobian (twice.vector []) 1 [.fin 0] (Client.init : Client W).st = .ok ((fx, J), s) ∧
    jacobian (twiceExp.vector []) 1 [.fin 0] (Client.init : Client W).st = .ok ((fx', J'), s') := by
  obtain ⟨hu, hm, hb, hb'⟩ := twice_unused
  have w1 : 6 * 1 + twice.words ([.fin 0] ++ []) ≤ 50 := by
    simp [twice, Code.words, Make.words, Bin.wordsVD]
  have w2 : 6 * 1 + twiceExp.words ([.fin 0] ++ []) ≤ 50 := by
    simp [twiceExp, Code.words, Make.words, Bin.wordsVD, Fn.words]
  have hh : (Client.init : Client W).st.tape.head = 1 := rfl
  obtain ⟨fx, J, s, e⟩ := jacobian_case (W := W) (c := Client.init) commutes_over .start (by simp [Client.init]) (e := [])
    (by simp) (ys := []) rfl (f := twice) (n := 1) (x := [.fin 0]) ⟨⟨trivial, trivial⟩, ⟨trivial, trivial⟩, hb, hm, by simp,
      rfl, by
        rw [hh]
        simp only [List.length_singleton, tapeLimit]
        omega, fun j => by
        rw [hh]
        have := Nat.one_le_two_pow (n := j)
        simp only [List.length_singleton]
        omega⟩
  obtain ⟨fx', J', s', e'⟩ := jacobian_case (W := W) (c := Client.init) commutes_over .start (by simp [Client.init])
    (e := []) (by simp) (ys := []) rfl (f := twiceExp) (n := 1) (x := [.fin 0]) ⟨⟨trivial, trivial, trivial, trivial⟩,
      ⟨by simp [Make.Plain], by simp [Make.Plain], trivial, trivial⟩, hb', by
        simp [twiceExp, Code.Meets, Make.args, Make.Meets, Make.plain, Fn.Meets], by simp, rfl, by
        rw [hh]
        simp only [List.length_singleton, tapeLimit]
        omega, fun j => by
        rw [hh]
        have := Nat.one_le_two_pow (n := j)
        simp only [List.length_singleton]
        omega⟩
  exact ⟨fx, fx', J, J', s, s', hu, e, e'⟩

/-- of `C74_jacobian` -/
example : ∃ (h : List (Call Over)) (c : Client W) (fx : List Over) (J : List (List Over)) (s' : St W), Reach h c ∧
    (vals c.env : M W (List Over)) c.st = .ok ([.nan], c.st) ∧ expMul.Sane ∧ expMul.Plain ∧
    jacobian (expMul.vector c.env) 1 [.fin 3] c.st = .ok ((fx, J), s') ∧
    (expMul.spoils ([.fin 3] ++ [.nan]) (nans ([Over.fin 3] ++ [.nan])))[0]? = some true := by
  obtain ⟨h, c, hr, o, v, hd, hm⟩ := one_variable (W := W) commutes_over (Over.nan)
  have hs : expMul.Sane := ⟨trivial, trivial, trivial⟩
  have hp : expMul.Plain := ⟨trivial, by simp [Make.Plain], trivial⟩
  have sp : (expMul.spoils ([.fin 3] ++ [.nan]) (nans ([Over.fin 3] ++ [.nan])))[0]? = some true := by
    have : isNanD (Over.nan) = true := nan_iff.mpr rfl
    have h3 : isNanD (Over.fin 3) = false := by simp [isNanD, fne, Arith.feq, Over.eq]
    simp [expMul, Code.spoils, Make.spoils, Make.reads, Bin.reads, Operand.spoilt, nans, this, h3]
  obtain ⟨fx, J, s, e⟩ := jacobian_case commutes_over o (by simp [hm]) (fun _ h => h) v (f := expMul) (n := 1)
    (x := [.fin 3]) (by
      rw [hd]
      refine ⟨hs, hp, ⟨trivial, trivial, trivial⟩, ?_, by simp, ?_, ?_, ?_⟩
      · refine ⟨?_, trivial, ?_, ?_, ?_⟩
        · simp [Make.args]
        · simp [Make.args, Make.plain]
        · trivial
        · simp [Code.Meets, Make.plain]
      · simp [expMul, Code.plain]
      · show 7 + (6 * 1 + 15) ≤ tapeLimit
        simp [tapeLimit]
      · intro j
        show 7 + (6 * 1 + 15) ≠ _
        have := Nat.one_le_two_pow (n := j)
        omega)
  exact ⟨h, c, fx, J, s, hr, v, hs, hp, e, sp⟩

/-- of `C74_call` -/
example : ∃ (h : List (Call Over)) (c : Client W) (vs : List Var) (s' : St W), Reach h c ∧
    (vals c.env : M W (List Over)) c.st = .ok ([.nan], c.st) ∧
    (Make.fn .exp 0 : Make Over).call c.env c.st = .ok (vs, s') ∧ vs.length = 1 ∧
    ((Make.fn .exp 0 : Make Over).spoils [.nan] (nans [Over.nan]))[0]? = some true := by
  obtain ⟨h, c, hr, o, v, hd, hm⟩ := one_variable (W := W) commutes_over (Over.nan)
  obtain ⟨c', e, -, v', -⟩ := C52_make (m := .fn .exp 0) commutes_over o ⟨by
    have := mapM_length _ _ v
    simp [Call.args, Make.args] at *
    omega, trivial, trivial, _, v, by simp [Make.Meets, Fn.Meets], by
      rw [hd]; simp [Make.words, Fn.words, tapeLimit]⟩ (by simp [Make.Plain]) v
  have sp : ((Make.fn .exp 0 : Make Over).spoils [.nan] (nans [Over.nan]))[0]? = some true := by
    have : isNanD (Over.nan) = true := nan_iff.mpr rfl
    simp [Make.spoils, Make.reads, Operand.spoilt, nans, this]
  unfold Call.exec at e
  split at e
  · simp only [Call.step] at e
    cases hm : (Make.fn .exp 0 : Make Over).call c.env c.st with
    | error err => rw [hm] at e; cases e
    | ok r =>
      rw [hm] at e
      cases e
      have l1 := mapM_length _ _ v
      have l2 := mapM_length _ _ v'
      refine ⟨h, c, r.1, r.2, hr, v, hm, ?_, sp⟩
      simp [Make.plain] at l1 l2
      omega
  · cases e

/-- of `C74_inv_square` -/
example : ∃ (h : List (Call Over)) (c : Client W) (v w : Var) (s' : St W), Reach h c ∧ v ∈ existing c.st ∧
    (isNanV (R := Over) v : M W Bool) c.st = .ok (true, c.st) ∧ (invSquareV (R := Over) v : M W Var) c.st = .ok (w, s') := by
  obtain ⟨h, c, hr, o, v, hd, hm⟩ := one_variable (W := W) commutes_over (Over.nan)
  obtain ⟨g, val, adj, G⟩ := hr.good
  obtain ⟨x, hx⟩ := List.length_eq_one_iff.mp (mapM_length _ _ v).symm
  have hh : g.Has x := G.has x (by simp [hx])
  have hv : val (g.pos x) = .nan := by
    have := G.inv.varVals (vs := [x]) (by simpa using hh)
    rw [← hx, v] at this
    injection this with this
    injection this with this
    rw [hx] at this
    simpa using this.symm
  obtain ⟨c', e⟩ := C52_call (k := .make (.fn .invSquare 0)) o ⟨by simp [Call.args, Make.args, hx], trivial, trivial, _, v,
    by simp [Make.Meets, Fn.Meets], by rw [hd]; simp [Make.words, Fn.words, tapeLimit]⟩
  have e1 : (isNanV (R := Over) x : M W Bool) c.st = .ok (true, c.st) := by
    unfold isNanV
    rw [bind_ok (G.inv.varVal hh), hv]
    have : isNanD (Over.nan) = true := nan_iff.mpr rfl
    rw [this]
    rfl
  have hex : x ∈ existing c.st := (mem_existing G.inv).mpr hh
  unfold Call.exec at e
  split at e
  · simp only [Call.step] at e
    cases hm : (Make.fn .invSquare 0 : Make Over).call c.env c.st with
    | error err => rw [hm] at e; cases e
    | ok r =>
      simp only [Make.call, single] at hm
      obtain ⟨w, s1, e2, -⟩ := Fz.bind_inv hm
      rw [hx] at e2
      exact ⟨h, c, x, w, s1, hr, hex, e1, e2⟩
  · cases e

/-- of `C74_program` -/
example : ∃ (h : List (Call Over)) (c : Client W) (vs : List Var) (s' : St W), Reach h c ∧
    (vals c.env : M W (List Over)) c.st = .ok ([.nan], c.st) ∧
    ((Code.make (.fn .exp 0) (.ret [1]) : Code Over).run c.env : M W (List Var)) c.st = .ok (vs, s') ∧ vs.length = 1 ∧
    ((Code.make (.fn .exp 0) (.ret [1]) : Code Over).spoils [.nan] (nans [Over.nan]))[0]? = some true := by
  obtain ⟨h, c, hr, o, v, hd, hm⟩ := one_variable (W := W) commutes_over (Over.nan)
  obtain ⟨x, hx⟩ := List.length_eq_one_iff.mp (mapM_length _ _ v).symm
  obtain ⟨c', e⟩ := C52_call (k := .make (.fn .exp 0)) o ⟨by simp [Call.args, Make.args, hx], trivial, trivial, _, v,
    by simp [Make.Meets, Fn.Meets], by rw [hd]; simp [Make.words, Fn.words, tapeLimit]⟩
  have sp : ((Code.make (.fn .exp 0) (.ret [1]) : Code Over).spoils [.nan] (nans [Over.nan]))[0]? = some true := by
    have : isNanD (Over.nan) = true := nan_iff.mpr rfl
    simp [Code.spoils, Make.spoils, Make.reads, Operand.spoilt, nans, this]
  unfold Call.exec at e
  split at e
  · simp only [Call.step] at e
    cases hm : (Make.fn .exp 0 : Make Over).call c.env c.st with
    | error err => rw [hm] at e; cases e
    | ok r =>
      have hl : ∃ w, r.1 = [w] := by
        simp only [Make.call, single] at hm
        obtain ⟨w, s1, -, k⟩ := Fz.bind_inv hm
        injection k with k
        exact ⟨w, (Prod.mk.inj k).1.symm⟩
      obtain ⟨w, hw⟩ := hl
      refine ⟨h, c, [w], r.2, hr, v, ?_, rfl, sp⟩
      unfold Code.run
      rw [if_pos (by simp [Make.args, hx]), bind_ok hm, hw, hx]
      rfl
  · cases e

end over

section rounding

/-- of `C54_jacobian` -/
example (x y : Flo rounded) (hx : x.real ≠ 0) : ∃ fx J s', (quotCode (F := rounded)).Tame ([x, y] ++ []) ∧
    (jacobian (quotCode.vector []) 1 [x, y] : M (Flo rounded) (List (Flo rounded) × List (List (Flo rounded))))
      (Client.init : Client (Flo rounded)).st = .ok ((fx, J), s') := by
  obtain ⟨fx, J, s, e⟩ := jacobian_case (W := Flo rounded) (c := Client.init) commutes_flo .start (by simp [Client.init]) (e := [])
    (by simp) (ys := []) rfl (f := quotCode) (n := 1) (x := [x, y]) ⟨⟨trivial, trivial, trivial, trivial⟩,
      ⟨by simp [Make.Plain], trivial, trivial, trivial⟩, ⟨trivial, trivial, trivial, trivial⟩, by
      simp [quotCode, Code.Meets, Make.args, Make.Meets, Make.plain, Fn.Meets], by simp, by simp [quotCode, Code.plain],
      by simp [quotCode, Code.words, Make.words, Fn.words, Client.init, St.init, Tape.init, tapeLimit], by
      intro j
      have := Nat.one_le_two_pow (n := j)
      simp [quotCode, Code.words, Make.words, Fn.words, Client.init, St.init, Tape.init]
      omega⟩
  exact ⟨fx, J, s, ⟨trivial, trivial, hx, trivial⟩, e⟩

end rounding

section real
variable {W : Type} [Rep W ℝ] [LawfulRep W ℝ]

/-- of `C11_adjoints`: a region in which one variable is created -/
example : ∃ c c' : Client W, Reach demo c ∧ Balanced [Call.make (.new (5:ℝ))] ∧
    run (Call.begin :: [Call.make (.new (5:ℝ))] ++ [Call.done]) c = .ok c' ∧
    (∀ k ∈ [Call.make (.new (5:ℝ))], k.sweeps = false) ∧ (⟨2⟩ : Var) ∈ existing c.st := by
  obtain ⟨c, hr, he, hm, H⟩ := demo_here (W := W)
  obtain ⟨e0, H0⟩ := H.begin (by simp [maxNestedStack])
  obtain ⟨s1, e1, H1⟩ := H0.newVar 5 (by simp [cap])
  have k0 : (Call.begin : Call ℝ).exec c = .ok ⟨c.st.begun, [⟨1⟩, ⟨2⟩, ⟨3⟩], [3]⟩ := by
    have := exec_begin e0
    rw [he, hm] at this
    exact this
  have k1 : (Call.make (R := ℝ) (.new 5)).exec (⟨c.st.begun, [⟨1⟩, ⟨2⟩, ⟨3⟩], [3]⟩ : Client W) =
      .ok ⟨s1, [⟨1⟩, ⟨2⟩, ⟨3⟩, ⟨4⟩], [3]⟩ :=
    exec_make (c := ⟨c.st.begun, [⟨1⟩, ⟨2⟩, ⟨3⟩], [3]⟩) (vs := [⟨4⟩]) (by simp [Make.args])
      (bind_ok (f := fun v => pure [v]) e1)
  have hr2 := Reach.snoc (Reach.snoc hr (k := .begin) trivial k0) (k := .make (.new 5)) trivial k1
  obtain ⟨hl, -, -⟩ := H1.inner (l := [])
  obtain ⟨c', hc'⟩ := (C36_end_nested_partial hr2 (show 0 < s1.level by omega)).1 (by
    have := size_big H1.inv (by rw [H1.head]; omega)
    show s1.tape.head ≤ s1.tape.size
    rw [H1.head]
    omega)
  refine ⟨c, c', hr, rfl, ?_, by simp [Call.sweeps], ?_⟩
  · simp only [List.cons_append, List.nil_append]
    rw [run_one k0, run_one k1, run_one hc']
    rfl
  · simp [existing, H.inv.vhead, demoG, List.range_succ]

/-- of `C17_negative`: the hypotheses after `x = var(-3)` -/
example : ∃ c : Client W, Reach [.make (.new (-3:ℝ))] c ∧ ((⟨1⟩ : Var).val : M W ℝ) c.st = .ok (-3, c.st) ∧
    c.st.tape.head + 7 ≤ tapeLimit ∧ (⟨1⟩ : Var) ∈ existing c.st ∧ Rates c.st ⟨1⟩ (fun _ => (1:ℝ)) := by
  have H := Here.init (W := W) (fun _ => (0 : ℝ)) fun _ => 0
  obtain ⟨s1, e1, H1⟩ := H.newVar (-3) (by simp [cap])
  have k1 : (Call.make (R := ℝ) (.new (-3))).exec (Client.init : Client W) = .ok ⟨s1, [⟨1⟩], []⟩ :=
    exec_make (c := Client.init) (vs := [⟨1⟩]) (by simp [Make.args]) (bind_ok (f := fun v => pure [v]) e1)
  have hex : existing s1 = [⟨1⟩] := by
    have := H1.inv.vhead
    simp [existing, this, Graph.push, Graph.empty, List.range_succ]
  have hhas : (Graph.empty.push (⟨1, [], [], unused ((Graph.empty : Graph ℝ).nodes.length + 1), .plain⟩ : Node ℝ)).Has ⟨1⟩ := by
    simp [Graph.Has, Graph.empty, Graph.push]
  refine ⟨⟨s1, [⟨1⟩], []⟩, ⟨by simp [Call.Sane, Make.Sane], ?_⟩, ?_, ?_, ?_, ?_⟩
  · rw [run_one k1]
    rfl
  · rw [H1.inv.varVal hhas]
    simp [Graph.pos, Graph.push, Graph.empty, upd]
  · rw [H1.head]; simp [tapeLimit]
  · simp [hex]
  · intro v hv
    obtain rfl : v = ⟨1⟩ := by simpa [hex] using hv
    obtain ⟨s2, e2, h2⟩ := H1.zeroAll
    obtain ⟨s3, e3, h3⟩ := h2.grad hhas (by
      intro nd hn
      have : nd = ⟨1, [], [], .dummy, .plain⟩ := by simpa [Graph.push, Graph.empty, unused] using hn
      rw [this]
      intro a
      exact ⟨_, rfl⟩)
    unfold rate partialOf
    rw [bind_ok e2, bind_ok e3, h3.inv.varAdj hhas]
    simp [sweep, Graph.push, Graph.empty, Node.args, Node.cl, Node.contrib, contribPlain, addAll, Graph.pos, upd,
      unused, Arith.one]

end real

end Props
