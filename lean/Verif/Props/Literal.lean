import Verif.Proof.Literal
import Verif.Props.Proper

/-!
# C76: a constant may be a variable or a real

Fazang has its operations for two variables and for a variable and a real.  A part of a computation that does not depend
on the arguments of interest may thus be done with variables or with reals.  The value and the derivatives by the other
arguments are the same, to the last bit, in every arithmetic.  `Spec/Literal.lean` says which programs are compared.
-/

set_option linter.unusedSectionVars false

namespace Props
open Fz Spec

variable {W R : Type} [Arith R] [Rep W R] [LawfulRep W R]
variable {h h' : List (Call R)} {c c' : Client W}

/-- **C76**: `f'` is the function `f` with reals in place of the variables `K`, which may be inputs, variables of the
caller (with values `ys`), or variables that `f` makes: the value is the same, and so are the derivatives by the other
inputs.  The calls may be made in different states, after different histories. -/
theorem C76_gradient (hc : Commutes R) (hr : Reach h c) (hr' : Reach h' c') {e e' : List Var} (he : ∀ v ∈ e, v ∈ c.env)
    (he' : ∀ v ∈ e', v ∈ c'.env) {f f' : Code R} (hs : f.Sane) (hp : f.Plain) (hb : f.Regular) (hs' : f'.Sane)
    (hp' : f'.Plain) (hb' : f'.Regular) {ys ys' : List R} (hy : (vals e : M W (List R)) c.st = .ok (ys, c.st))
    (hy' : (vals e' : M W (List R)) c'.st = .ok (ys', c'.st)) {x x' : List R} (hm : f.Meets false (x ++ ys))
    {K : Nat → Prop} {σ : Nat → Nat} (hσ : Placed K σ (x ++ ys) (x' ++ ys'))
    (hl : Literal (x ++ ys) (x' ++ ys') K σ f f')
    {y y' : R} {df df' : List R} {s s' : St W} (hg : gradient (f.scalar e) x c.st = .ok ((y, df), s))
    (hg' : gradient (f'.scalar e') x' c'.st = .ok ((y', df'), s')) :
    y' = y ∧ ∀ i < x.length, ¬ K i → σ i < x'.length → df'[σ i]? = df[i]? :=
  literal_gradient hc hσ hl hm hp hb' (C49_gradient hc hr he hs hp hb hy hg) (C49_gradient hc hr' he' hs' hp' hb' hy' hg')

/-- **C76** for `jacobian`: the same values, and the same entries in every row. -/
theorem C76_jacobian (hc : Commutes R) (hr : Reach h c) (hr' : Reach h' c') {e e' : List Var} (he : ∀ v ∈ e, v ∈ c.env)
    (he' : ∀ v ∈ e', v ∈ c'.env) {f f' : Code R} (hs : f.Sane) (hp : f.Plain) (hb : f.Regular) (hs' : f'.Sane)
    (hp' : f'.Plain) (hb' : f'.Regular) {ys ys' : List R} (hy : (vals e : M W (List R)) c.st = .ok (ys, c.st))
    (hy' : (vals e' : M W (List R)) c'.st = .ok (ys', c'.st)) {n n' : Nat} {x x' : List R} (hm : f.Meets false (x ++ ys))
    {K : Nat → Prop} {σ : Nat → Nat} (hσ : Placed K σ (x ++ ys) (x' ++ ys'))
    (hl : Literal (x ++ ys) (x' ++ ys') K σ f f')
    {fx fx' : List R} {J J' : List (List R)} {s s' : St W} (hg : jacobian (f.vector e) n x c.st = .ok ((fx, J), s))
    (hg' : jacobian (f'.vector e') n' x' c'.st = .ok ((fx', J'), s')) :
    fx' = fx ∧ List.Forall₂ (fun r r' => ∀ i < x.length, ¬ K i → σ i < x'.length → r'[σ i]? = r[i]?) J J' :=
  literal_jacobian hc hσ hl hm hp hb' (C49_jacobian hc hr he hs hp hb hy hg) (C49_jacobian hc hr' he' hs' hp' hb' hy' hg')

/-! ## The hypotheses are met -/

/-- `exp(y) / x`, and the same with a real for `exp(y)` -/
def expOver : Code R := .make (.fn .exp 1) (.make (.bin .div 2 0) (.ret [3]))
/-- see `expOver` -/
def realOver (d : R) : Code R := .make (.binDV .div d 0) (.ret [1])

theorem over_literal (a b : R) :
    Literal ([a, b] ++ []) ([a] ++ []) (fun i => i = 1) id (expOver : Code R) (realOver (Arith.exp b)) := by
  refine .real (by simp [Make.args]) (.mixed (.binDV (f := .div) (i := 2) (j := 0) ?_ ?_) (.ret (is := [3]) ?_)) <;> simp [Make.plain]

/-- in every arithmetic: `exp(y) / x` by `x` and `y`, and by `x` with a real for `exp(y)` -/
example (hc : Commutes R) (a b : R) : ∃ (h : List (Call R)) (c : Client W) (y dx dy : R) (s s' : St W),
    Reach h c ∧ (expOver : Code R).Sane ∧ (expOver : Code R).Plain ∧ (expOver : Code R).Regular ∧
    (realOver (Arith.exp b)).Sane ∧ (realOver (Arith.exp b)).Plain ∧ (realOver (Arith.exp b)).Regular ∧
    (expOver : Code R).Meets false ([a, b] ++ []) ∧ Placed (fun i => i = 1) id ([a, b] ++ []) ([a] ++ []) ∧
    gradient ((expOver : Code R).scalar []) [a, b] c.st = .ok ((y, [dx, dy]), s) ∧
    gradient ((realOver (Arith.exp b)).scalar []) [a] c.st = .ok ((y, [dx]), s') := by
  have o := Orderly.start (W := W)
  have hs : (expOver : Code R).Sane := ⟨trivial, trivial, trivial⟩
  have hp : (expOver : Code R).Plain := ⟨by simp [Make.Plain], trivial, trivial⟩
  have hb : (expOver : Code R).Regular := ⟨trivial, trivial, trivial⟩
  have hs' : (realOver (Arith.exp b)).Sane := ⟨trivial, trivial⟩
  have hp' : (realOver (Arith.exp b)).Plain := ⟨trivial, trivial⟩
  have hb' : (realOver (Arith.exp b)).Regular := ⟨trivial, trivial⟩
  have me : (expOver : Code R).Meets false ([a, b] ++ []) := by
    refine ⟨?_, ?_, ?_, trivial, ?_⟩ <;> simp [Make.args, Make.plain, Code.Meets, Make.Meets, Fn.Meets]
  have me' : (realOver (Arith.exp b)).Meets false ([a] ++ []) := by
    refine ⟨?_, trivial, ?_⟩ <;> simp [Make.args, Make.plain, Code.Meets]
  have hσ : Placed (fun i => i = 1) id ([a, b] ++ []) ([a] ++ []) := by
    refine ⟨?_, ?_, fun _ _ _ _ _ _ e => e⟩
    · intro i hi hK
      simp only [List.append_nil, List.length_cons, List.length_nil, id] at hi ⊢
      omega
    · intro i hi hK
      match i, hi, hK with
      | 0, _, _ => rfl
      | 1, _, hK => exact absurd rfl hK
  obtain ⟨r, s, e, -⟩ := C52_ask (q := .gradient (expOver : Code R) [a, b]) hc o (by simp [Client.init])
    (e := []) (by simp) (ys := []) rfl (by
      refine ⟨hs, hp, hb, me, by simp [expOver, Code.plain], ?_, ?_⟩
      · show 1 + (6 * 2 + 15) ≤ tapeLimit
        simp [tapeLimit]
      · intro j
        show 1 + (6 * 2 + 15) ≠ _
        have := Nat.one_le_two_pow (n := j)
        omega)
  obtain ⟨r', s', e', -⟩ := C52_ask (q := .gradient (realOver (Arith.exp b)) [a]) hc o (by simp [Client.init])
    (e := []) (by simp) (ys := []) rfl (by
      refine ⟨hs', hp', hb', me', by simp [realOver, Code.plain], ?_, ?_⟩
      · show 1 + (6 * 1 + _) ≤ tapeLimit
        simp [tapeLimit, realOver, Code.words, Make.words, Bin.wordsDV]
      · intro j
        show 1 + (6 * 1 + _) ≠ _
        have := Nat.one_le_two_pow (n := j)
        simp [realOver, Code.words, Make.words, Bin.wordsDV]
        omega)
  obtain ⟨⟨y, df⟩, s1, e1, -⟩ := Fz.bind_inv e
  obtain ⟨⟨y', df'⟩, s2, e2, -⟩ := Fz.bind_inv e'
  obtain ⟨l, hr⟩ := C52_reach o
  have b1 := C49_gradient hc hr (e := []) (by simp) hs hp hb (ys := []) rfl e1
  have b2 := C49_gradient hc hr (e := []) (by simp) hs' hp' hb' (ys := []) rfl e2
  obtain ⟨q1, q2⟩ := C76_gradient hc hr hr (e := []) (e' := []) (by simp) (by simp) hs hp hb hs' hp' hb' (ys := [])
    (ys' := []) rfl rfl me hσ (over_literal a b) e1 e2
  have q3 := q2 0 (by simp) (by simp) (by simp)
  subst q1
  obtain ⟨dx, dy, rfl⟩ : ∃ dx dy, df = [dx, dy] := by
    cases b1
    exact ⟨_, _, rfl⟩
  obtain ⟨dx', rfl⟩ : ∃ dx', df' = [dx'] := by
    cases b2
    exact ⟨_, rfl⟩
  obtain rfl : dx' = dx := Option.some.inj q3
  exact ⟨l, Client.init, y', dx', dy, s1, s2, hr, hs, hp, hb, hs', hp', hb', me, hσ, e1, e2⟩

end Props
