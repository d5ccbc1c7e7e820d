import Verif.Proof.Nan
import Verif.Props.Plain
import Verif.Props.Proper
import Verif.Props.Queries
import Verif.Spec.Over

/-!
# C74: NaN in, NaN out

No function of the library hides a NaN: what is computed from a NaN is a NaN, and `is_nan` says so.  Which of the
results of a call or program are computed from a NaN is said by `Make.spoils`, `Code.spoils` (`Spec/Nan.lean`), from
the names and constants alone except for the cases listed there (`x**0`, `1**y`, a NaN next to an infinity).  For every
arithmetic with the NaN rules of IEEE 754.
-/

set_option linter.unusedSectionVars false

namespace Props
open Fz Spec

section generic
variable {W R : Type} [Arith R] [Rep W R] [LawfulRep W R]
variable {h : List (Call R)} {c : Client W}

theorem vals_at : ∀ {vs : List Var} {ys : List R} {s : St W}, (vals vs : M W (List R)) s = .ok (ys, s) →
    ∀ {j : Nat} {v : Var}, vs[j]? = some v → ∃ y, ys[j]? = some y ∧ (v.val : M W R) s = .ok (y, s) := by
  intro vs
  induction vs with
  | nil => intro ys s _ j v hj; simp at hj
  | cons w vs ih =>
    intro ys s hv j v hj
    unfold vals at hv
    rw [List.mapM_cons] at hv
    obtain ⟨y, s1, e1, hv⟩ := Fz.bind_inv hv
    obtain rfl : s1 = s := Reads.val w s y s1 e1
    obtain ⟨ys', s2, e2, hv⟩ := Fz.bind_inv hv
    cases hv
    cases j with
    | zero => cases hj; exact ⟨y, rfl, e1⟩
    | succ j => exact ih e2 hj

theorem marks_at {bad : List Bool} {ys : List R} (hm : Marks bad ys) {j : Nat} (hb : bad[j]? = some true) {y : R}
    (hy : ys[j]? = some y) : isNanD y = true := by
  have := hm.getD j (by simp [List.getD_eq_getElem?_getD, hb])
  simpa [num, List.getD_eq_getElem?_getD, hy] using this

theorem marked {bad : List Bool} {ys : List R} (hm : Marks bad ys) {vs : List Var} {s : St W}
    (hv : (vals vs : M W (List R)) s = .ok (ys, s)) {j : Nat} {v : Var} (hj : vs[j]? = some v)
    (hb : bad[j]? = some true) : (isNanV (R := R) v : M W Bool) s = .ok (true, s) := by
  obtain ⟨y, hy, e⟩ := vals_at hv hj
  unfold isNanV
  rw [bind_ok e, marks_at hm hb hy]
  rfl

/-- **C74**: a variable created by a call is NaN if it is computed from a NaN. -/
theorem C74_call (N : NanRules R) (hc : Commutes R) (hr : Reach h c) {m : Make R}
    (ha : ∀ i ∈ m.args, i < c.env.length) (hs : m.Sane) (hp : m.Plain) {ys : List R}
    (hy : (vals c.env : M W (List R)) c.st = .ok (ys, c.st)) {vs : List Var} {s' : St W}
    (hrun : m.call c.env c.st = .ok (vs, s')) {j : Nat} {v : Var} (hj : vs[j]? = some v)
    (hb : (m.spoils ys (nans ys))[j]? = some true) : (isNanV (R := R) v : M W Bool) s' = .ok (true, s') :=
  marked ((marks_nans ys).make N m) (C48_call hc hr ha hs hp hy hrun) hj hb

/-- **C74**: a variable that a program returns is NaN if it is computed, in any number of steps, from a NaN. -/
theorem C74_program (N : NanRules R) (hc : Commutes R) (hr : Reach h c) {e : List Var} (he : ∀ v ∈ e, v ∈ c.env)
    {f : Code R} (hs : f.Sane) (hp : f.Plain) {ys : List R} (hy : (vals e : M W (List R)) c.st = .ok (ys, c.st))
    {vs : List Var} {s' : St W} (hrun : (f.run e : M W (List Var)) c.st = .ok (vs, s')) {j : Nat} {v : Var}
    (hj : vs[j]? = some v) (hb : (f.spoils ys (nans ys))[j]? = some true) :
    (isNanV (R := R) v : M W Bool) s' = .ok (true, s') :=
  marked ((marks_nans ys).code N f) (C48_program hc hr he hs hp hy hrun) hj hb

/-- **C74**: the value `gradient` returns is NaN if it is computed from a NaN: an input, a constant or a variable of the
caller. -/
theorem C74_gradient (N : NanRules R) (hc : Commutes R) (hr : Reach h c) {e : List Var} (he : ∀ v ∈ e, v ∈ c.env)
    {f : Code R} (hs : f.Sane) (hp : f.Plain) {ys : List R} (hy : (vals e : M W (List R)) c.st = .ok (ys, c.st))
    {x df : List R} {y : R} {s' : St W} (hg : gradient (f.scalar e) x c.st = .ok ((y, df), s'))
    (hb : (f.spoils (x ++ ys) (nans (x ++ ys)))[0]? = some true) : isNanD y = true := by
  have := C48_gradient hc hr he hs hp hy hg
  exact marks_at ((marks_nans _).code N f) hb (by rwa [List.head?_eq_getElem?] at this)

/-- **C74**: and the values that `jacobian` returns. -/
theorem C74_jacobian (N : NanRules R) (hc : Commutes R) (hr : Reach h c) {e : List Var} (he : ∀ v ∈ e, v ∈ c.env)
    {f : Code R} (hs : f.Sane) (hp : f.Plain) {ys : List R} (hy : (vals e : M W (List R)) c.st = .ok (ys, c.st))
    {n : Nat} {x fx : List R} {J : List (List R)} {s' : St W}
    (hg : jacobian (f.vector e) n x c.st = .ok ((fx, J), s')) {j : Nat}
    (hb : (f.spoils (x ++ ys) (nans (x ++ ys)))[j]? = some true) {y : R} (hj : fx[j]? = some y) : isNanD y = true := by
  rw [C48_jacobian hc hr he hs hp hy hg] at hj
  exact marks_at ((marks_nans _).code N f) hb hj

/-- **C74** for the function left out above: `inv_square` and `**` with exponent `-2`. -/
theorem C74_inv_square (N : NanRules R) (hr : Reach h c) {v : Var} (hv : v ∈ existing c.st)
    (hn : (isNanV (R := R) v : M W Bool) c.st = .ok (true, c.st)) {w : Var} {s' : St W}
    (hw : (invSquareV (R := R) v : M W Var) c.st = .ok (w, s') ∨
      ∃ d : R, ¬ (Make.binVD .pow 0 d).Plain ∧ (powVD v d : M W Var) c.st = .ok (w, s')) :
    (isNanV (R := R) w : M W Bool) s' = .ok (true, s') := by
  obtain ⟨g, val, adj, G⟩ := hr.good
  have hh := (mem_existing G.inv).mp hv
  have e := G.inv.varVal hh
  unfold isNanV at hn
  rw [bind_ok e] at hn
  have hx : isNanD (val (g.pos v)) = true := (Prod.mk.inj (Except.ok.inj hn)).1
  have hw : (invSquareV (R := R) v : M W Var) c.st = .ok (w, s') := by
    rcases hw with h | ⟨d, hd, h⟩
    · exact h
    · simp only [Make.Plain, not_or, Bool.not_eq_true, Bool.not_eq_false] at hd
      obtain ⟨h1, h2, h3, h4⟩ := hd
      unfold powVD at h
      simpa only [h1, h2, h3, h4, Bool.false_eq_true, if_false, if_true] using h
  obtain ⟨g', val', adj', ev, ho⟩ := gives_unary G.inv (x := val (g.pos v)) ⟨hh, rfl⟩ (fun x => Arith.one /. x *. x)
    (c := .isq) (by simp [Chain.notMM]) w s' hw
  unfold isNanV
  rw [bind_ok (ho.read ev.inv)]
  show Except.ok (isNanD _, s') = _
  rw [N.mul _ _ (.inr hx)]

/-- **C74**: the exception for `log_sum_exp`: with a `+Infinity` in front of the NaN the value is `+Infinity`, the limit
for every number in place of the NaN. -/
theorem C74_infinity (N : NanRules R) {x : R} {l : List R} (hx : isInf x = true) (hl : ∀ y ∈ l, isNanD y = true) :
    logSumExpD (x :: l) = x := by
  have : fmaxval (x :: l) = x := by
    show l.foldl _ x = x
    induction l with
    | nil => rfl
    | cons y l ih =>
      rw [List.foldl_cons, if_neg (by rw [N.lt _ _ (.inr (hl y (by simp)))]; simp)]
      exact ih fun y hy => hl y (by simp [hy])
  unfold logSumExpD
  simp only [this, hx, if_true]

end generic

/-! The rules can be met, by reals with overflow and NaN; and the hypotheses are met. -/

section over
variable [SumOrder]

theorem nan_iff {x : Over} : isNanD x = true ↔ x = .nan := by
  cases x <;> simp [isNanD, fne, Arith.feq, Over.eq]

theorem sums_nan {l : List Over} {k : Nat} {a : Over} (h : Sums (.fin 0) Over.add l k a) (hl : .nan ∈ l) : a = .nan := by
  induction h with
  | none => simp at hl
  | one x => exact (List.mem_singleton.mp hl).symm
  | join _ _ hp ih1 ih2 =>
    rcases List.mem_append.mp (hp.mem_iff.mpr hl) with h | h
    · rw [ih1 h]; rfl
    · rw [ih2 h]
      rename_i a b _ _
      cases a <;> rfl

theorem zip_nan {a b : List Over} (hl : a.length = b.length) (h : ∃ x ∈ a ++ b, isNanD x = true) :
    Over.nan ∈ List.zipWith Over.mul a b := by
  obtain ⟨x, hx, hn⟩ := h
  rw [nan_iff] at hn
  subst hn
  induction a generalizing b with
  | nil =>
    cases b with
    | nil => simp at hx
    | cons _ _ => simp at hl
  | cons y a ih =>
    cases b with
    | nil => simp at hl
    | cons z b =>
      simp only [List.cons_append, List.mem_cons, List.mem_append] at hx
      simp only [List.zipWith_cons_cons, List.mem_cons]
      rcases hx with h | h | h | h
      · left; rw [← h]; cases z <;> rfl
      · right; exact ih (by simpa using hl) (List.mem_append_left _ h)
      · left; rw [← h]; cases y <;> rfl
      · right; exact ih (by simpa using hl) (List.mem_append_right _ h)

theorem nanRules_over : NanRules Over where
  nan := nan_iff.mpr rfl
  lt x y h := by
    rcases h with h | h <;> rw [nan_iff.mp h]
    · cases y <;> rfl
    · cases x <;> rfl
  eq x y h := by
    rcases h with h | h <;> rw [nan_iff.mp h]
    · cases y <;> rfl
    · cases x <;> rfl
  add x y h := by
    rw [nan_iff]
    rcases h with h | h <;> rw [nan_iff.mp h]
    · cases y <;> rfl
    · cases x <;> rfl
  sub x y h := by
    rw [nan_iff]
    rcases h with h | h <;> rw [nan_iff.mp h]
    · cases y <;> rfl
    · cases x <;> rfl
  mul x y h := by
    rw [nan_iff]
    rcases h with h | h <;> rw [nan_iff.mp h]
    · cases y <;> rfl
    · cases x <;> rfl
  div x y h := by
    rw [nan_iff]
    rcases h with h | h <;> rw [nan_iff.mp h]
    · cases y <;> rfl
    · cases x <;> rfl
  base x y h _ := by
    rw [nan_iff, nan_iff.mp h]
    cases y <;> rfl
  expo x y h _ := by
    rw [nan_iff, nan_iff.mp h]
    cases x <;> rfl
  hypot x y h hx hy := by
    have inf : ∀ z : Over, infinite z = false → z ≠ .pinf ∧ z ≠ .ninf := by
      intro z hz
      constructor <;> rintro rfl <;> simp [infinite, isInf, isNegInf, fgt, Arith.flt, Over.lt, Arith.huge, Arith.neg,
        Over.neg] at hz
    rw [nan_iff]
    rcases h with h | h <;> rw [nan_iff.mp h]
    · cases y with
      | pinf => exact absurd rfl (inf _ hy).1
      | ninf => exact absurd rfl (inf _ hy).2
      | _ => rfl
    · cases x with
      | pinf => exact absurd rfl (inf _ hx).1
      | ninf => exact absurd rfl (inf _ hx).2
      | _ => rfl
  fn f hf x hx := by
    rw [nan_iff.mp hx, nan_iff]
    simp only [intrinsics, List.mem_cons, List.not_mem_nil, or_false] at hf
    rcases hf with rfl | rfl | rfl | rfl | rfl | rfl | rfl | rfl | rfl | rfl | rfl | rfl | rfl | rfl | rfl | rfl | rfl |
      rfl | rfl <;> rfl
  sum l h := by
    obtain ⟨x, hx, hn⟩ := h
    obtain ⟨k, -, hs⟩ := SumOrder.some_order l
    exact nan_iff.mpr (sums_nan hs (nan_iff.mp hn ▸ hx))
  dot a b hl h := by
    obtain ⟨k, -, hs⟩ := SumOrder.some_order (List.zipWith Over.mul a b)
    exact nan_iff.mpr (sums_nan hs (zip_nan hl h))
  entry a b hl h := by
    obtain ⟨k, -, hs⟩ := SumOrder.some_order (List.zipWith Over.mul a b)
    exact nan_iff.mpr (sums_nan hs (zip_nan hl h))
  norm2 l h hi := by
    obtain ⟨x, hx, hn⟩ := h
    rw [nan_iff]
    show Over.norm l = _
    unfold Over.norm
    rw [if_neg, if_pos (nan_iff.mp hn ▸ hx)]
    rintro (h | h)
    · have := hi _ h
      simp [infinite, isInf, isNegInf, fgt, Arith.flt, Over.lt, Arith.huge, Arith.neg, Over.neg] at this
    · have := hi _ h
      simp [infinite, isInf, isNegInf, fgt, Arith.flt, Over.lt, Arith.huge, Arith.neg, Over.neg] at this

/-- `x ↦ exp(x y)` -/
def expMul : Code Over := .make (.bin .mul 0 1) (.make (.fn .exp 2) (.ret [3]))

/-- the gradient of `x ↦ exp(x y)` at 3, where `y` is a variable of the caller with value NaN -/
example {W : Type} [Rep W Over] [LawfulRep W Over] : ∃ (h : List (Call Over)) (c : Client W) (y : Over) (df : List Over)
    (s' : St W), Reach h c ∧ (vals c.env : M W (List Over)) c.st = .ok ([.nan], c.st) ∧ expMul.Sane ∧ expMul.Plain ∧
    gradient (expMul.scalar c.env) [.fin 3] c.st = .ok ((y, df), s') ∧
    (expMul.spoils ([.fin 3] ++ [.nan]) (nans ([Over.fin 3] ++ [.nan])))[0]? = some true ∧ isNanD y = true := by
  have e0 : (vals (Client.init : Client W).env : M W (List Over)) (Client.init : Client W).st = .ok ([], Client.init.st) :=
    rfl
  obtain ⟨c, -, o, v, hh, hm⟩ := C52_make (m := .new .nan) commutes_over (Orderly.start (W := W))
    ⟨by simp [Call.args, Make.args], trivial, trivial, [], e0, rfl, by
      simp [Client.init, St.init, Tape.init, Make.words, tapeLimit]⟩ trivial e0
  have hd : c.st.tape.head = 7 := hh
  have hs : expMul.Sane := ⟨trivial, trivial, trivial⟩
  have hp : expMul.Plain := ⟨trivial, by simp [Make.Plain], trivial⟩
  have w : expMul.words ([.fin 3] ++ [.nan]) = 15 := rfl
  have sp : (expMul.spoils ([.fin 3] ++ [.nan]) (nans ([Over.fin 3] ++ [.nan])))[0]? = some true := by
    have : isNanD (Over.nan) = true := nan_iff.mpr rfl
    have h3 : isNanD (Over.fin 3) = false := by simp [isNanD, fne, Arith.feq, Over.eq]
    simp [expMul, Code.spoils, Make.spoils, Make.reads, Bin.reads, Operand.spoilt, nans, this, h3]
  obtain ⟨r, s', e, hb⟩ := C52_ask (q := .gradient expMul [.fin 3]) commutes_over o (by rw [hm]; simp [Client.init])
    (fun _ h => h) v (by
      rw [hd]
      refine ⟨hs, hp, ⟨trivial, trivial, trivial⟩, ?_, ?_, ?_, ?_⟩
      · refine ⟨?_, trivial, ?_, ?_, ?_⟩
        · simp [Make.args, Make.plain]
        · simp [Make.args, Make.plain]
        · trivial
        · simp [Code.Meets, Make.plain]
      · simp [expMul, Code.plain]
      · show 7 + (6 * 1 + 15) ≤ tapeLimit
        simp [tapeLimit]
      · intro j
        show 7 + (6 * 1 + 15) ≠ _
        have := Nat.one_le_two_pow (n := j)
        omega)
  obtain ⟨⟨y, df⟩, s1, e1, e2⟩ := Fz.bind_inv e
  obtain ⟨l, hr⟩ := C52_reach o
  exact ⟨l, c, y, df, s1, hr, v, hs, hp, e1, sp,
    C74_gradient nanRules_over commutes_over hr (fun _ h => h) hs hp v e1 sp⟩

end over
end Props
