import Verif.Proof.Twin

/-!
# Every creating function keeps the two runs together
-/

set_option linter.unusedSectionVars false

namespace Fz
open Arith Spec

variable {W1 W2 R : Type} [Arith R] [Rep W1 R] [LawfulRep W1 R] [Rep W2 R] [LawfulRep W2 R]
variable {B : Base} {a a' : Side W1 R} {b b' : Side W2 R}
variable {α β γ δ : Type}

theorem tt_mapM {f : α → M W1 Var} {f' : β → M W2 Var} (P : Side W1 R → Side W2 R → α → β → Prop)
    (hP : ∀ {a a' : Side W1 R} {b b' : Side W2 R} {x y}, Since a a' → Since b b' → P a b x y → P a' b' x y)
    (hf : ∀ {a : Side W1 R} {b : Side W2 R} {x y}, Twin B a b → P a b x y → TT B a b (f x) (f' y) (VR B))
    {l : List α} {l' : List β} : ∀ {a : Side W1 R} {b : Side W2 R}, Twin B a b → List.Forall₂ (P a b) l l' →
    TT B a b (l.mapM f) (l'.mapM f') (VL B) := by
  induction l generalizing l' with
  | nil =>
    intro a b t h
    cases h
    exact TT.pure t .nil
  | cons x l ih =>
    intro a b t h
    cases h with
    | cons h hl =>
      rw [List.mapM_cons, List.mapM_cons]
      refine TT.bind (hf t h) fun v w a' b' l1 l2 t' hv => ?_
      refine TT.bind (ih t' (hl.imp fun _ _ h => hP l1 l2 h)) fun vs ws a'' b'' l1' l2' t'' hvs => ?_
      exact TT.pure t'' (.cons (VarRel.later hv l1' l2') hvs)

theorem tt_newVars (t : Twin B a b) (xs : List R) :
    TT B a b (newVars xs : M W1 (List Var)) (newVars xs : M W2 (List Var)) (VL B) :=
  tt_mapM (fun _ _ x y => x = y) (fun _ _ h => h) (fun t h => h ▸ tt_newVar t _) t
    (List.forall₂_same.mpr fun _ _ => rfl)

theorem tt_newVar1d : ∀ (n : Nat) {a : Side W1 R} {b : Side W2 R}, Twin B a b →
    TT B a b (newVar1d (R := R) n : M W1 (List Var)) (newVar1d (R := R) n : M W2 (List Var)) (VL B)
  | 0, _, _, t => TT.pure t .nil
  | n + 1, a, b, t => by
    unfold newVar1d
    refine TT.bind (tt_newVar0 t) fun v w a' b' l1 l2 t' hv => ?_
    refine TT.bind (tt_newVar1d n t') fun vs ws a'' b'' l1' l2' t'' hvs => ?_
    exact TT.pure t'' (.cons (VarRel.later hv l1' l2') hvs)

section ops
variable (t : Twin B a b) {v w v1 v2 w1 w2 : Var} {as bs as' bs' : List Var}
include t

theorem VarsRel.one (h : VarRel B a b v w) : VarsRel B a b [v] [w] := .cons h .nil

theorem VarsRel.two (h1 : VarRel B a b v1 w1) (h2 : VarRel B a b v2 w2) : VarsRel B a b [v1, v2] [w1, w2] :=
  .cons h1 (.cons h2 .nil)

theorem VarsRel.append (h1 : VarsRel B a b as bs) (h2 : VarsRel B a b as' bs') :
    VarsRel B a b (as ++ as') (bs ++ bs') := by
  induction h1 with
  | nil => exact h2
  | cons h _ ih => exact .cons h ih

/-- both read the same value -/
theorem TT.val {k1 : R → M W1 γ} {k2 : R → M W2 δ} {Q' : γ → δ → Side W1 R → Side W2 R → Prop}
    (h : VarRel B a b v w) (hk : ∀ x, TT B a b (k1 x) (k2 x) Q') :
    TT B a b (v.val >>= k1) (w.val >>= k2) Q' := by
  have e2 := t.inv2.varVal h.has2
  rw [← t.pr_val h.pr] at e2
  exact TT.read (t.inv1.varVal h.has1) e2 (hk _)

/-- both read the same values -/
theorem TT.valsOf {k1 : List R → M W1 γ} {k2 : List R → M W2 δ} {Q' : γ → δ → Side W1 R → Side W2 R → Prop}
    (h : VarsRel B a b as bs) (hk : ∀ x, TT B a b (k1 x) (k2 x) Q') :
    TT B a b (vals as >>= k1) (vals bs >>= k2) Q' := by
  have e2 := t.inv2.varVals h.has2
  rw [← h.vals t] at e2
  exact TT.read (t.inv1.varVals h.has1) e2 (hk _)

theorem tt_unary (h : VarRel B a b v w) (f : R → R) {c : Chain} (hc : c.notMM) :
    TT B a b (unary f c v : M W1 Var) (unary f c w : M W2 Var) (VR B) := by
  unfold unary
  exact TT.val t h fun x => tt_newOp t (VarsRel.one t h) _ hc

theorem tt_binary (h1 : VarRel B a b v1 w1) (h2 : VarRel B a b v2 w2) (f : R → R → R) {c : Chain} (hc : c.notMM) :
    TT B a b (binary f c v1 v2 : M W1 Var) (binary f c w1 w2 : M W2 Var) (VR B) := by
  unfold binary
  exact TT.val t h1 fun x => TT.val t h2 fun y => tt_newOp t (VarsRel.two t h1 h2) _ hc

theorem tt_unaryData (h : VarRel B a b v w) (f : R → R) (d : R) {c : Chain} (hc : c.notMM) :
    TT B a b (unaryData f d c v : M W1 Var) (unaryData f d c w : M W2 Var) (VR B) := by
  unfold unaryData
  exact TT.val t h fun x => tt_newOpDop t (VarsRel.one t h) _ _ hc

theorem tt_reduceV (h : VarsRel B a b as bs) (f : List R → R) {c : Chain} (hc : c.notMM) :
    TT B a b (reduceV f c as : M W1 Var) (reduceV f c bs : M W2 Var) (VR B) := by
  unfold reduceV
  exact TT.valsOf t h fun x => tt_newOp t h _ hc

theorem tt_negV (h : VarRel B a b v w) :
    TT B a b (negV (R := R) v : M W1 Var) (negV (R := R) w : M W2 Var) (VR B) := by
  unfold negV; exact tt_unary t h _ (by decide)

theorem tt_absV (h : VarRel B a b v w) :
    TT B a b (absV (R := R) v : M W1 Var) (absV (R := R) w : M W2 Var) (VR B) := by
  unfold absV
  refine TT.val t h fun x => ?_
  split
  · exact TT.pure t h
  · split
    · exact tt_negV t h
    · split
      · exact tt_newVar0 t
      · exact tt_newOp t (VarsRel.one t h) _ (by decide)

theorem tt_acoshV (h : VarRel B a b v w) :
    TT B a b (acoshV (R := R) v : M W1 Var) (acoshV (R := R) w : M W2 Var) (VR B) := by
  unfold acoshV
  simp only [isNanV, relVD, bind_assoc, pure_bind]
  refine TT.val t h fun x => ?_
  split
  · exact TT.pure t h
  · refine TT.val t h fun x => ?_
    split
    · exact TT.fail _
    · exact tt_unary t h _ (by decide)

theorem tt_atanhV (h : VarRel B a b v w) :
    TT B a b (atanhV (R := R) v : M W1 Var) (atanhV (R := R) w : M W2 Var) (VR B) := by
  unfold atanhV
  simp only [isNanV, relVD, bind_assoc, pure_bind]
  refine TT.val t h fun x => ?_
  split
  · exact TT.pure t h
  · refine TT.val t h fun x => TT.val t h fun y => ?_
    split
    · exact TT.fail _
    · exact tt_unary t h _ (by decide)

theorem tt_fn (h : VarRel B a b v w) (f : Fn) :
    TT B a b (f.api (R := R) v : M W1 Var) (f.api (R := R) w : M W2 Var) (VR B) := by
  cases f
  case pos => exact TT.pure t h
  case neg => exact tt_negV t h
  case abs => exact tt_absV t h
  case acosh => exact tt_acoshV t h
  case atanh => exact tt_atanhV t h
  all_goals first
    | exact tt_unary t h _ (by decide)
    | exact tt_unaryData t h _ _ (by decide)
    | (unfold Fn.api; simp only; exact tt_unary t h _ (by decide))

theorem tt_binVV (h1 : VarRel B a b v1 w1) (h2 : VarRel B a b v2 w2) (f : Bin) :
    TT B a b (f.callVV (R := R) v1 v2 : M W1 Var) (f.callVV (R := R) w1 w2 : M W2 Var) (VR B) := by
  cases f <;> exact tt_binary t h1 h2 _ (by decide)

theorem tt_binVD (h : VarRel B a b v w) (f : Bin) (d : R) (hs : (Make.binVD f 0 d).Sane) :
    TT B a b (f.callVD v d : M W1 Var) (f.callVD w d : M W2 Var) (VR B) := by
  cases f <;> simp only [Bin.callVD, addVD, subVD, mulVD, divVD, powVD, hypotVD]
  · split
    · exact tt_unary t h _ (by decide)
    · exact tt_neutral t h (by simp [Chain.isNeutral])
  · split
    · exact tt_unary t h _ (by decide)
    · exact tt_neutral t h (by simp [Chain.isNeutral])
  · split
    · exact tt_unaryData t h _ _ (by decide)
    · exact tt_neutral t h (by simp [Chain.isNeutral])
  · split
    · exact tt_unaryData t h _ _ (by decide)
    · exact tt_neutral t h (by simp [Chain.isNeutral])
  · split
    · exact tt_unary t h _ (by decide)
    split
    · exact TT.pure t h
    split
    · exact tt_unary t h _ (by decide)
    split
    · exact tt_unary t h _ (by decide)
    split
    · exact tt_unary t h _ (by decide)
    split
    · exact tt_unary t h _ (by decide)
    · exact tt_unaryData t h _ _ (by decide)
  · have hs' : fne d (zero : R) = true := hs
    rw [if_pos hs', if_pos hs']
    exact TT.val t h fun x => tt_newOp t (VarsRel.one t h) _ (by decide)

theorem tt_binDV (h : VarRel B a b v w) (f : Bin) (d : R) (hs : (Make.binDV f d 0).Sane) :
    TT B a b (f.callDV d v : M W1 Var) (f.callDV d w : M W2 Var) (VR B) := by
  cases f <;> simp only [Bin.callDV, addDV, mulDV, hypotDV]
  · split
    · exact tt_unary t h _ (by decide)
    · exact tt_neutral t h (by simp [Chain.isNeutral])
  · exact tt_unary t h _ (by decide)
  · split
    · exact tt_unaryData t h _ _ (by decide)
    · exact tt_neutral t h (by simp [Chain.isNeutral])
  · exact tt_unaryData t h _ _ (by decide)
  · exact tt_unaryData t h _ _ (by decide)
  · have hs' : fne d (zero : R) = true := hs
    rw [if_pos hs', if_pos hs']
    exact TT.val t h fun x => tt_newOp t (VarsRel.one t h) _ (by decide)

theorem tt_dotVV (h : VarsRel B a b as bs) (h' : VarsRel B a b as' bs') :
    TT B a b (dotVV (R := R) as as' : M W1 Var) (dotVV (R := R) bs bs' : M W2 Var) (VR B) := by
  unfold dotVV
  refine TT.valsOf t h fun x => TT.valsOf t h' fun y => ?_
  rw [← h.length, ← h'.length]
  split
  · exact tt_newOp t (VarsRel.append t h h') _ (by decide)
  · exact TT.fail _

theorem tt_dotVD (h : VarsRel B a b as bs) (d : List R) :
    TT B a b (dotVD as d : M W1 Var) (dotVD bs d : M W2 Var) (VR B) := by
  unfold dotVD
  refine TT.valsOf t h fun x => ?_
  rw [← h.length]
  split
  · exact tt_newOpDop t h _ _ (by decide)
  · exact TT.fail _

theorem tt_dotDV (h : VarsRel B a b as bs) (d : List R) :
    TT B a b (dotDV d as : M W1 Var) (dotDV d bs : M W2 Var) (VR B) := by
  unfold dotDV
  refine TT.valsOf t h fun x => ?_
  rw [← h.length]
  split
  · exact tt_newOpDop t h _ _ (by decide)
  · exact TT.fail _

theorem tt_varWithPartials (h : VarsRel B a b as bs) (x : R) (ds : List R) :
    TT B a b (varWithPartials x as ds : M W1 Var) (varWithPartials x bs ds : M W2 Var) (VR B) := by
  unfold varWithPartials
  rw [← h.length]
  split
  · exact TT.fail _
  · exact tt_newOpDop t h _ _ (by decide)

theorem tt_userOp (h : VarsRel B a b as bs) (x : R) (r : URule) (ds : List R) :
    TT B a b (userOp x r as ds : M W1 Var) (userOp x r bs ds : M W2 Var) (VR B) := by
  unfold userOp
  cases ds with
  | nil => exact tt_newOp t h _ (Chain.notMM_user r)
  | cons d ds => exact tt_newOpDop t h _ _ (Chain.notMM_user r)

theorem tt_lpdfVV (h1 : VarRel B a b v1 w1) (h2 : VarRel B a b v2 w2) (f f1 f2 : R → R → R → R) (ys : List R) :
    TT B a b (lpdfVV f f1 f2 ys v1 v2 : M W1 Var) (lpdfVV f f1 f2 ys w1 w2 : M W2 Var) (VR B) := by
  unfold lpdfVV
  exact TT.val t h1 fun x => TT.val t h2 fun y => tt_varWithPartials t (VarsRel.two t h1 h2) _ _

theorem tt_lpdfVD (h : VarRel B a b v w) (f f1 : R → R → R → R) (ys : List R) (d : R) :
    TT B a b (lpdfVD f f1 ys v d : M W1 Var) (lpdfVD f f1 ys w d : M W2 Var) (VR B) := by
  unfold lpdfVD
  exact TT.val t h fun x => tt_varWithPartials t (VarsRel.one t h) _ _

theorem tt_lpdfDV (h : VarRel B a b v w) (f f1 : R → R → R → R) (ys : List R) (d : R) :
    TT B a b (lpdfDV f f1 ys d v : M W1 Var) (lpdfDV f f1 ys d w : M W2 Var) (VR B) := by
  unfold lpdfDV
  exact TT.val t h fun x => tt_varWithPartials t (VarsRel.one t h) _ _

theorem tt_single {m1 : M W1 Var} {m2 : M W2 Var} (h : TT B a b m1 m2 (VR B)) :
    TT B a b (single m1) (single m2) (VL B) :=
  TT.bind h fun _ _ _ _ _ _ t' hv => TT.pure t' (.cons hv .nil)

end ops

theorem tt_elemental2 (f : Bin) : ∀ {as bs as' bs' : List Var} {a : Side W1 R} {b : Side W2 R}, Twin B a b →
    VarsRel B a b as bs → VarsRel B a b as' bs' →
    TT B a b (elemental2 (f.callVV (R := R) : Var → Var → M W1 Var) as as')
      (elemental2 (f.callVV (R := R) : Var → Var → M W2 Var) bs bs') (VL B) := by
  intro as
  induction as with
  | nil =>
    intro bs as' bs' a b t h h'
    cases h
    cases h' with
    | nil => exact TT.pure t .nil
    | cons _ _ => exact TT.fail _
  | cons x as ih =>
    intro bs as' bs' a b t h h'
    cases h with
    | cons h hl =>
      cases h' with
      | nil => exact TT.fail _
      | cons h' hl' =>
        unfold elemental2
        refine TT.bind (tt_binVV t h h' f) fun v w a' b' l1 l2 t' hv => ?_
        refine TT.bind (ih t' (VarsRel.later hl l1 l2) (VarsRel.later hl' l1 l2))
          fun vs ws a'' b'' l1' l2' t'' hvs => ?_
        exact TT.pure t'' (.cons (VarRel.later hv l1' l2') hvs)

end Fz
