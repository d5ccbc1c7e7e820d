import Verif.Model.Ops

/-!
# `nested.F90`, `grad.F90` and the sweeps of `var.F90`
-/

namespace Fz
variable {W R : Type} [Arith R] [Rep W R]
open Arith

/-- nested.F90:11 -/
def maxNestedStack : Nat := 10

/-- reading an element of one of the arrays nested.F90:12-13 -/
def rdNest (f : Nat → Nat) (k : Nat) : M W Nat :=
  if 1 ≤ k ∧ k ≤ maxNestedStack then pure (f k) else fail .oob

/-- nested.F90:17-22 `set_zero_nested_adj` -/
def setZeroNestedAdj : M W Unit := do
  let s ← get
  let lo ← rdNest s.nestVari s.level
  zeroAdjLoop (W := W) lo (s.vhead - lo)

/-- nested.F90:26-30 `begin_nested` -/
def beginNested : M W Unit := fun s =>
  let l := s.level + 1
  if 1 ≤ l ∧ l ≤ maxNestedStack then
    .ok ((), { s with
      level := l
      nestVari := fun k => if k = l then s.vhead else s.nestVari k
      nestTape := fun k => if k = l then s.tape.head else s.nestTape k })
  else .error .oob

/-- nested.F90:35-37: `do i = hi, lo, -1; storage(i) = 0`; `n` iterations, `hi = lo + n - 1` -/
def Tape.zeroLoop (t : Tape W) (lo : Nat) : Nat → Except Err (Tape W)
  | 0 => pure t
  | n + 1 => do
    let t ← t.wr (lo + n) (Rep.ofNat 0)
    t.zeroLoop lo n

/-- nested.F90:32-44 `end_nested` -/
def endNested : M W Unit := do
  let s ← get
  if 0 < s.level then do
    let lo ← rdNest s.nestTape s.level
    let vlo ← rdNest s.nestVari s.level
    modTape fun t => t.zeroLoop lo (t.head + 1 - lo)
    modify fun s => { s with
      tape := { s.tape with head := lo }
      vhead := vlo
      nestTape := fun k => if k = s.level then 0 else s.nestTape k
      nestVari := fun k => if k = s.level then 0 else s.nestVari k
      level := s.level - 1 }
  else pure ()

/-- nested.F90:46-51 `curr_nested_vari_head` -/
def currNestedVariHead : M W Nat := do
  let s ← get
  if 0 < s.level then rdNest s.nestVari s.level else pure 0

/-- the loops var.F90:173-175 and 184-186: run the chain procedures of
`varis(hi), ..., varis(lo)`; `n` iterations, `hi = lo + n - 1` -/
def chainLoop (lo : Nat) : Nat → M W Unit
  | 0 => pure ()
  | n + 1 => do
    let v ← getVari (lo + n)
    runChain (W := W) v
    chainLoop lo n

/-- var.F90:169-176 `grad` -/
def Var.grad (this : Var) : M W Unit := do
  let v ← getVari this.vi
  v.initDependent
  let s ← get
  chainLoop (W := W) 1 (s.vhead - 1)

/-- var.F90:179-187 `grad_nested` -/
def Var.gradNested (this : Var) : M W Unit := do
  let v ← getVari this.vi
  v.initDependent
  let lo ← currNestedVariHead
  let s ← get
  chainLoop (W := W) lo (s.vhead - lo)

/-- `x_var%adj()` of an array (grad.F90:42, 63) -/
def adjs (vs : List Var) : M W (List R) := vs.mapM Var.adj

/-- grad.F90:31-45 `gradient`: the result is `(f_df(1), f_df(2:))` -/
def gradient (f : List Var → M W Var) (x : List R) : M W (R × List R) := do
  beginNested
  let xv ← newVars x
  let fv ← f xv
  let y ← fv.val
  fv.grad
  let df ← adjs xv
  endNested
  pure (y, df)

/-- the loop grad.F90:60-64 -/
def jacLoop (xv : List Var) : List Var → M W (List (List R))
  | [] => pure []
  | fv :: fvs => do
    setZeroNestedAdj
    fv.grad
    let row ← adjs xv
    let rows ← jacLoop xv fvs
    pure (row :: rows)

/-- grad.F90:47-67 `jacobian`: the result is column 1 and the rows of the other columns -/
def jacobian (f : List Var → Nat → M W (List Var)) (n : Nat) (x : List R) :
    M W (List R × List (List R)) := do
  beginNested
  let xv ← newVars x
  let fv ← f xv n
  let fv ← confN n fv
  let ys ← vals fv
  let rows ← jacLoop xv fv
  endNested
  pure (ys, rows)

end Fz
