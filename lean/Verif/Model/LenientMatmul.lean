import Verif.Model.Lenient

/-!
# The chain procedures of matrix products without checks of array shapes

`Model/Lenient.lean` keeps the check of array shapes in the chain procedures of matrix products, because the array they
fill (`info`, the place of the factors on the tape) holds addresses.  Here it is dropped there too.
-/

namespace Fz
variable {W R : Type} [Arith R] [Rep W R]

/-- the integer found at place `i` of the local array `info` of the chain procedure of `this`, in the state `s`, if the
assignment does not reach it (matmul.F90:29, 59, 89) -/
abbrev JunkI (W : Type) := (this : Vari) → (s : St W) → (i : Nat) → Nat

/-- assignment to a local array of size 4 (compare `conf4`) (matmul.F90:29, 59, 89) -/
def fill4 (K : JunkI W) (this : Vari) (l : List Nat) : M W (Nat × Nat × Nat × Nat) := fun s =>
  .ok ((l.getD 0 (K this s 0), l.getD 1 (K this s 1), l.getD 2 (K this s 2), l.getD 3 (K this s 3)), s)

/-- matmul.F90:25-33 -/
def chainMatmulVVL (K : JunkI W) (this : Vari) : M W Unit := do
  let i ← this.operandIndex
  let (i1, i2, l1, l2) ← fill4 K this i
  let row ← readTape fun t => t.matrixRowIndex l1 i1
  let col ← readTape fun t => t.matrixColIndex l2 i2
  chainDotProductVV this row col
/-- matmul.F90:55-63 -/
def chainMatmulVDL (K : JunkI W) (this : Vari) : M W Unit := do
  let i ← this.operandIndex
  let (i1, i2, l1, l2) ← fill4 K this i
  let row ← readTape fun t => t.matrixRowIndex l1 i1
  let col ← readTape fun t => t.matrixColData l2 i2
  chainDotProductVD this row col
/-- matmul.F90:85-93 -/
def chainMatmulDVL (K : JunkI W) (this : Vari) : M W Unit := do
  let i ← this.operandIndex
  let (i1, i2, l1, l2) ← fill4 K this i
  let row ← readTape fun t => t.matrixRowData l1 i1
  let col ← readTape fun t => t.matrixColIndex l2 i2
  chainDotProductDV this row col

/-- `call varis(i)%chain()` (var.F90:174) -/
def runChainM (J : Junk W R) (K : JunkI W) (this : Vari) : M W Unit :=
  match this.chain with
  | .matmulVV => chainMatmulVVL K this
  | .matmulVD => chainMatmulVDL K this
  | .matmulDV => chainMatmulDVL K this
  | _ => runChainL J this

/-- the loop var.F90:173-175 (compare `chainLoop`) -/
def chainLoopM (J : Junk W R) (K : JunkI W) (lo : Nat) : Nat → M W Unit
  | 0 => pure ()
  | n + 1 => do
    let v ← getVari (lo + n)
    runChainM J K v
    chainLoopM J K lo n

/-- var.F90:169-176 `grad` -/
def Var.gradM (J : Junk W R) (K : JunkI W) (this : Var) : M W Unit := do
  let v ← getVari this.vi
  v.initDependent
  let s ← get
  chainLoopM J K 1 (s.vhead - 1)

end Fz
