import Verif.Model.Basic

/-!
# `tape.F90`: the word-level tape

A record is `(val, adj, n_operands, operands..., n_data_operands, data_operands...)`; a real takes
two words.  Indices are 1-based as in the code.  The build without `FZ_STACK_LEN`/`FZ_USE_STACK`
(allocatable storage) is modelled.
-/

namespace Fz

/-- env.F90:13 -/
def initVariStackSize : Nat := 1024
/-- env.F90:17 -/
def minRecSize : Nat := 6
/-- env.F90:19 -/
def initTapeSize : Nat := 2 * minRecSize * initVariStackSize

/-- tape.F90:26-60.  `size = 0` means `storage` is not allocated; `mem i` is `storage(i)`, only
meaningful for `1 ≤ i ≤ size`. -/
structure Tape (W : Type) where
  head : Nat
  size : Nat
  mem : Nat → W

variable {W R : Type} [Arith R] [Rep W R]

namespace Tape

/-- tape.F90:25-26 initial values -/
def init : Tape W := { head := 1, size := 0, mem := fun _ => Rep.ofNat 0 }

/-- reading `storage(i)` (tape.F90:30) -/
def rd (t : Tape W) (i : Nat) : Except Err W :=
  if 1 ≤ i ∧ i ≤ t.size then .ok (t.mem i) else .error .oob

/-- writing `storage(i) = w` (tape.F90:30) -/
def wr (t : Tape W) (i : Nat) (w : W) : Except Err (Tape W) :=
  if 1 ≤ i ∧ i ≤ t.size then .ok { t with mem := fun k => if k = i then w else t.mem k }
  else .error .oob

/-- reading an integer word (tape.F90:30) -/
def rdN (t : Tape W) (i : Nat) : Except Err Nat := do
  let w ← t.rd i
  pure (Rep.toNat w)

/-- reading the contiguous section `storage(i : i+n-1)` (tape.F90:256, 281, 289) -/
def rdSec (t : Tape W) (i : Nat) : Nat → Except Err (List Nat)
  | 0 => pure []
  | n + 1 => do
    let a ← t.rdN i
    let as ← t.rdSec (i + 1) n
    pure (a :: as)

/-- writing the contiguous section `storage(i : i+size(ws)-1) = ws` (tape.F90:108, 119) -/
def wrSec (t : Tape W) (i : Nat) : List W → Except Err (Tape W)
  | [] => pure t
  | w :: ws => do
    let t ← t.wr i w
    t.wrSec (i + 1) ws

/-- tape.F90:76-81: the doubling loop of `alloc_storage`.  The size is an `int32`: doubling past
the largest `int32` is the outcome `overflow`.  (`size = 0` cannot occur here: tape.F90:71-74 has
set it; it would not terminate.) -/
def allocLoop (t : Tape W) (n : Nat) : Except Err (Tape W) :=
  if t.size + 1 < n + t.head then
    if _h : t.size = 0 then .error .overflow
    else if 2 * t.size ≤ int32Max then
      allocLoop { t with
        size := 2 * t.size
        mem := fun i => if i ≤ t.size then t.mem i else Rep.ofNat 0 } n
    else .error .overflow
  else .ok t
termination_by n + t.head - t.size
decreasing_by omega

/-- tape.F90:67-83 `alloc_storage` -/
def alloc (t : Tape W) (n : Nat) : Except Err (Tape W) :=
  if t.size = 0 then allocLoop { t with size := initTapeSize, mem := fun _ => Rep.ofNat 0 } n
  else allocLoop t n

/-- tape.F90:371-381 `set_real_at` -/
def setRealAt (t : Tape W) (i : Nat) (d : R) : Except Err (Tape W) :=
  t.wrSec i [Rep.lo d, Rep.hi d]

/-- tape.F90:398-403 `get_real_at` -/
def getRealAt (t : Tape W) (i : Nat) : Except Err R := do
  let a ← t.rd i
  let b ← t.rd (i + 1)
  pure (Rep.join a b)

/-- the words of a real array under `transfer` (tape.F90:119, 130) -/
def realWords (d : List R) : List W := d.flatMap fun r => [Rep.lo r, Rep.hi r]

/-- tape.F90:383-396 `set_real_array_at` -/
def setRealArrayAt (t : Tape W) (i : Nat) (d : List R) : Except Err (Tape W) :=
  t.wrSec i (realWords d)

/-- tape.F90:405-410 `get_real_array_at` -/
def getRealArrayAt (t : Tape W) (i : Nat) : Nat → Except Err (List R)
  | 0 => pure []
  | n + 1 => do
    let a ← t.getRealAt i
    let as ← t.getRealArrayAt (i + 2) n
    pure (a :: as)

/-- tape.F90:85-91 `push_1` -/
def push1 (t : Tape W) : Except Err (Nat × Tape W) := do
  let id := t.head
  let t ← t.alloc minRecSize
  pure (id, { t with head := t.head + minRecSize })

/-- tape.F90:93-100 `push_n` -/
def pushN (t : Tape W) (n : Nat) : Except Err (Nat × Tape W) := do
  let id := t.head
  let t ← t.alloc (n * minRecSize)
  pure (id, { t with head := t.head + minRecSize * n })

/-- tape.F90:102-110 `push_int_array` -/
def pushIntArray (t : Tape W) (i : List Nat) : Except Err (Nat × Tape W) := do
  let id := t.head
  let t ← t.alloc i.length
  let t ← t.wrSec t.head (i.map Rep.ofNat)
  pure (id, { t with head := t.head + i.length })

/-- tape.F90:112-121 `push_real_array` -/
def pushRealArray (t : Tape W) (d : List R) : Except Err (Nat × Tape W) := do
  let id := t.head
  let t ← t.alloc (2 * d.length)
  let t ← t.wrSec id (realWords d)
  pure (id, { t with head := t.head + 2 * d.length })

/-- tape.F90:134-139 `set_val_at` -/
def setValAt (t : Tape W) (i : Nat) (d : R) : Except Err (Tape W) := t.setRealAt i d

/-- tape.F90:141-145 `set_val_curr` -/
def setValCurr (t : Tape W) (d : R) : Except Err (Tape W) := t.setValAt t.head d

/-- tape.F90:147-155 `push_val` -/
def pushVal (t : Tape W) (d : R) : Except Err (Nat × Tape W) := do
  let id := t.head
  let t ← t.alloc minRecSize
  let t ← t.setValCurr d
  pure (id, { t with head := t.head + minRecSize })

/-- tape.F90:157-162 `set_adj_at` -/
def setAdjAt (t : Tape W) (i : Nat) (d : R) : Except Err (Tape W) := t.setRealAt (i + 2) d

/-- tape.F90:164-168 `set_adj_curr` -/
def setAdjCurr (t : Tape W) (d : R) : Except Err (Tape W) := t.setAdjAt t.head d

/-- tape.F90:170-175 `val_at` -/
def valAt (t : Tape W) (i : Nat) : Except Err R := t.getRealAt i

/-- tape.F90:177-182 `adj_at` -/
def adjAt (t : Tape W) (i : Nat) : Except Err R := t.getRealAt (i + 2)

/-- tape.F90:184-188 `val_curr` -/
def valCurr (t : Tape W) : Except Err R := t.valAt t.head

/-- tape.F90:190-194 `adj_curr` (the code calls `val_at`, not `adj_at`) -/
def adjCurr (t : Tape W) : Except Err R := t.valAt t.head

/-- tape.F90:197-210 `push_val_op` -/
def pushValOp (t : Tape W) (val : R) (op : List Nat) : Except Err (Nat × Tape W) := do
  let id := t.head
  let t ← t.alloc 4
  let t ← t.setValCurr val
  let t := { t with head := t.head + 4 }
  let (_, t) ← t.pushIntArray ([op.length] ++ op ++ [0])
  pure (id, t)

/-- tape.F90:212-225 `push_val_dop` -/
def pushValDop (t : Tape W) (val : R) (dop : List R) : Except Err (Nat × Tape W) := do
  let id := t.head
  let t ← t.alloc minRecSize
  let t ← t.setValCurr val
  let t := { t with head := t.head + 4 }
  let t := { t with head := t.head + 1 }
  let t ← t.wr t.head (Rep.ofNat dop.length)
  let t := { t with head := t.head + 1 }
  let (_, t) ← t.pushRealArray dop
  pure (id, t)

/-- tape.F90:229-241 `push_val_op_dop` -/
def pushValOpDop (t : Tape W) (val : R) (op : List Nat) (dop : List R) :
    Except Err (Nat × Tape W) := do
  let id := t.head
  let t ← t.alloc 4
  let t ← t.setValCurr val
  let t := { t with head := t.head + 4 }
  let (_, t) ← t.pushIntArray ([op.length] ++ op ++ [dop.length])
  let (_, t) ← t.pushRealArray dop
  pure (id, t)

/-- tape.F90:243-248 `n_operand` -/
def nOperand (t : Tape W) (i : Nat) : Except Err Nat := t.rdN (i + 4)

/-- tape.F90:284-290 `operand_index` -/
def operandIndex (t : Tape W) (i : Nat) : Except Err (List Nat) := do
  let nop ← t.rdN (i + 4)
  t.rdSec (i + 5) nop

/-- tape.F90:250-260 `operand_val` -/
def operandVal (t : Tape W) (i : Nat) : Except Err (List R) := do
  let nop ← t.rdN (i + 4)
  let op ← t.rdSec (i + 5) nop
  op.mapM t.valAt

/-- tape.F90:262-272 `operand_adj` -/
def operandAdj (t : Tape W) (i : Nat) : Except Err (List R) := do
  let nop ← t.rdN (i + 4)
  let op ← t.rdSec (i + 5) nop
  op.mapM t.adjAt

/-- tape.F90:277-282 `operand_info` -/
def operandInfo (t : Tape W) (i n : Nat) : Except Err (List Nat) := t.rdSec (i + 4) n

/-- tape.F90:348-353 `record_len` -/
def recordLen (t : Tape W) (i : Nat) : Except Err Nat := do
  let a ← t.rdN (i + 4)
  let b ← t.rdN (i + 5)
  pure (minRecSize + a + 2 * b)

/-- tape.F90:355-360 `n_data_operand` -/
def nDataOperand (t : Tape W) (i : Nat) : Except Err Nat := do
  let nop ← t.rdN (i + 4)
  t.rdN (i + 5 + nop)

/-- tape.F90:362-369 `data_operand` -/
def dataOperand (t : Tape W) (i : Nat) : Except Err (List R) := do
  let nop ← t.rdN (i + 4)
  let ndop ← t.rdN (i + 5 + nop)
  t.getRealArrayAt (i + minRecSize + nop) ndop

/-- reading the strided section `storage(i : j : stride)`; a zero stride is not allowed (tape.F90:313) -/
def rdStride (t : Tape W) (i j stride : Nat) : Except Err (List Nat) :=
  if stride = 0 then .error .nonconf
  else ((List.range ((j + stride - i) / stride)).map fun k => i + k * stride).mapM t.rdN

/-- tape.F90:292-297 `matrix_nrow`, array_in_tape.F90:81-84 `nrow` -/
def matrixNrow (t : Tape W) (i : Nat) : Except Err Nat := t.rdN i
/-- tape.F90:299-304 `matrix_ncol`, array_in_tape.F90:86-89 `ncol` -/
def matrixNcol (t : Tape W) (i : Nat) : Except Err Nat := t.rdN (i + 1)

/-- array assignment to an array of `n` elements (tape.F90:309-313) -/
def conform {α : Type} (n : Nat) (l : List α) : Except Err (List α) :=
  if l.length = n then .ok l else .error .nonconf

/-- tape.F90:306-314 `matrix_row_index`, array_in_tape.F90:91-97 `row` -/
def matrixRowIndex (t : Tape W) (i row : Nat) : Except Err (List Nat) := do
  let nrow ← t.rdN i
  let ncol ← t.rdN (i + 1)
  let l ← t.rdStride (i + 1 + row) (i + 1 + nrow * ncol) nrow
  conform ncol l

/-- tape.F90:316-326 `matrix_row_data`, array_in_tape.F90:99-108 `data_row`
(`row` is 1-based; `2*(row-1)` with natural subtraction, no caller passes 0) -/
def matrixRowData (t : Tape W) (i row : Nat) : Except Err (List R) := do
  let nrow ← t.rdN i
  let ncol ← t.rdN (i + 1)
  (List.range ncol).mapM fun j => t.getRealAt (i + 2 + 2 * j * nrow + 2 * (row - 1))

/-- tape.F90:328-336 `matrix_col_index`, array_in_tape.F90:110-116 `col` -/
def matrixColIndex (t : Tape W) (i col : Nat) : Except Err (List Nat) := do
  let nrow ← t.rdN i
  t.rdSec (i + 1 + (col - 1) * nrow + 1) nrow

/-- tape.F90:338-346 `matrix_col_data`, array_in_tape.F90:118-124 `data_col` -/
def matrixColData (t : Tape W) (i col : Nat) : Except Err (List R) := do
  let nrow ← t.rdN i
  t.getRealArrayAt (i + 2 + (col - 1) * nrow * 2) nrow

end Tape
end Fz
