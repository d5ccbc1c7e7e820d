import Verif.Model.Rest

/-!
# What a tape holds

A tape by itself (`type(tape)` of `tape.F90`) is a list of items: records, arrays of integers, arrays of reals.  `does`
says what each procedure does to this list, without words and positions; `none` where the procedure is not made for the
item it is used on.
-/

namespace Spec
open Fz

variable {W R : Type} [Arith R] [Rep W R]

/-- an item on a tape -/
inductive Cell (R : Type) where
  /-- value, adjoint, operands and data of a record -/
  | record (val adj : R) (ops : List Nat) (data : List R)
  | ints (l : List Nat)
  | reals (d : List R)

/-- words that an item takes -/
def Cell.len : Cell R → Nat
  | .record _ _ ops data => 6 + ops.length + 2 * data.length
  | .ints l => l.length
  | .reals d => 2 * d.length

/-- place of item `k` -/
def start (cs : List (Cell R)) (k : Nat) : Nat := 1 + ((cs.take k).map Cell.len).sum

/-- the procedures that change a tape; `k` is the number of an item, counted from 0 -/
inductive TapeOp (R : Type) where
  | push1
  | pushN (n : Nat)
  | pushInts (l : List Nat)
  | pushReals (d : List R)
  | pushMatrix (m : Mat R)
  | pushVal (d : R)
  | pushValOp (d : R) (op : List Nat)
  | pushValDop (d : R) (dop : List R)
  | pushValOpDop (d : R) (op : List Nat) (dop : List R)
  | setVal (k : Nat) (d : R)
  | setAdj (k : Nat) (d : R)
  /-- `set_real_at`: element `j` of an array of reals -/
  | setReal (k j : Nat) (d : R)
  /-- `set_real_array_at`: the elements from `j` on -/
  | setReals (k j : Nat) (ds : List R)

/-- an empty record -/
def Cell.blank : Cell R := .record Arith.zero Arith.zero [] []

/-- the elements of `d` from `j` on replaced by `ds` -/
def splice (d : List R) (j : Nat) (ds : List R) : List R := d.take j ++ ds ++ d.drop (j + ds.length)

/-- integers that fit in a word -/
def Small (l : List Nat) : Prop := ∀ i ∈ l, i < 2 ^ 31

instance (l : List Nat) : Decidable (Small l) := by unfold Small; infer_instance

/-- what a procedure does to the list of items -/
def TapeOp.does : TapeOp R → List (Cell R) → Option (List (Cell R))
  | .push1, cs => some (cs ++ [Cell.blank])
  | .pushN n, cs => some (cs ++ List.replicate n Cell.blank)
  | .pushInts l, cs => if Small l then some (cs ++ [.ints l]) else none
  | .pushReals d, cs => some (cs ++ [.reals d])
  | .pushMatrix m, cs => some (cs ++ [.reals m.flat])
  | .pushVal d, cs => some (cs ++ [.record d Arith.zero [] []])
  | .pushValOp d op, cs => if Small op then some (cs ++ [.record d Arith.zero op []]) else none
  | .pushValDop d dop, cs => some (cs ++ [.record d Arith.zero [] dop])
  | .pushValOpDop d op dop, cs => if Small op then some (cs ++ [.record d Arith.zero op dop]) else none
  | .setVal k d, cs => match cs[k]? with
    | some (.record _ a op dop) => some (cs.set k (.record d a op dop))
    | _ => none
  | .setAdj k d, cs => match cs[k]? with
    | some (.record v _ op dop) => some (cs.set k (.record v d op dop))
    | _ => none
  | .setReal k j d, cs => match cs[k]? with
    | some (.reals x) => if j < x.length then some (cs.set k (.reals (x.set j d))) else none
    | _ => none
  | .setReals k j ds, cs => match cs[k]? with
    | some (.reals x) => if j + ds.length ≤ x.length then some (cs.set k (.reals (splice x j ds))) else none
    | _ => none

/-- a sequence of procedures -/
def doAll : List (TapeOp R) → List (Cell R) → Option (List (Cell R))
  | [], cs => some cs
  | o :: os, cs => (o.does cs).bind (doAll os)

/-- the places that the pushes so far have returned, and the tape.  `push_n` returns the place of the first of `n`
records of 6 words. -/
abbrev Tapes (W : Type) := List Nat × Tape W

/-- note the place returned by a push -/
def noted (ids : List Nat) (r : Except Err (Nat × Tape W)) : Except Err (Tapes W) := do
  let (id, t) ← r
  pure (ids ++ [id], t)

/-- the procedures of the code (`Model/Tape.lean`), used on the noted places -/
def TapeOp.run : TapeOp R → Tapes W → Except Err (Tapes W)
  | .push1, (ids, t) => noted ids t.push1
  | .pushN n, (ids, t) => do
    let (id, t) ← t.pushN n
    pure (ids ++ (List.range n).map fun j => id + 6 * j, t)
  | .pushInts l, (ids, t) => noted ids (t.pushIntArray l)
  | .pushReals d, (ids, t) => noted ids (t.pushRealArray d)
  | .pushMatrix m, (ids, t) => noted ids (t.pushReal2d m)
  | .pushVal d, (ids, t) => noted ids (t.pushVal d)
  | .pushValOp d op, (ids, t) => noted ids (t.pushValOp d op)
  | .pushValDop d dop, (ids, t) => noted ids (t.pushValDop d dop)
  | .pushValOpDop d op dop, (ids, t) => noted ids (t.pushValOpDop d op dop)
  | .setVal k d, (ids, t) => do
    let t ← t.setValAt (ids.getD k 0) d
    pure (ids, t)
  | .setAdj k d, (ids, t) => do
    let t ← t.setAdjAt (ids.getD k 0) d
    pure (ids, t)
  | .setReal k j d, (ids, t) => do
    let t ← t.setRealAt (ids.getD k 0 + 2 * j) d
    pure (ids, t)
  | .setReals k j ds, (ids, t) => do
    let t ← t.setRealArrayAt (ids.getD k 0 + 2 * j) ds
    pure (ids, t)

/-- a sequence of procedures -/
def runAll : List (TapeOp R) → Tapes W → Except Err (Tapes W)
  | [], s => pure s
  | o :: os, s => do
    let s ← o.run s
    runAll os s

/-- an item is read as it is, by every procedure that reads such items -/
def Cell.ReadAt (t : Tape W) (p : Nat) : Cell R → Prop
  | .record v a op dop => t.valAt p = .ok v ∧ t.adjAt p = .ok a ∧ t.nOperand p = .ok op.length ∧ t.operandIndex p = .ok op ∧
      t.operandInfo p (op.length + 2) = .ok (op.length :: op ++ [dop.length]) ∧
      t.nDataOperand p = .ok dop.length ∧ t.dataOperand p = .ok dop
  | .ints l => t.rdSec p l.length = .ok l
  | .reals d => t.getRealArrayAt p d.length = .ok d ∧ ∀ j (h : j < d.length), t.getRealAt (p + 2 * j) = .ok d[j]

end Spec
