import Verif.Spec.Transfer
/-!
# Specification: histories of writes
-/

set_option autoImplicit false

namespace Verif.Spec

open Verif

/-- One write of a history: seek to a row, write an array. `stored e` are the bytes its element `e`
converts to, and `sw` the width of the array's elements. -/
structure WOp where
  row : Nat
  arr : Arr
  mem : Mem
  sw : Nat
  stored : Nat → List Byte

/-- Number of rows written. -/
def WOp.rows (op : WOp) (nm : Nat) : Nat := op.arr.size / nm

/-- Does the write address row `r`? -/
def WOp.covers (op : WOp) (nm r : Nat) : Bool := decide (op.row ≤ r ∧ r < op.row + op.rows nm)

/-- The bytes it stores in row `r`. -/
def WOp.bytes (op : WOp) (nm r : Nat) : List Byte := rowOfElems op.stored nm (r - op.row)

/-- The write is legal for a block. -/
structure WOp.Legal (op : WOp) (env : Env) (bb : Block) (w nm : Nat) : Prop where
  ok : XferOk env bb op.arr w op.sw nm
  dis : foreign env.m op.arr.dtype = true → Disjoint op.arr op.sw
  range : op.row + op.rows nm ≤ bb.size
  conv : ∀ e, e < op.rows nm * nm →
    convElem env.m env.fo (dtypeNormalize env.m bb.dtype) op.arr.dtype
      (peek op.mem (elemAddr op.arr e) op.sw) = some (op.stored e)

/-- Seek and write, one after another, through one handle, until one of them fails. The result is
the handle and whether all returned 0. -/
def runWrites (env : Env) : Block → List WOp → M (Block × Bool)
  | bb, [] => pure (bb, true)
  | bb, op :: ops => do
    let (rc, ptr) ← M.lift (seek bb ⟨0, 0, 0⟩ op.row)
    if rc ≠ 0 then pure (bb, false)
    else
      let x ← blockWrite env bb ptr op.arr op.mem
      if x.rc ≠ 0 then pure (x.bb, false)
      else runWrites env x.bb ops

/-- What the history last wrote to row `r`. -/
def lastRow (nm : Nat) : List WOp → Nat → Option (List Byte)
  | [], _ => none
  | op :: ops, r =>
    match lastRow nm ops r with
    | some b => some b
    | none => if op.covers nm r then some (op.bytes nm r) else none

/-- `g 0 + ... + g (n-1)`. -/
def sumN (g : Nat → Nat) : Nat → Nat
  | 0 => 0
  | n + 1 => sumN g n + g n

/-- Sum of all bytes that the history writes into file `f`. -/
def writtenSum (bb : Block) (nm f : Nat) : List WOp → Nat
  | [] => 0
  | op :: ops =>
    sumN (fun i => if rowFile bb (op.row + i) = f then byteSum (op.bytes nm (op.row + i)) else 0)
      (op.rows nm) + writtenSum bb nm f ops

/-- `sum -s` (System V): 32-bit sum of the bytes, folded twice to 16 bits. -/
def sumS (bs : List Byte) : Nat :=
  let s := byteSum bs % 4294967296
  let r := s % 65536 + s / 65536
  r % 65536 + r / 65536

end Verif.Spec
