import Verif.Model.BlockP
import Verif.Spec.Transfer
/-!
# Specification: several processes writing to one block
-/

set_option autoImplicit false

namespace Verif.Spec

open Verif

/-- One process that writes to the block: its handle, pointer, array and memory, the first row it writes,
and what is to be stored for each element of its array (`sw` bytes each in memory). -/
structure Writer where
  bb : Block
  ptr : Ptr
  arr : Arr
  mem : Mem
  row : Nat
  sw : Nat
  stored : Nat → List Byte

/-- The program of that process. -/
def Writer.prog (env : Env) (W : Writer) : Prog Xfer := blockWriteP env W.bb W.ptr W.arr W.mem

/-- `n` processes whose handles describe the same block write to disjoint ranges of rows. -/
structure DisjointWriters (env : Env) (bb : Block) (w nm n : Nat) (W : Nat → Writer) : Prop where
  shape : ∀ i, i < n → SameShape bb (W i).bb
  legal : ∀ i, i < n →
    LegalWrite env (W i).bb (W i).ptr (W i).arr (W i).mem (W i).row w (W i).sw nm (W i).stored
  disjoint : ∀ i j, i < n → j < n → i ≠ j →
    (W i).row + (W i).arr.size / nm ≤ (W j).row ∨ (W j).row + (W j).arr.size / nm ≤ (W i).row

/-- The writes done one after another, in the given order: whether all of them returned 0. -/
def serialWrites (env : Env) (W : Nat → Writer) : List Nat → M Bool
  | [] => pure true
  | i :: l => do
    let x ← blockWrite env (W i).bb (W i).ptr (W i).arr (W i).mem
    let ok ← serialWrites env W l
    pure (decide (x.rc = 0) && ok)

/-- The processes before their first step. -/
def startAll (env : Env) (W : Nat → Writer) (fs : FS) : Conf Xfer := ⟨fun i => ⟨(W i).prog env, 0⟩, fs.node⟩

/-- The file system operations never fail. -/
def faultless : Nat → Nat → Fault := fun _ => noFaults

end Verif.Spec
