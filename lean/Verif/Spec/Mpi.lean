import Verif.Model.Mpi
import Verif.Spec.Transfer
/-!
# Specification: collective transfers

`n` processes pass their own arrays; the rows of the arrays in rank order are the rows transferred.
-/

set_option autoImplicit false

namespace Verif.Spec

open Verif

/-- The number of rows of the processes `0, ..., r-1`. -/
def rowsBefore (rows : Nat → Nat) (r : Nat) : Nat := ((List.range r).map rows).sum

/-- The rows of one process, as stored. -/
def rankRows (rows : Nat → Nat) (nm : Nat) (stored : Nat → Nat → List Byte) (r : Nat) : List (List Byte) :=
  (List.range (rows r)).map (rowOfElems (stored r) nm)

/-- The rows of all processes in rank order. -/
def allRows (n : Nat) (rows : Nat → Nat) (nm : Nat) (stored : Nat → Nat → List Byte) : List (List Byte) :=
  (List.range n).flatMap (rankRows rows nm stored)

/-- What every process must have for a collective transfer to or from row `p` on of the block `bb`: a
handle of that block, a pointer to row `p`, an array whose first dimension is the number of its rows
`rows r`, each of `nm` elements; together the rows fit the block and an `int`. -/
structure Collective (env : Env) (bb : Block) (w nm n : Nat) (R : Nat → Rank) (p : Nat) (rows : Nat → Nat)
    (sw : Nat → Nat) : Prop where
  procs : 0 < n ∧ n < 2147483648
  block : ∀ r, r < n → BlockOk env (R r).bb w nm
  shape : ∀ r, r < n → SameShape bb (R r).bb
  points : ∀ r, r < n → PointsTo bb (R r).ptr p
  dims : ∀ r, r < n → (R r).arr.dims.head? = some (rows r)
  size : ∀ r, r < n → (R r).arr.size = rows r * nm
  strides : ∀ r, r < n → (R r).arr.strides ≠ []
  arr : ∀ r, r < n → 0 < rows r → XferOk env (R r).bb (R r).arr w (sw r) nm
  range : p + rowsBefore rows n ≤ bb.size
  count : rowsBefore rows n < 2147483648

/-- A collective write: element `e` of the array of process `r` converts to the bytes `stored r e` of the
block's dtype. -/
structure CollectiveWrite (env : Env) (bb : Block) (w nm n : Nat) (R : Nat → Rank) (p : Nat) (rows : Nat → Nat)
    (sw : Nat → Nat) (stored : Nat → Nat → List Byte) : Prop extends Collective env bb w nm n R p rows sw where
  dis : ∀ r, r < n → foreign env.m (R r).arr.dtype = true → Disjoint (R r).arr (sw r)
  conv : ∀ r, r < n → ∀ e, e < rows r * nm →
    convElem env.m env.fo (dtypeNormalize env.m bb.dtype) (R r).arr.dtype
      (peek (R r).mem (elemAddr (R r).arr e) (sw r)) = some (stored r e)

/-- A collective read: element `e` of the rows of process `r` converts to the bytes `out r e` of the
dtype of its array. -/
structure CollectiveRead (env : Env) (fs : FS) (bb : Block) (w nm n : Nat) (R : Nat → Rank) (p : Nat)
    (rows : Nat → Nat) (sw : Nat → Nat) (out : Nat → Nat → List Byte) : Prop
    extends Collective env bb w nm n R p rows sw where
  dis : ∀ r, r < n → Disjoint (R r).arr (sw r)
  sup : ∀ r, r < n → 0 < rows r → convertible env.m env.fo (R r).arr.dtype (dtypeNormalize env.m bb.dtype) = true
  conv : ∀ r, r < n → ∀ e, e < rows r * nm → Stored env.m fs bb (p + rowsBefore rows r + e / nm) →
    convElem env.m env.fo (R r).arr.dtype (dtypeNormalize env.m bb.dtype)
      (elemOfRows env.m fs bb (p + rowsBefore rows r) w nm e) = some (out r e)

/-- Whatever bytes a block element has, its conversion to the dtype of every array is defined. -/
def ConvertsAny (env : Env) (bb : Block) (w n : Nat) (R : Nat → Rank) (rows : Nat → Nat) : Prop :=
  ∀ r, r < n → 0 < rows r → ∀ bs : List Byte, bs.length = w →
    ∃ o, convElem env.m env.fo (R r).arr.dtype (dtypeNormalize env.m bb.dtype) bs = some o

/-- All processes before the first step of a collective write. -/
def startWrite (env : Env) (n : Nat) (concurrency : Int) (threshold : Nat) (R : Nat → Rank) (fs : FS) : Conf (Int × Rank) :=
  ⟨fun r => ⟨mpiWriteP env n concurrency threshold r (R r), 0⟩, fs.node⟩

/-- All processes before the first step of a collective read. -/
def startRead (env : Env) (n : Nat) (concurrency : Int) (threshold : Nat) (R : Nat → Rank) (fs : FS) : Conf (Int × Rank) :=
  ⟨fun r => ⟨mpiReadP env n concurrency threshold r (R r), 0⟩, fs.node⟩

/-- From `fs` to `nd` the rows from row `p` on have become those of `l`, and nothing else has changed. -/
structure RowsWritten (m : Machine) (bb : Block) (fs : FS) (nd : Nodes) (p : Nat) (l : List (List Byte)) : Prop where
  inside : ∀ i, i < l.length → row m ⟨nd, fs.dom⟩ bb (p + i) = l.getD i []
  outside : ∀ q, q < p ∨ p + l.length ≤ q → Stored m fs bb q → row m ⟨nd, fs.dom⟩ bb q = row m fs bb q
  other : ∀ k, (∀ f, f < bb.nfile → k ≠ fileKey bb.basename (.data f)) → nd k = fs.node k

/-- From `fs` to `nd` at most the rows `p, ..., p+n-1` have changed. -/
structure RowsTouched (m : Machine) (bb : Block) (fs : FS) (nd : Nodes) (p n : Nat) : Prop where
  outside : ∀ q, q < p ∨ p + n ≤ q → Stored m fs bb q → row m ⟨nd, fs.dom⟩ bb q = row m fs bb q
  other : ∀ k, (∀ f, f < bb.nfile → k ≠ fileKey bb.basename (.data f)) → nd k = fs.node k

/-- What writing does to the memory of the array `a` with elements of `sw` bytes: elements in foreign byte order are
swapped in place, everything else stays. -/
structure SourceAfter (m : Machine) (a : Arr) (sw : Nat) (mem mem' : Mem) : Prop where
  same : foreign m a.dtype = false → mem' = mem
  frame : ∀ y, ¬ InElems a sw 0 a.size y → mem' y = mem y
  swapped : ∀ e, e < a.size → peek mem' (elemAddr a e) sw = toNative m a.dtype (peek mem (elemAddr a e) sw)

/-- What process `r` has when a collective write of the rows of `l` from row `p` on has succeeded: a
pointer behind the last row written by any process, its handle, array and message as before. -/
structure WriteReturned (env : Env) (bb : Block) (R : Nat → Rank) (sw : Nat → Nat) (p total : Nat) (r : Nat) (st : Rank) : Prop where
  ptr : PointsTo bb st.ptr (p + total)
  shape : SameShape bb st.bb
  layout : Layout st.bb
  attrs : st.bb.attrset = (R r).bb.attrset
  dirty : (R r).bb.dirty = true → st.bb.dirty = true
  arr : st.arr = (R r).arr
  err : st.err = (R r).err
  mem : SourceAfter env.m (R r).arr (sw r) (R r).mem st.mem

/-- What process `r` has when a collective read of all rows from row `p` on has succeeded: its rows were
stored, a pointer behind the last row read by any process, the converted elements in its array; nothing
else has changed. -/
structure ReadReturned (env : Env) (fs : FS) (bb : Block) (nm : Nat) (R : Nat → Rank) (p : Nat) (rows sw : Nat → Nat)
    (out : Nat → Nat → List Byte) (total : Nat) (r : Nat) (st : Rank) : Prop where
  ptr : PointsTo bb st.ptr (p + total)
  stored : ∀ i, i < rows r → Stored env.m fs bb (p + rowsBefore rows r + i)
  same : st = { R r with mem := st.mem, ptr := st.ptr }
  elems : ∀ e, e < rows r * nm → peek st.mem (elemAddr (R r).arr e) (sw r) = out r e
  frame : ∀ y, ¬ InElems (R r).arr (sw r) 0 (R r).arr.size y → st.mem y = (R r).mem y

/-- The sum over all processes of the checksum of file `f`. -/
def totalChecksum (n : Nat) (R : Nat → Rank) (f : Nat) : Nat :=
  ((List.range n).map (fun r => (R r).bb.fchecksum.getD f 0)).sum

end Verif.Spec
