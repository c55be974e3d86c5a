import Verif.Model.MpiBlock
import Verif.Spec.Mpi
import Verif.Spec.Disk
/-!
# Specification: collective open, create, grow and flush
-/

set_option autoImplicit false

namespace Verif.Spec

open Verif

/-- The file operations in a sequence of events, with the process that did them. -/
def fileOps (es : List Event) : List (Nat × FOp) := es.filterMap fun
  | .file r op _ => some (r, op)
  | .coll _ => none

/-- The files `ks` have been made empty (or created empty). -/
def emptied (nd : Nodes) (ks : List Key) : Nodes := fun k => if k ∈ ks then some (.file []) else nd k

/-- All processes before they truncate the files `first, ..., first+count-1` of a block. -/
def startTrunc (n : Nat) (base : CStr) (first count : Nat) (err : Nat → Option CStr) (fail : Nat → CStr)
    (nd : Nodes) : Conf (Int × Option CStr) :=
  ⟨fun r => ⟨mpiTruncP n r base first count (err r) (fail r), 0⟩, nd⟩

/-- Each of these data files can be opened for writing: the block directory exists, and the file is not itself a
directory. -/
def CanTrunc (nd : Nodes) (base : CStr) (first count : Nat) : Prop :=
  ∀ i, i < count → nd (resolve base) = some .dir ∧ nd (fileKey base (.data (first + i))) ≠ some .dir

/-- The sum over all processes of the checksum of file `f`. -/
def rankSum (n : Nat) (H : Nat → Block) (f : Nat) : Nat :=
  ((List.range n).map fun r => (H r).fchecksum.getD f 0).sum

/-- A history of successful collective writes, from the handles `H` and files `fs` to `H'` and `fs'`: each entry
is the first row and the rows written. Any number of processes may have been delayed or have met faults that did
not make the write fail. -/
inductive Writes (env : Env) (bb : Block) (w nm n : Nat) :
    List (Nat × List (List Byte)) → (Nat → Block) → FS → (Nat → Block) → FS → Prop where
  | nil (H : Nat → Block) (fs : FS) : Writes env bb w nm n [] H fs H fs
  | cons {F : Nat → Nat → Fault} {R st : Nat → Rank} {p : Nat} {rows sw : Nat → Nat} {stored : Nat → Nat → List Byte}
      {concurrency : Int} {threshold : Nat} {es : List Event} {s : Conf (Int × Rank)}
      {L : List (Nat × List (List Byte))} {H H' : Nat → Block} {fs fs' : FS}
      (hR : ∀ r, r < n → (R r).bb = H r) (h : CollectiveWrite env bb w nm n R p rows sw stored)
      (hc : concurrency < 2147483648) (hF : ∀ r t m, F r t ≠ .crash m)
      (hrun : Run F n (startWrite env n concurrency threshold R fs) es s)
      (hret : ∀ r, r < n → (s.thr r).prog = .ret (0, st r))
      (t : Writes env bb w nm n L (fun r => (st r).bb) ⟨s.nodes, fs.dom⟩ H' fs') :
      Writes env bb w nm n ((p, allRows n rows nm stored) :: L) H fs H' fs'

/-- The sum of the bytes that a history has written to file `f`. -/
def bytesWritten (bb : Block) (L : List (Nat × List (List Byte))) (f : Nat) : Nat :=
  (L.map fun e => rowsSum bb e.1 (fun i => e.2.getD i []) f e.2.length).sum

/-- A collective flush, after which the block is opened: the code and the handles of the flush, what is opened. -/
def flushOpen (env : Env) (n : Nat) (H : Nat → Block) : M ((Int × (Nat → Block)) × Int × Option Block) := do
  let f ← mpiFlush env n H
  let r ← blockOpen env (H 0).basename
  pure (f, r.1, r.2)

/-- What the metadata files must be like for a flush: the directory exists, old attribute files are readable,
and the attribute file is up to date or will be rewritten. -/
structure Flushable (env : Env) (fs : FS) (bb : Block) : Prop where
  dir : DirOk fs bb.basename
  old : bb.attrset.dirty = true → OldOk env fs bb.basename (attrView env.m bb.attrset)
  attrs : bb.attrset.dirty = false → AttrsSay env fs bb.basename (attrView env.m bb.attrset)

end Verif.Spec
