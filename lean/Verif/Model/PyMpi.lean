import Verif.Model.Python
import Verif.Model.BlockP
import Verif.Model.MpiPhases
/-!
# The Python interface to blocks with several processes

Models `FileMPI.create_from_array` (`/repo/bigfile/__init__.py:280-320`) with `ColumnMPI.create`, `ColumnMPI.open` (`__init__.py:200-227`) and
`_MPI_broadcast`, `_MPI_flush` (`/repo/bigfile/pyxbigfile.pyx:513-564`).

A part in which only rank 0 uses files, and all others wait for it, is written in the monad of rank 0. The loops that write are programs of
the processes, whose file operations are interleaved.

Simplifications: all processes pass the same name and the same number of files, so that `check_unique` (`__init__.py:402-406`) is true.
Opening a block only reads, and no process writes meanwhile, so the processes open it one after another; likewise they drop their old
handles (`__dealloc__`, pyxbigfile.pyx:577-580) one after another. Dropping a handle that was flushed does
nothing and is left out after an exception. The list of blocks that `FileMPI.create` refreshes
(`__init__.py:277`) is left out.
-/

set_option autoImplicit false

namespace Verif

/-- `ColumnLowLevelAPI.write` (pyxbigfile.pyx:405-425) as steps of a process. -/
def pyWriteP (env : Env) (bb : Block) (start : Int) (a : Arr) (mem : Mem) : Prog (Except PyExc Unit × Block × Mem) := do
  let (rc, ptr) ← Prog.lift (seek bb ⟨0, 0, 0⟩ start)
  if rc ≠ 0 then pure (.error .error, bb, mem)
  else
    let x ← blockWriteP env bb ptr a mem
    if x.rc ≠ 0 then pure (.error .error, x.bb, x.mem) else pure (.ok (), x.bb, x.mem)

/-- The loop of one process (`__init__.py:317-318`): `numpy.array(array[i:i+itemlimit])` is a copy at address `buf`, and goes to row
`offset + i`. -/
def pyChunksP (env : Env) (src : PySource) (itemlimit offset : Nat) (buf : Int) :
    List Nat → Block → Mem → Prog (Except PyExc Unit × Block × Mem)
  | [], bb, mem => pure (.ok (), bb, mem)
  | i :: is, bb, mem => do
    let n := min itemlimit (src.size - i)
    let a ← Prog.lift (pyArr env.m src.dtype n src.inner buf)
    let (r, bb, mem) ← pyWriteP env bb ((offset + i : Nat) : Int) a (poke mem buf ((List.range n).flatMap fun k => src.row (i + k)))
    match r with
    | .error e => pure (.error e, bb, mem)
    | .ok () => pyChunksP env src itemlimit offset buf is bb mem

/-- `for i in range(0, len(array), itemlimit)` (`__init__.py:317-318`): with `itemlimit = 0`, `range` raises `ValueError`. -/
def pyLoopP (env : Env) (src : PySource) (itemlimit offset : Nat) (buf : Int) (bb : Block) (mem : Mem) :
    Prog (Except PyExc Unit × Block × Mem) :=
  if itemlimit = 0 then pure (.error .valueError, bb, mem)
  else pyChunksP env src itemlimit offset buf (pyRange src.size itemlimit) bb mem

/-- All processes have come to a place where each may have raised an exception. If none has, they go on; if all have, that is the result.
If only some have, the others wait for them for ever in the next collective call. (The calls of `comm` at `__init__.py:201`,
214, 298.) -/
def pyGoOn {α : Type} (n : Nat) (exc : Nat → Option PyExc) (k : Phases (Nat → Except PyExc α)) : Phases (Nat → Except PyExc α) :=
  if (List.range n).all (fun r => (exc r).isNone) then k
  else if (List.range n).all (fun r => (exc r).isSome) then pure fun r => .error ((exc r).getD .error)
  else .hang

/-- What rank 0 does in `ColumnMPI.create` (`__init__.py:204-206`): `ColumnLowLevelAPI.create` (pyxbigfile.pyx:362-403) and `_close`
(pyxbigfile.pyx:566-571), which flushes. -/
def pyCreateRoot (env : Env) (bf name : CStr) (src : PySource) (nfile size : Nat) : M (Option PyExc) := do
  if nfile = 0 ∧ size ≠ 0 then pure (some .valueError)
  else if 1 < src.inner.length then pure (some .assertion)
  else
    match (← createBlock env bf name (some src.dtype) (pyItems src.inner) (pySizes nfile size)).2 with
    | none => pure (some .error)
    | some bb =>
      let (rc, _) ← blockFlush env bb
      pure (if rc ≠ 0 then some .error else none)

/-- `ColumnLowLevelAPI.open` (pyxbigfile.pyx:353-360) on the processes `0, ..., n-1`. -/
def pyOpenRanks (env : Env) (bf name : CStr) : Nat → M (Nat → Option Block)
  | 0 => pure fun _ => none
  | r + 1 => do
    let H ← pyOpenRanks env bf name r
    let (_, b) ← openBlock env bf name
    pure fun q => if q = r then b else H q

/-- `ColumnMPI.open` (`__init__.py:213-227`), and then `k`: the processes exchange whether they failed. If somebody did, it raises its own
exception, and the others raise a `RuntimeException`, a name that does not exist. (The handle `b0` in place of a missing one is
never used.) -/
def pyMpiOpen {α : Type} (env : Env) (n : Nat) (bf name : CStr) (k : (Nat → Block) → Phases (Nat → Except PyExc α)) :
    Phases (Nat → Except PyExc α) := do
  let H ← Phases.alone (pyOpenRanks env bf name n)
  let failed := (List.range n).any fun r => (H r).isNone
  pyGoOn n (fun r => if (H r).isNone then some .error else if failed then some .nameError else none)
    (match H 0 with
      | none => .hang
      | some b0 => k fun r => (H r).getD b0)

/-- `_MPI_flush` (pyxbigfile.pyx:535-564): rank 0 gets the sums of the checksums of all processes and is dirty if any handle is; it flushes,
and its handle goes to all processes, also after a failure. The code of rank 0, and the handles. -/
def pyMpiFlush (env : Env) (n : Nat) (H : Nat → Block) : M (Int × (Nat → Block)) := do
  let (rc, bb) ← blockFlush env (reducedRoot n H)
  pure (rc, mpiBroadcast env bb)

/-- The processes `0, ..., n-1` drop their handles (pyxbigfile.pyx:577-580). -/
def pyDropRanks (env : Env) (H : Nat → Block) : Nat → M Unit
  | 0 => pure ()
  | r + 1 => do
    pyDropRanks env H r
    let _ ← blockClose env (H r)
    pure ()

/-- The number of rows of the processes before `r`: `sum(comm.allgather(len(array))[:comm.rank])` (`__init__.py:306`). -/
def pyOffset (n : Nat) (src : Nat → PySource) (r : Nat) : Nat := (((List.range n).map fun q => (src q).size).take r).sum

/-- The bytes of a row: `dtype.itemsize` (`__init__.py:307-314`). -/
def pyRowBytes (env : Env) (src : PySource) : Nat := (itemsize env.m src.dtype).toNat * pyItems src.inner

/-- `FileMPI.create_from_array` (`__init__.py:280-320`) on `n` processes: process `r` passes `src r`, copies pieces to address `buf` of its memory
`mem r`. What it raises, or the handle of the block opened anew. The `with` statement flushes together (`__exit__`, pyxbigfile.pyx:322-323),
also on processes that raise an exception in the loop. -/
def createFromArrayAll (env : Env) (n : Nat) (bf name : CStr) (src : Nat → PySource) (nfile : Option Nat) (memorylimit : Nat) (buf : Int)
    (mem : Nat → Mem) : Phases (Nat → Except PyExc Block) :=
  let size := ((List.range n).map fun r => (src r).size).sum
  let nfile := pyNfile nfile size
  pyGoOn n (fun r => if pyRowBytes env (src r) = 0 then some .zeroDivision else none) do
    let exc ← Phases.alone (pyCreateRoot env bf name (src 0) nfile size)
    pyGoOn n (fun r => if r = 0 then exc else none)
      (pyMpiOpen env n bf name fun H => do
        let out ← Phases.together n fun r =>
          pyLoopP env (src r) (pyItemlimit memorylimit (pyRowBytes env (src r))) (pyOffset n src r) buf (H r) (mem r)
        let (rc, H) ← Phases.alone (pyMpiFlush env n fun r => (out r).2.1)
        if rc ≠ 0 then do
          Phases.alone (pyDropRanks env H n)
          pure fun _ => .error .error
        else
          pyGoOn n (fun r => match (out r).1 with
            | .ok () => none
            | .error e => some e)
            (pyMpiOpen env n bf name fun H' => do
              Phases.alone (pyDropRanks env H n)
              pure fun r => .ok (H' r)))

end Verif
