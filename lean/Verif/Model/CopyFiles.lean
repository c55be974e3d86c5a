import Verif.Model.BlockP
import Verif.Model.CopyMpi
/-!
# bigfile-copy-mpi with its file operations

The work queue of `Verif/Model/CopyMpi.lean` together with what the processes do to the files: while a process copies a range
(`/repo/utils/bigfile-copy-mpi.c`, lines 164-192), its file operations are separate steps, and those of all processes are
interleaved in any way. All processes have the same handle of the source, and their handles of the new block are their own.
-/

set_option autoImplicit false

namespace Verif

/-- `big_block_read_simple` (bigfile.c:757-795) in steps, see `readSimple`. -/
def readSimpleP (env : Env) (bb : Block) (start size : Int) (dtype : Option CStr) (buf : Int)
    (mem : Mem) : Prog (Int × Option Arr × Mem) := do
  let dt := dtype.getD bb.dtype
  let (rc, ptr) ← Prog.lift (seek bb ⟨0, 0, 0⟩ start)
  if rc ≠ 0 then pure (-1, none, mem)
  else
    let size := if u64 (start + size) > bb.size then i64 (bb.size - start) else size
    if size < 0 then pure (-1, none, mem)
    else
      let a ← Prog.lift (arrayInit env.m buf dt [size.toNat, u64 bb.nmemb] none)
      let x ← blockReadP env bb ptr a mem
      if x.rc ≠ 0 then pure (-1, none, x.mem) else pure (0, some a, x.mem)

/-- What a process keeps between two ranges: whether copying the last one failed, its handle of the new block, its memory.
(bigfile-copy-mpi.c:153-196.) -/
structure Worker where
  rc : Int
  bb : Block
  mem : Mem

/-- Copying one range (bigfile-copy-mpi.c:164-192): `bb` is the source, `buf` the address that `malloc` returns. -/
def copyRangeP (env : Env) (bb : Block) (buf : Int) (offset len : Nat) (x : Worker) : Prog Worker := do
  let (_, arr, mem) ← readSimpleP env bb offset (i64 len) none buf x.mem
  match arr with
  | none => pure ⟨-1, x.bb, mem⟩
  | some a =>
    let (rc, ptr) ← Prog.lift (seek x.bb ⟨0, 0, 0⟩ offset)
    if rc ≠ 0 then pure ⟨-1, x.bb, mem⟩
    else
      let y ← blockWriteP env x.bb ptr a mem
      if y.rc ≠ 0 then pure ⟨-1, y.bb, y.mem⟩ else pure ⟨0, y.bb, y.mem⟩

/-- The queue, and the processes with the files. A process that is not copying is `ret x`. (bigfile-copy-mpi.c:120-196.) -/
structure FilesConf where
  queue : CopyConf
  procs : Conf Worker

/-- A step of the queue or of the files. (bigfile-copy-mpi.c:120-196.) -/
inductive FilesEvent where
  | queue (e : CopyEvent)
  | file (e : Event)

/-- The steps of the queue that do not begin or end the copying of a range. (bigfile-copy-mpi.c:124-163, 189-196.) -/
def CopyEvent.isTalk : CopyEvent → Bool
  | .hand _ _ _ => true
  | .other => true
  | _ => false

/-- One step of `n` processes copying a block of `size` rows. `job o l` is what a process does with the range of `l` rows from `o` on:
`copyRangeP`. (bigfile-copy-mpi.c:120-196.) -/
inductive FilesStep (job : Nat → Nat → Worker → Prog Worker) (F : Nat → Nat → Fault) (n size : Nat) :
    FilesConf → FilesEvent → FilesConf → Prop where
  /-- Messages. -/
  | talk (s : FilesConf) (e : CopyEvent) (q : CopyConf) (h : CopyStep n size s.queue e q) (he : e.isTalk = true) :
      FilesStep job F n size s (.queue e) { s with queue := q }
  /-- A process begins to copy a range. -/
  | take (s : FilesConf) (r o l : Nat) (q : CopyConf) (x : Worker) (t : Nat) (h : CopyStep n size s.queue (.taken r o l) q)
      (ht : s.procs.thr r = ⟨.ret x, t⟩) :
      FilesStep job F n size s (.queue (.taken r o l))
        ⟨q, s.procs.put r ⟨job o l x, t⟩ s.procs.nodes⟩
  /-- A process does a file operation. -/
  | file (s : FilesConf) (e : Event) (p : Conf Worker) (h : Step F n s.procs e p) :
      FilesStep job F n size s (.file e) { s with procs := p }
  /-- A process has copied a range. -/
  | copied (s : FilesConf) (r o l : Nat) (q : CopyConf) (x : Worker) (t : Nat) (h : CopyStep n size s.queue (.copied r o l) q)
      (ht : s.procs.thr r = ⟨.ret x, t⟩) (hx : x.rc = 0) :
      FilesStep job F n size s (.queue (.copied r o l)) { s with queue := q }
  /-- A process could not copy a range. -/
  | failed (s : FilesConf) (r o l : Nat) (q : CopyConf) (x : Worker) (t : Nat) (h : CopyStep n size s.queue (.failed r o l) q)
      (ht : s.procs.thr r = ⟨.ret x, t⟩) (hx : x.rc ≠ 0) :
      FilesStep job F n size s (.queue (.failed r o l)) { s with queue := q }

/-- A run. (bigfile-copy-mpi.c:120-196.) -/
inductive FilesRun (job : Nat → Nat → Worker → Prog Worker) (F : Nat → Nat → Fault) (n size : Nat) :
    FilesConf → List FilesEvent → FilesConf → Prop where
  | nil (s : FilesConf) : FilesRun job F n size s [] s
  | snoc {s s1 s' : FilesConf} {es : List FilesEvent} {e : FilesEvent} (t : FilesRun job F n size s es s1)
      (h : FilesStep job F n size s1 e s') : FilesRun job F n size s (es ++ [e]) s'

/-- The beginning: process `r` has the handle `H r` of the new block and the memory `mem r`.
(bigfile-copy-mpi.c:120-124, 153-155.) -/
def filesStart (chunk : Nat) (H : Nat → Block) (mem : Nat → Mem) (nd : Nodes) : FilesConf :=
  ⟨copyStart chunk, ⟨fun r => ⟨.ret ⟨0, H r, mem r⟩, 0⟩, nd⟩⟩

end Verif
