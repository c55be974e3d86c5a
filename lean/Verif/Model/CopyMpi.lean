/-!
# The work queue of bigfile-copy-mpi

Models `server` and `slave` of `/repo/utils/bigfile-copy-mpi.c` (lines 120-196). Process 0 hands out ranges of rows,
processes `1, ..., n-1` ask for them and copy them. Each rule of `CopyStep` is one or two statements of one process; which
process goes next, and which of the waiting messages `MPI_Recv(MPI_ANY_SOURCE)` takes, is free.

Assumed of MPI: messages from one process to another arrive in the order they were sent; `MPI_Send` of such short messages
does not wait for the receiver. Simplifications: copying a range (`big_block_read_simple`, `big_block_seek` and
`big_block_write`, lines 166-188) is one step that succeeds or fails; its file operations are in `Verif/Model/CopyFiles.lean`. The arithmetic of `int64_t` does not overflow (`size` and `buffersize` are below 2^62).
-/

set_option autoImplicit false

namespace Verif

/-- Messages to process 0: `DONE_TAG` and `ERROR_TAG`. (bigfile-copy-mpi.c:14-15.) -/
inductive Note where
  | done | error
  deriving DecidableEq, Repr

/-- Messages from process 0: `WORK_TAG` with the first row and the number of rows, and `DIE_TAG`.
(bigfile-copy-mpi.c:16-17.) -/
inductive Order where
  | work (offset len : Nat)
  | die
  deriving DecidableEq, Repr

/-- Where process 0 is: in the loop (lines 124-145) with the variables `offset` and `chunksize`, in the loop that sends
`DIE_TAG` (147-150), or past it. -/
inductive ServerAt where
  | serving (offset chunk : Nat)
  | dismissing (next : Nat)
  | left
  deriving DecidableEq, Repr

/-- Where another process is: before its first message (line 155), at `MPI_Recv` (159), copying a range (164-192), or past the
loop. -/
inductive WorkerAt where
  | starting
  | waiting
  | copying (offset len : Nat)
  | left
  deriving DecidableEq, Repr

/-- All processes and the messages under way. (bigfile-copy-mpi.c:120-196.) -/
structure CopyConf where
  server : ServerAt
  worker : Nat → WorkerAt
  toServer : Nat → List Note
  toWorker : Nat → List Order

/-- What can be seen of a step: a range was handed out, a process began to copy a range, a range was copied, copying a
range failed, or something else. (bigfile-copy-mpi.c:120-196.) -/
inductive CopyEvent where
  | hand (worker offset len : Nat)
  | taken (worker offset len : Nat)
  | copied (worker offset len : Nat)
  | failed (worker offset len : Nat)
  | other
  deriving DecidableEq, Repr

/-- A function changed at one argument. (bigfile-copy-mpi.c:120-196: one process changes.) -/
def upd {α : Type} (f : Nat → α) (r : Nat) (a : α) : Nat → α := fun q => if q = r then a else f q

/-- The number of rows of the next range (lines 134-136): the chunk size, but not beyond the end. It stays that small. -/
def nextLen (size offset chunk : Nat) : Nat := if offset + chunk > size then size - offset else chunk

/-- One step of `n` processes copying `size` rows. (bigfile-copy-mpi.c:120-196.) -/
inductive CopyStep (n size : Nat) : CopyConf → CopyEvent → CopyConf → Prop where
  /-- Lines 124-141: a message of process `r` is received, and `r` gets a range. -/
  | hand (s : CopyConf) (offset chunk r : Nat) (q : List Note) (h : s.server = .serving offset chunk) (hlt : offset < size)
      (hr : 1 ≤ r ∧ r < n) (hm : s.toServer r = .done :: q) :
      CopyStep n size s (.hand r offset (nextLen size offset chunk))
        { s with
          server := .serving (offset + nextLen size offset chunk) (nextLen size offset chunk)
          toServer := upd s.toServer r q
          toWorker := upd s.toWorker r (s.toWorker r ++ [.work offset (nextLen size offset chunk)]) }
  /-- Lines 127-131: the message says that copying failed. -/
  | giveUp (s : CopyConf) (offset chunk r : Nat) (q : List Note) (h : s.server = .serving offset chunk) (hlt : offset < size)
      (hr : 1 ≤ r ∧ r < n) (hm : s.toServer r = .error :: q) :
      CopyStep n size s .other { s with server := .dismissing 1, toServer := upd s.toServer r q }
  /-- Line 124: the end of the loop. -/
  | allOut (s : CopyConf) (offset chunk : Nat) (h : s.server = .serving offset chunk) (hge : ¬ offset < size) :
      CopyStep n size s .other { s with server := .dismissing 1 }
  /-- Lines 147-150. -/
  | dismiss (s : CopyConf) (i : Nat) (h : s.server = .dismissing i) (hi : i < n) :
      CopyStep n size s .other
        { s with server := .dismissing (i + 1), toWorker := upd s.toWorker i (s.toWorker i ++ [.die]) }
  /-- Line 147: the end of the loop. -/
  | leave (s : CopyConf) (i : Nat) (h : s.server = .dismissing i) (hi : ¬ i < n) :
      CopyStep n size s .other { s with server := .left }
  /-- Line 155. -/
  | start (s : CopyConf) (r : Nat) (hr : 1 ≤ r ∧ r < n) (h : s.worker r = .starting) :
      CopyStep n size s .other
        { s with worker := upd s.worker r .waiting, toServer := upd s.toServer r (s.toServer r ++ [.done]) }
  /-- Lines 159-165. -/
  | take (s : CopyConf) (r offset len : Nat) (q : List Order) (hr : 1 ≤ r ∧ r < n) (h : s.worker r = .waiting)
      (hm : s.toWorker r = .work offset len :: q) :
      CopyStep n size s (.taken r offset len)
        { s with worker := upd s.worker r (.copying offset len), toWorker := upd s.toWorker r q }
  /-- Lines 159-163. -/
  | quit (s : CopyConf) (r : Nat) (q : List Order) (hr : 1 ≤ r ∧ r < n) (h : s.worker r = .waiting)
      (hm : s.toWorker r = .die :: q) :
      CopyStep n size s .other { s with worker := upd s.worker r .left, toWorker := upd s.toWorker r q }
  /-- Lines 166-190. -/
  | copied (s : CopyConf) (r offset len : Nat) (hr : 1 ≤ r ∧ r < n) (h : s.worker r = .copying offset len) :
      CopyStep n size s (.copied r offset len)
        { s with worker := upd s.worker r .waiting, toServer := upd s.toServer r (s.toServer r ++ [.done]) }
  /-- Lines 166-187 and 191-193. -/
  | failed (s : CopyConf) (r offset len : Nat) (hr : 1 ≤ r ∧ r < n) (h : s.worker r = .copying offset len) :
      CopyStep n size s (.failed r offset len)
        { s with worker := upd s.worker r .waiting, toServer := upd s.toServer r (s.toServer r ++ [.error]) }

/-- A run. (bigfile-copy-mpi.c:120-196.) -/
inductive CopyRun (n size : Nat) : CopyConf → List CopyEvent → CopyConf → Prop where
  | nil (s : CopyConf) : CopyRun n size s [] s
  | snoc {s s1 s' : CopyConf} {es : List CopyEvent} {e : CopyEvent} (t : CopyRun n size s es s1) (h : CopyStep n size s1 e s') :
      CopyRun n size s (es ++ [e]) s'

/-- The beginning (lines 120-124 and 153-155). `chunk` is `buffersize / (nmemb * itemsize)`. -/
def copyStart (chunk : Nat) : CopyConf := ⟨.serving 0 chunk, fun _ => .starting, fun _ => [], fun _ => []⟩

end Verif
