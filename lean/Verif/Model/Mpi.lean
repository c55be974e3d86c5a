import Verif.Model.BlockP
import Verif.Model.Mpiu
/-!
# Collective reads and writes

Models `big_file_mpi_broadcast_anyerror`, `_throttle_action`, `_aggregated`, `big_block_mpi_write` and
`big_block_mpi_read` (bigfile-mpi.c:317-357 and 397-564) as the program of one process, with the
semantics of `Verif/C/Proc.lean`.

Simplifications, besides those of `Verif/C/Proc.lean`: the communicators made by `MPIU_Segmenter_init`
are computed by every process from the sizes of all processes, which the C code has gathered before, and
the collective calls in it are left out; a number of rows that does not fit the `int` counts of MPI is
undefined behaviour; all processes see the same uninitialised bytes (`Env.junk`).
-/

set_option autoImplicit false

namespace Verif

/-- What a process passes to a collective call: handle, pointer, array, memory; its current error
message, and the message a failing `big_block_write` or `big_block_read` would leave there. (bigfile-mpi.c:466-563.) -/
structure Rank where
  bb : Block
  ptr : Ptr
  arr : Arr
  mem : Mem
  err : Option CStr
  fail : CStr

/-- `big_file_mpi_broadcast_anyerror` (bigfile-mpi.c:317-357): the code and the error message
afterwards. `strlen(NULL)` on the failing process is undefined behaviour. -/
def anyerrorP (c : CommName) (ms : List Nat) (me : Nat) (rt : Int) (err : Option CStr) :
    Prog (Int × Option CStr) := do
  let l ← Prog.call ⟨.allreduce, c, ms⟩ { num := if rt ≠ 0 then ((ms.idxOf me + 1 : Nat) : Int) else 0 }
  let root := (l.map (·.num)).foldl max 0
  if root = 0 then pure (0, err)
  else
    let root := (root - 1).toNat
    let text ← Prog.lift (if ms.idxOf me = root then err else some [])
    let _ ← Prog.call ⟨.bcast, c, ms⟩ { num := text.length }
    let l ← Prog.call ⟨.bcast, c, ms⟩ { bytes := text }
    let err := if ms.idxOf me = root then err else some (l.getD root {}).bytes
    let l ← Prog.call ⟨.bcast, c, ms⟩ { num := rt }
    pure ((l.getD root {}).num, err)

/-- `elsize` (bigfile-mpi.c:477). -/
def aggElsize (env : Env) (bb : Block) : Nat := u64 (itemsize env.m bb.dtype * bb.nmemb)

/-- `recvcounts` and `grouptotalsize` (bigfile-mpi.c:495-507): the rows of every member. -/
def aggCounts (ms : List Nat) (localsize : Nat) : Prog (List Nat) := do
  let _ ← Prog.lift (if localsize < 2147483648 then some () else none)
  let cs ← Prog.call ⟨.allgather, .segment, ms⟩ { num := localsize }
  let _ ← Prog.call ⟨.allreduce, .segment, ms⟩ { num := localsize }
  let counts := cs.map (·.num.toNat)
  let _ ← Prog.lift (if counts.sum < 2147483648 then some () else none)
  pure counts

/-- What the leader of a segment does with the gathered bytes (bigfile-mpi.c:513-532, `action ==
big_block_write`): code, handle. The return code of `big_block_seek_rel` is ignored. -/
def leadWrite (env : Env) (st : Rank) (offset : Int) (total : Nat) (bytes : List Byte) : Prog (Int × Block) := do
  let garr ← Prog.lift (arrayInit env.m 0 st.bb.dtype [total, u64 st.bb.nmemb] none)
  let (_, ptr1) ← Prog.lift (seekRel st.bb st.ptr offset)
  let x ← blockWriteP env st.bb ptr1 garr (poke env.junk 0 bytes)
  pure (x.rc, x.bb)

/-- What `MPI_Gatherv` puts into the buffer of the leader (bigfile-mpi.c:528-529): `recvcounts` rows of every
member, one after the other. -/
def gathervBytes (el : Nat) (counts : List Nat) (parts : List Msg) : List Byte :=
  (List.zipWith (fun k m => m.bytes.take (k * el)) counts parts).flatten

/-- `_aggregated` (bigfile-mpi.c:466-549) with `action == big_block_write` on process `me` of the segment
`ms` whose leader is `root`. The return code of `_dtype_convert` is ignored. -/
def aggWrite (env : Env) (ms : List Nat) (root me : Nat) (offset : Int) (localsize : Nat) (st : Rank) :
    Prog (Int × Rank) := do
  let counts ← aggCounts ms localsize
  let larr ← Prog.lift (arrayInit env.m 0 st.bb.dtype [localsize, u64 st.bb.nmemb] none)
  let r ← Prog.lift (dtypeConvert env.m env.fo (iterInit env.m larr) (iterInit env.m st.arr)
    (u64 (localsize * st.bb.nmemb)) env.junk st.mem)
  let parts ← Prog.call ⟨.gatherv, .segment, ms⟩ { bytes := peek r.dm 0 (localsize * aggElsize env st.bb) }
  let st := { st with mem := r.sm }
  if ms.idxOf me = root then
    let (e, bb) ← leadWrite env st offset counts.sum (gathervBytes (aggElsize env st.bb) counts parts)
    let (rt, err) ← anyerrorP .segment ms me e (if e ≠ 0 then some st.fail else st.err)
    pure (rt, { st with bb := bb, err := err })
  else
    let (rt, err) ← anyerrorP .segment ms me 0 st.err
    pure (rt, { st with err := err })

/-- What the leader of a segment reads (bigfile-mpi.c:513-532, `action == big_block_read`): code, bytes
of the buffer. -/
def leadRead (env : Env) (st : Rank) (offset : Int) (total : Nat) : Prog (Int × List Byte) := do
  let garr ← Prog.lift (arrayInit env.m 0 st.bb.dtype [total, u64 st.bb.nmemb] none)
  let (_, ptr1) ← Prog.lift (seekRel st.bb st.ptr offset)
  let x ← blockReadP env st.bb ptr1 garr env.junk
  pure (x.rc, peek x.mem 0 (total * aggElsize env st.bb))

/-- The rest of `_aggregated` when reading (bigfile-mpi.c:533-548), on a process that contributes `e` and,
if it is the leader, `gbytes`. -/
def aggScatter (env : Env) (ms : List Nat) (root me : Nat) (localsize : Nat) (counts : List Nat) (st : Rank)
    (larr : Arr) (e : Int) (gbytes : List Byte) : Prog (Int × Rank) := do
  let l ← Prog.call ⟨.scatterv, .segment, ms⟩ { bytes := gbytes }
  let el := aggElsize env st.bb
  let mine := (((l.getD root {}).bytes).drop ((counts.take (ms.idxOf me)).sum * el)).take (localsize * el)
  let r ← Prog.lift (dtypeConvert env.m env.fo (iterInit env.m st.arr) (iterInit env.m larr)
    (u64 (localsize * st.bb.nmemb)) st.mem (poke env.junk 0 mine))
  let (rt, err) ← anyerrorP .segment ms me e (if e ≠ 0 then some st.fail else st.err)
  pure (rt, { st with mem := r.dm, err := err })

/-- `_aggregated` (bigfile-mpi.c:466-549) with `action == big_block_read`. -/
def aggRead (env : Env) (ms : List Nat) (root me : Nat) (offset : Int) (localsize : Nat) (st : Rank) :
    Prog (Int × Rank) := do
  let counts ← aggCounts ms localsize
  let larr ← Prog.lift (arrayInit env.m 0 st.bb.dtype [localsize, u64 st.bb.nmemb] none)
  if ms.idxOf me = root then
    let (e, gbytes) ← leadRead env st offset counts.sum
    aggScatter env ms root me localsize counts st larr e gbytes
  else aggScatter env ms root me localsize counts st larr 0 []

/-- `_aggregated`. (bigfile-mpi.c:466-563.) -/
def aggregatedP (env : Env) (wr : Bool) (ms : List Nat) (root me : Nat) (offset : Int) (localsize : Nat)
    (st : Rank) : Prog (Int × Rank) :=
  if wr then aggWrite env ms root me offset localsize st else aggRead env ms root me offset localsize st

/-- What a process knows about the segments: the members of its group and of its segment, the leader of
its segment, its segment, and its own offset and number of rows. (mp-mpiu.h:60-77.) -/
structure SegInfo where
  group : List Nat
  seg : List Nat
  root : Nat
  segment : Nat
  offset : Nat
  localsize : Nat

/-- The loop over the segments of the group (bigfile-mpi.c:437-455): number of rounds left, the segment
whose turn it is, `rt`. -/
def throttleLoop (env : Env) (wr : Bool) (me : Nat) (I : SegInfo) : Nat → Nat → Int → Rank → Prog (Int × Rank)
  | 0, _, rt, st => pure (rt, st)
  | k + 1, s, rt, st => do
    let _ ← Prog.call ⟨.barrier, .group, I.group⟩ {}
    let (rt, err) ← anyerrorP .group I.group me rt st.err
    let st := { st with err := err }
    if rt ≠ 0 then throttleLoop env wr me I k (s + 1) rt st
    else if I.segment ≠ s then throttleLoop env wr me I k (s + 1) 0 st
    else
      let l ← Prog.call ⟨.bcast, .segment, I.seg⟩ { num := I.offset }
      let (rt, st) ← aggregatedP env wr I.seg I.root me (l.getD 0 {}).num I.localsize st
      throttleLoop env wr me I k (s + 1) rt st

/-- Concurrency as used (bigfile-mpi.c:411-413). -/
def useConc (n : Nat) (concurrency : Int) : Nat := if concurrency ≤ 0 then n else concurrency.toNat

/-- What process `me` learns from the sizes of all processes (bigfile-mpi.c:415-431 and
mp-mpiu.c:394-475). The communicators are the processes with the same group, and those with the same
segment among them, in rank order. -/
def segInfo (conc threshold : Nat) (sizes : List Nat) (me : Nat) : Option (Segmenter × SegInfo) :=
  match segmenterInit (segTarget sizes.sum conc threshold) conc sizes me with
  | none => none
  | some q =>
    let sg := segGroups (segTarget sizes.sum conc threshold) conc sizes
    let group := (List.range sizes.length).filter (fun r => decide ((sg.getD r (0, 0)).2 = q.groupID))
    let seg := group.filter (fun r => decide ((sg.getD r (0, 0)).1 = q.thisSegment))
    some (q, ⟨group, seg, getLoc min (seg.map fun r => ((sizes.getD r 0 : Nat) : Int)), q.thisSegment,
      (sizes.take me).sum, sizes.getD me 0⟩)

/-- `_throttle_action` (bigfile-mpi.c:397-464) on process `me` of `n`; `threshold` is
`_BigFileAggThreshold`. Simplified: the total number of rows does not overflow. -/
def throttleP (env : Env) (wr : Bool) (n : Nat) (concurrency : Int) (threshold : Nat) (me : Nat) (st : Rank) :
    Prog (Int × Rank) := do
  let localsize ← Prog.lift st.arr.dims.head?
  let _ ← Prog.call ⟨.allreduce, .world, List.range n⟩ { num := localsize }
  let l ← Prog.call ⟨.allgather, .world, List.range n⟩ { num := localsize }
  let sizes := l.map (·.num.toNat)
  let (q, I) ← Prog.lift (segInfo (useConc n concurrency) threshold sizes me)
  let (rt, st) ← throttleLoop env wr me I (q.segEnd - q.segStart) q.segStart 0 st
  let (rt, err) ← anyerrorP .world (List.range n) me rt st.err
  let st := { st with err := err }
  if rt ≠ 0 then pure (rt, st)
  else
    let (_, ptr) ← Prog.lift (seekRel st.bb st.ptr sizes.sum)
    pure (0, { st with ptr := ptr })

/-- `big_block_mpi_write` (bigfile-mpi.c:551-556). -/
def mpiWriteP (env : Env) (n : Nat) (concurrency : Int) (threshold me : Nat) (st : Rank) : Prog (Int × Rank) :=
  throttleP env true n concurrency threshold me st

/-- `big_block_mpi_read` (bigfile-mpi.c:558-563). -/
def mpiReadP (env : Env) (n : Nat) (concurrency : Int) (threshold me : Nat) (st : Rank) : Prog (Int × Rank) :=
  throttleP env false n concurrency threshold me st

end Verif
