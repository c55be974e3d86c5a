import Verif.C.Mem
/-!
# Helpers for parallel runs

Models the decisions taken in `/repo/src/mp-mpiu.c` and the file and row arithmetic of
`/repo/src/bigfile-mpi.c`. A communicator with `NTask` processes is a list with one entry per rank;
the MPI collectives used here (`Allreduce`, `Allgather`, `Alltoall`, `Bcast`, `Comm_split`) are
modelled by what the MPI standard says they compute from the contributions of all ranks.
-/

set_option autoImplicit false

namespace Verif

/-! ## Splitting rows over files -/

/-- Size of file `i` (bigfile-mpi.c:109-110 and 265-266): `size * (i + 1) / Nfile -
size * i / Nfile` in `size_t` arithmetic. -/
def splitSize (size nfile i : Nat) : Nat :=
  u64 (((u64 ((size * (i + 1) : Nat) : Int) / nfile : Nat) : Int) -
    ((u64 ((size * i : Nat) : Int) / nfile : Nat) : Int))

/-- The array `fsize` of `big_file_mpi_create_block` (bigfile-mpi.c:106-111) and
`big_block_mpi_grow_simple` (bigfile-mpi.c:262-267). -/
def evenSplit (size nfile : Nat) : List Nat := (List.range nfile).map (splitSize size nfile)

/-- First file of the range of a process (bigfile-mpi.c:199 and 245): `(size_t) Nfile * rank /
NTask`. -/
def rangeStart (nfile ntask rank : Nat) : Nat := u64 ((nfile * rank : Nat) : Int) / ntask

/-- The files truncated by process `rank` of `ntask` (the loops at bigfile-mpi.c:199-206 and
245-252, when no file fails to open). -/
def rankFiles (nfile ntask rank : Nat) : List Nat :=
  (List.range (rangeStart nfile ntask (rank + 1) - rangeStart nfile ntask rank)).map
    (rangeStart nfile ntask rank + ·)

/-! ## Segments -/

/-- The loop of `_MPIU_Segmenter_assign_colors` (mp-mpiu.c:369-384): the colour each rank would get
(before ranks without data are excluded). The arguments are the running totals and the current
colour. -/
def colorsLoop (g : Nat) : List (Nat × Nat) → Nat → Nat → Nat → List Nat
  | [], _, _, _ => []
  | (s, s2) :: rest, cur, cur2, color =>
    let cur := u64 ((cur + s : Nat) : Int)
    let cur2 := u64 ((cur2 + s2 : Nat) : Int)
    if cur > g ∨ cur2 > g then color :: colorsLoop g rest 0 0 (color + 1)
    else color :: colorsLoop g rest cur cur2 color

/-- `_MPIU_Segmenter_assign_colors` (mp-mpiu.c:351-392): colour of every rank and `*ncolor`.
`sizes2 = none` is the NULL pointer. -/
def assignColors (g : Nat) (sizes : List Nat) (sizes2 : Option (List Nat)) : List Int × Nat :=
  let pairs := sizes.zip (sizes2.getD sizes)
  let colors := colorsLoop g pairs 0 0 0
  (List.zipWith (fun (p : Nat × Nat) (c : Nat) => if p.1 = 0 ∧ p.2 = 0 then (-1 : Int) else c) pairs colors,
    colors.getLastD 0 + 1)

/-- What `MPIU_Segmenter_init` (mp-mpiu.c:427-458) stores on one rank: segment, group, and the range
of segments of its group. -/
structure Segmenter where
  thisSegment : Nat
  groupID : Nat
  segStart : Nat
  segEnd : Nat
  deriving DecidableEq, Repr

/-- Segment and group of a rank with colour `c` (mp-mpiu.c:442-449). -/
def segGroup (ntask ngroup nseg : Nat) (c : Int) : Nat × Nat :=
  if c ≥ 0 then (c.toNat, u64 ((u64 c * ngroup : Nat) : Int) / nseg) else (ntask + 1, ngroup + 1)

/-- Segment and group of every rank (mp-mpiu.c:440-451). -/
def segGroups (g ngroup : Nat) (sizes : List Nat) : List (Nat × Nat) :=
  let (colors, nseg) := assignColors g sizes none
  colors.map (segGroup sizes.length ngroup nseg)

/-- `MPIU_Segmenter_init` (mp-mpiu.c:427-458) on rank `r`: after `MPI_Comm_split` by group the smallest
and the largest segment of the group are found with `MPI_Allreduce`. -/
def segmenterInit (g ngroup : Nat) (sizes : List Nat) (r : Nat) : Option Segmenter :=
  let sg := segGroups g ngroup sizes
  match sg[r]? with
  | none => none
  | some (seg, grp) =>
    let mine := (sg.filter (fun q => q.2 = grp)).map (·.1)
    some ⟨seg, grp, mine.foldl min seg, mine.foldl max seg + 1⟩

/-- The target size of a segment (bigfile-mpi.c:411-428), from the total number of rows. -/
def segTarget (total concurrency threshold : Nat) : Nat :=
  let avg := total / concurrency
  let avg := if avg ≤ 0 then 1 else avg
  if avg > threshold then threshold else avg

/-! ## Location of an extremum -/

/-- `MPIU_GetLoc` (mp-mpiu.c:242-269) for an integer type: reduce, then the smallest rank whose value
equals the result. `op` is `max` or `min`; `vals` holds the value of every rank. -/
def getLoc (op : Int → Int → Int) : List Int → Nat
  | [] => 0
  | v :: vs =>
    let ext := vs.foldl op v
    ((v :: vs).zipIdx.map (fun p => if p.1 = ext then p.2 else vs.length + 1)).foldl min (vs.length + 1)

/-! ## Pairwise exchange -/

/-- `for(PTask = 0; NTask > (1 << PTask); PTask++)` (mp-mpiu.c:169), starting from `p`; the first
number is fuel. -/
def ptaskFrom (ntask : Nat) : Nat → Nat → Nat
  | 0, p => p
  | fuel + 1, p => if ntask > 2 ^ p then ptaskFrom ntask fuel (p + 1) else p

/-- `PTask`. (mp-mpiu.c:169.) -/
def ptask (ntask : Nat) : Nat := ptaskFrom ntask ntask 0

/-- The partners of a process, one per round that is not skipped (mp-mpiu.c:184-188, 203-206,
216-220): the round and the target. -/
def partners (ntask task : Nat) : List (Nat × Nat) :=
  ((List.range (2 ^ ptask ntask)).map (fun ngrp => (ngrp, task ^^^ ngrp))).filter (fun p => p.2 < ntask)

/-- Displacements when none are given (mp-mpiu.c:108-123): the sum of the counts of the ranks before.
Simplified: the `int` sums do not overflow. -/
def defaultDispls (cnts : Nat → Nat) : Nat → Nat
  | 0 => 0
  | i + 1 => defaultDispls cnts i + cnts i

/-- The receives posted by rank `d` (mp-mpiu.c:184-194): source, displacement, count. -/
def postedRecvs (ntask d : Nat) (recvcnts rdispls : Nat → Nat) : List (Nat × Nat × Nat) :=
  (partners ntask d).filterMap fun p =>
    if recvcnts p.2 = 0 then none else some (p.2, rdispls p.2, recvcnts p.2)

/-- The sends posted by rank `s` (mp-mpiu.c:203-211): target and bytes; `el` is the extent of the
type. -/
def postedSends (el ntask s : Nat) (sendbuf : Mem) (sendcnts sdispls : Nat → Nat) : List (Nat × List Byte) :=
  (partners ntask s).filterMap fun p =>
    if sendcnts p.2 = 0 then none
    else some (p.2, peek sendbuf ((el * sdispls p.2 : Nat) : Int) (el * sendcnts p.2))

/-- Completion of the receives of rank `d`: each takes the first message its source sent to `d` (all
messages have the same tag). `none`: a receive that nobody answers (the program waits for ever) or
a message longer than the receive (an MPI error). (mp-mpiu.c:203-213.) -/
def completeRecvs (el d : Nat) (sends : Nat → List (Nat × List Byte)) : List (Nat × Nat × Nat) → Mem → Option Mem
  | [], mem => some mem
  | (s, displ, cnt) :: rest, mem =>
    match (sends s).find? (fun q => q.1 = d) with
    | none => none
    | some (_, bytes) =>
      if bytes.length > el * cnt then none
      else completeRecvs el d sends rest (poke mem ((el * displ : Nat) : Int) bytes)

/-- `MPI_Alltoallv_sparse` (mp-mpiu.c:158-236) seen from rank `d`: the receive buffer afterwards. The
arguments are functions of the rank, and counts and displacements are functions of rank and
partner. `none`: some message is never received, or a receive is never answered. -/
def alltoallvSparse (el ntask : Nat) (sendbuf : Nat → Mem) (sendcnts sdispls : Nat → Nat → Nat)
    (recvcnts rdispls : Nat → Nat → Nat) (recvbuf : Nat → Mem) (d : Nat) : Option Mem :=
  let sends := fun s => postedSends el ntask s (sendbuf s) (sendcnts s) (sdispls s)
  if (List.range ntask).all (fun s => (sends s).all (fun q =>
      (postedRecvs ntask q.1 (recvcnts q.1) (rdispls q.1)).any (fun r => r.1 = s))) then
    completeRecvs el d sends (postedRecvs ntask d (recvcnts d) (rdispls d)) (recvbuf d)
  else none

/-- `MPIU_Alltoallv` (mp-mpiu.c:69-156) with NULL `sdispls`, `recvcnts` and `rdispls`, sparse policy:
the counts are transposed with `MPI_Alltoall`, displacements are running sums. -/
def mpiuAlltoallv (el ntask : Nat) (sendbuf : Nat → Mem) (sendcnts : Nat → Nat → Nat) (recvbuf : Nat → Mem)
    (d : Nat) : Option Mem :=
  let recvcnts := fun r s => sendcnts s r
  alltoallvSparse el ntask sendbuf sendcnts (fun s => defaultDispls (sendcnts s)) recvcnts
    (fun r => defaultDispls (recvcnts r)) recvbuf d

/-- One step of the blocking variant (mp-mpiu.c:216-230): `pos t` is the round process `t` is in.
A process passes a round alone if it has no partner there, if nothing is exchanged, or if it is
its own partner; otherwise both partners must be in the same round (`MPI_Sendrecv`). -/
inductive ExchangeStep (ntask : Nat) (cnt : Nat → Nat → Nat) : (Nat → Nat) → (Nat → Nat) → Prop where
  | alone (pos : Nat → Nat) (t : Nat) (ht : t < ntask) (hr : pos t < 2 ^ ptask ntask)
      (hs : ntask ≤ t ^^^ pos t ∨ (cnt t (t ^^^ pos t) = 0 ∧ cnt (t ^^^ pos t) t = 0) ∨ t ^^^ pos t = t) :
      ExchangeStep ntask cnt pos (fun x => if x = t then pos t + 1 else pos x)
  | meet (pos : Nat → Nat) (t : Nat) (ht : t < ntask) (hr : pos t < 2 ^ ptask ntask) (hu : t ^^^ pos t < ntask)
      (hp : pos (t ^^^ pos t) = pos t) :
      ExchangeStep ntask cnt pos (fun x => if x = t ∨ x = t ^^^ pos t then pos t + 1 else pos x)

end Verif
