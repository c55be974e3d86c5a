import Verif.Model.Mpi
import Verif.Model.Pack
/-!
# Collective open, create, grow and flush of a block

Models `/repo/src/bigfile-mpi.c` lines 76-308 and 359-384. Each of these functions consists of a part in
which only rank 0 uses the files while all other processes wait for it in the exchange of errors, and, for
create and grow, of a part in which every process truncates its share of the data files. The first part has
only one schedule and is written in the monad `M` of rank 0, with the handles of all processes as a function
of the rank. The second part is a program of each process (`Verif/C/Proc.lean`).

Simplifications: all processes see the same uninitialised bytes and the same heap (`Env`); the error messages
of the first part are left out (what the exchange of errors does with them is in `anyerrorP`); `MPI_COMM_NULL`
is not a possible communicator.
-/

set_option autoImplicit false

namespace Verif

/-- `big_block_mpi_broadcast` from rank 0 (bigfile-mpi.c:359-384): the handles of all processes. -/
def mpiBroadcast (env : Env) (bb : Block) (r : Nat) : Block :=
  if r = 0 then bb else blockUnpack env (blockPack env bb)

/-- The path of a block as the collective functions build it (bigfile-mpi.c:91-92 and 139-140). -/
def mpiPath (bf blockname : CStr) : CStr := bf ++ 47 :: (blockname ++ [47])

/-- `_big_block_mpi_open` (bigfile-mpi.c:151-168): the code all processes return, and their handles. -/
def mpiOpen (env : Env) (basename : CStr) : M (Int × Option (Nat → Block)) := do
  match ← blockOpen env basename with
  | (0, some bb) => pure (0, some (mpiBroadcast env bb))
  | (rc, _) => pure (rc, none)

/-- `big_file_mpi_open_block` (bigfile-mpi.c:88-94). -/
def mpiOpenBlock (env : Env) (bf blockname : CStr) : M (Int × Option (Nat → Block)) :=
  mpiOpen env (mpiPath bf blockname)

/-- The checksums of rank 0 after `MPI_Reduce` with `MPI_UNSIGNED` and `MPI_SUM` (bigfile-mpi.c:283-295). -/
def reducedChecksums (n : Nat) (H : Nat → Block) : List Nat :=
  (List.range (H 0).nfile).map fun f =>
    (((List.range n).map fun r => (H r).fchecksum.getD f 0).sum) % 4294967296

/-- The handle of rank 0 before it is flushed (bigfile-mpi.c:283-296): the sums of the checksums of all
processes, and dirty if any handle is dirty. -/
def reducedRoot (n : Nat) (H : Nat → Block) : Block :=
  { H 0 with fchecksum := reducedChecksums n H, dirty := (List.range n).any fun r => (H r).dirty }

/-- `big_block_mpi_flush` (bigfile-mpi.c:275-308): the code all processes return, and their handles. -/
def mpiFlush (env : Env) (n : Nat) (H : Nat → Block) : M (Int × (Nat → Block)) := do
  let (rc, bb) ← blockFlush env (reducedRoot n H)
  if rc ≠ 0 then pure (rc, fun r => if r = 0 then bb else H r)
  else pure (0, mpiBroadcast env bb)

/-- `big_block_mpi_close` (bigfile-mpi.c:309-315). -/
def mpiClose (env : Env) (n : Nat) (H : Nat → Block) : M Int := do
  let (rc, _) ← mpiFlush env n H
  pure rc

/-- The loop that truncates files (bigfile-mpi.c:197-204 and 243-250). -/
def truncListP (base : CStr) : List Nat → Prog Int
  | [] => pure 0
  | i :: is => do
    if ← Prog.fopen (filePath base (.data i)) .w then truncListP base is else pure (-1)

/-- The second part of `_big_block_mpi_create` and `big_block_mpi_grow` (bigfile-mpi.c:196-210 and 242-256) on
process `me` of `n`: it truncates its share of the files `first, ..., first+count-1`, then the processes exchange
errors. `err` is its current error message, `fail` the one that a failing `fopen` leaves. -/
def mpiTruncP (n me : Nat) (base : CStr) (first count : Nat) (err : Option CStr) (fail : CStr) :
    Prog (Int × Option CStr) := do
  let rt ← truncListP base ((rankFiles count n me).map (first + ·))
  anyerrorP .world (List.range n) me rt (if rt ≠ 0 then some fail else err)

/-- The first part of `_big_file_mpi_create_block` and `_big_block_mpi_create` (bigfile-mpi.c:116-142 and
170-195): the code of all processes, and their handles. -/
def mpiCreateRoot (env : Env) (bf blockname : CStr) (dtype : Option CStr) (nmemb : Int) (fsize : List Nat) :
    M (Int × Option (Nat → Block)) := do
  let rc ← mksubdirR bf blockname
  if rc ≠ 0 then pure (rc, none)
  else
    match ← createInternal env (mpiPath bf blockname) dtype nmemb fsize with
    | (0, some bb) => pure (0, some (mpiBroadcast env bb))
    | (rc, _) => pure (rc, none)

/-- The first part of `big_block_mpi_grow` (bigfile-mpi.c:213-241): the handles of all processes. -/
def mpiGrowRoot (env : Env) (H : Nat → Block) (grow : List Nat) : Nat → Block :=
  mpiBroadcast env (growInternal (H 0) grow)

end Verif
