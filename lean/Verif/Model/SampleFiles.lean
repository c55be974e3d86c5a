import Verif.Model.CopyFiles
import Verif.Model.Sample
/-!
# bigfile-sample-mpi with its file operations

The server and the workers of `/repo/utils/bigfile-sample-mpi.c` (lines 159-280) exchange the same messages as those of
`bigfile-copy-mpi` (`Verif/Model/CopyMpi.lean`, `Verif/Model/CopyFiles.lean`): a worker sends `DONE_TAG` or `ERROR_TAG`, the server
answers with the next piece of work as long as there is one, or stops at the first error, and then sends `DIE_TAG` to everybody. So the
same rules are used here, with the pieces of work numbered: the queue gives out the numbers `0, 1, ...` one by one (the "rows" of
the queue are the pieces of work, the chunk size is 1), and number `i` stands for the `i`-th piece of work that the server makes.
Simplified: the server makes all pieces of work before it starts; it makes them without regard to who asks (lines 178-192).
-/

set_option autoImplicit false

namespace Verif

/-- What a worker does with a piece of work (bigfile-sample-mpi.c:216-277), in steps, see `sampleDo`. `abort`, which ends the whole
program, is shown as a process that does not go on. -/
def sampleP (env : Env) (bb : Block) (draw : Nat → Nat → Nat → Nat) (buf abuf : Int) (wk : Work) (x : Worker) : Prog Worker := do
  let anew ← Prog.lift (arrayInit env.m buf bb.dtype [wk.nsel, u64 bb.nmemb] none)
  let step := u64 (itemsize env.m bb.dtype * bb.nmemb)
  let (_, arr, mem) ← readSimpleP env bb wk.offset wk.chunksize none abuf x.mem
  match arr with
  | none => pure ⟨-1, x.bb, mem⟩
  | some a =>
    let (left, mem) := sampleSelect (draw wk.seed) step wk.chunksize 0 wk.chunksize wk.nsel buf a.data mem
    if left ≠ 0 then Prog.hang
    else
      let (rc, ptr) ← Prog.lift (seek x.bb ⟨0, 0, 0⟩ wk.offsetnew)
      if rc ≠ 0 then pure ⟨-1, x.bb, mem⟩
      else
        let y ← blockWriteP env x.bb ptr anew mem
        if y.rc ≠ 0 then pure ⟨-1, y.bb, y.mem⟩ else pure ⟨0, y.bb, y.mem⟩

/-- The piece of work with number `i`. There is always one. (bigfile-sample-mpi.c:204-216.) -/
def sampleJob (env : Env) (bb : Block) (draw : Nat → Nat → Nat → Nat) (buf abuf : Int) (ws : List Work) (i _len : Nat) (x : Worker) :
    Prog Worker :=
  match ws[i]? with
  | some wk => sampleP env bb draw buf abuf wk x
  | none => Prog.hang

end Verif
