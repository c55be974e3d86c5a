import Verif.Model.MpiPhases
import Verif.Model.CopyFiles
import Verif.Model.SampleFiles
/-!
# The main functions of the parallel tools

Models `main` of `/repo/utils/bigfile-copy-mpi.c` (lines 32-118) and of `/repo/utils/bigfile-sample-mpi.c` (lines 46-129) from the
point where the options are known. The loops of `server` and `slave` are in `Verif/Model/CopyFiles.lean` and
`Verif/Model/SampleFiles.lean`, the collective functions in `Verif/Model/MpiPhases.lean` and `Verif/Model/MpiBlock.lean`.

Simplifications: as in `copyMain` (negative numbers of files are not representable; the handles of the files are their names).
`exit` and `abort` end the program.
-/

set_option autoImplicit false

namespace Verif

/-- What comes before the data is copied: open the file and the source, create the new file and the new block, copy the attributes
(bigfile-copy-mpi.c:69-104, bigfile-sample-mpi.c:73-107). `nfile` is the option `-n` and `newfile` the option `-f` or `file` itself; `size`
gives the size of the new block from that of the source; `check` says that the size of the new block is checked, which only
bigfile-copy-mpi does (line 94). The handles of the source and of the new block on all processes. -/
def mpiToolPrepare (env : Env) (n : Nat) (file block newfile newblock : CStr) (nfile : Option Nat) (size : Nat → Nat) (check : Bool) :
    Phases (Except Exit ((Nat → Block) × (Nat → Block))) := do
  let bf ← mpiFileOpen n file
  together0 n (fun r => (bf r).1) (do
    match ← Phases.alone (mpiOpenBlock env (bf 0).2 block) with
    | (0, some src) => do
      let bfnew ← mpiFileCreate n newfile
      together0 n (fun r => (bfnew r).1) (do
        match ← mpiCreateBlock env n (bfnew 0).2 newblock (some (src 0).dtype) (src 0).nmemb
            (evenSplit (size (src 0).size) (pickFiles nfile (src 0).nfile)) with
        | (c, some H) =>
          together0 n c (do
            if check = true ∧ (H 0).size ≠ (src 0).size then pure (.error .aborted)
            else
              let out ← Phases.together n fun r => Prog.lift (copyAttrs env (src r).attrset (src r).attrset.list (H r).attrset)
              pure (.ok (fun r => { src r with attrset := (out r).2 }, fun r => { H r with attrset := (out r).1 })))
            (pure (.error .failed))
        | _ => pure (.error .failed)) (pure (.error .failed))
    | _ => pure (.error .failed)) (pure (.error .failed))

/-- What comes after: close the new block, then the source, whose code is ignored (bigfile-copy-mpi.c:111-117,
bigfile-sample-mpi.c:117-123). Closing the files only frees memory. -/
def mpiToolFinish (env : Env) (n : Nat) (src H : Nat → Block) : Phases Exit := do
  if (← Phases.alone (mpiClose env n H)) ≠ 0 then pure .failed
  else
    let _ ← Phases.alone (mpiClose env n src)
    pure .done

/-- The number of rows of a range, in `server` (bigfile-copy-mpi.c:121); the product is an `int`, `none` is undefined behaviour. -/
def mpiCopyChunk (env : Env) (buffersize : Nat) (bb : Block) : Option Nat :=
  if !fitsInt (bb.nmemb * itemsize env.m bb.dtype) || decide (bb.nmemb * itemsize env.m bb.dtype = 0) then none
  else some (buffersize / u64 (bb.nmemb * itemsize env.m bb.dtype))

end Verif
