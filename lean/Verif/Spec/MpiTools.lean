import Verif.Model.MpiTools
import Verif.Spec.CopyFiles
/-!
# Executions of the parallel tools

How the parts of the main functions of bigfile-copy-mpi and bigfile-sample-mpi follow each other (`Verif/Model/MpiTools.lean`).
-/

set_option autoImplicit false

namespace Verif

open Spec

/-- **Every execution of the whole program ends, and with `Q`.** First `prepare`. Then, if there is data (bigfile-copy-mpi.c:103,
bigfile-sample-mpi.c:109), `server` runs on process 0 and `slave` on the others: `size` is the number of units that the server gives out,
at most `chunk` at a time, and `job` is what a slave does with them; there is a bound on the number of steps of these, and when
nobody can go on all have left their functions. Then `mpiToolFinish`, which finds the files that the slaves have left; the slaves' handles
of the source are all the same, those that were broadcast, so the one of process 1 is named. -/
def MpiToolEnds (env : Env) (F : Nat → Nat → Fault) (n : Nat) (prepare : Phases (Except Exit ((Nat → Block) × (Nat → Block))))
    (chunk : Block → Option Nat) (size : Block → Nat) (job : Block → Nat → Nat → Worker → Prog Worker) (mem : Nat → Mem) (w : World)
    (Q : Exit → World → Prop) : Prop :=
  prepare.Ensures F w fun x w1 =>
    match x with
    | .error e => Q e w1
    | .ok (src, H) =>
      if 0 < (src 0).nmemb ∧ 0 < (src 0).size then
        ∃ c B, chunk (src 0) = some c ∧ ∀ es s,
          FilesRun (job (src 1)) F n (size (src 0)) (filesStart c H mem w1.fs.node) es s → es.length ≤ B ∧
          (FilesStuck (job (src 1)) F n (size (src 0)) s → AllLeft n s.queue ∧
            ∃ X : Nat → Worker, (∀ r, r < n → (s.procs.thr r).prog = .ret (X r)) ∧
              ∀ w2 : World, w2.fs.node = s.procs.nodes → w2.faults = w1.faults →
                (mpiToolFinish env n src fun r => (X r).bb).Ensures F w2 Q)
      else (mpiToolFinish env n src H).Ensures F w1 Q

/-- Every execution of bigfile-copy-mpi on `n` processes ends with `Q` (bigfile-copy-mpi.c:32-118). -/
def CopyMpiEnds (env : Env) (F : Nat → Nat → Fault) (n : Nat) (file block newfile newblock : CStr) (nfile : Option Nat)
    (buffersize : Nat) (buf : Int) (mem : Nat → Mem) (w : World) (Q : Exit → World → Prop) : Prop :=
  MpiToolEnds env F n (mpiToolPrepare env n file block newfile newblock nfile (fun s => s) true) (mpiCopyChunk env buffersize)
    (fun bb => bb.size) (fun bb => copyRangeP env bb buf) mem w Q

/-- Every execution of bigfile-sample-mpi on `n` processes ends with `Q` (bigfile-sample-mpi.c:46-129). `g` and `draw` are the random
numbers of the server and of the slaves; `all` says that the ratio is 1. -/
def SampleMpiEnds (env : Env) (F : Nat → Nat → Fault) (n : Nat) (file block newfile newblock : CStr) (nfile : Option Nat)
    (g : Rng) (all : Bool) (draw : Nat → Nat → Nat → Nat) (buf abuf : Int) (mem : Nat → Mem) (w : World) (Q : Exit → World → Prop) : Prop :=
  MpiToolEnds env F n (mpiToolPrepare env n file block newfile newblock nfile (sampleSize g all) false) (fun _ => some 1)
    (fun bb => (sampleWork g all bb.size).length) (fun bb => sampleJob env bb draw buf abuf (sampleWork g all bb.size)) mem w Q

end Verif
