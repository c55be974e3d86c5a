import Verif.C.Kill
import Verif.Model.CopyFiles
import Verif.Model.SampleFiles
/-!
# bigfile-copy-mpi and bigfile-sample-mpi when operations fail and processes are killed

`FilesStep` of `Verif/Model/CopyFiles.lean` with one more possibility: a process is killed inside a file operation, see `KRun` in
`Verif/C/Kill.lean`. It then neither reports its range nor does anything else. Simplified: what the MPI library does about a process that
is gone (it usually ends the others too) is a process that takes no further step, so statements about every moment of a run cover it.
-/

set_option autoImplicit false

namespace Verif

/-- A run in which some processes may be killed, with the steps of the queue. (bigfile-copy-mpi.c:120-196, bigfile-sample-mpi.c:159-280.) -/
inductive KFilesRun (job : Nat → Nat → Worker → Prog Worker) (F : Nat → Nat → Fault) (n size : Nat) (s0 : FilesConf) :
    List CopyEvent → FilesConf → Prop where
  | nil : KFilesRun job F n size s0 [] s0
  /-- Messages, and the beginning and the end of the work on a range. -/
  | queue {s s' : FilesConf} {es : List CopyEvent} {e : CopyEvent} (t : KFilesRun job F n size s0 es s)
      (h : FilesStep job F n size s (.queue e) s') : KFilesRun job F n size s0 (es ++ [e]) s'
  /-- A process does a file operation, and may be killed in it. -/
  | file {s : FilesConf} {es : List CopyEvent} (t : KFilesRun job F n size s0 es s) (r : Nat) (op : FOp) (k : Resp → Prog Worker) (c : Nat)
      (hr : r < n) (ht : s.procs.thr r = ⟨.file op k, c⟩) :
      KFilesRun job F n size s0 es
        { s with procs := s.procs.put r ⟨Prog.after k (op.does (F r c) s.procs.nodes).1, c + 1⟩ (op.does (F r c) s.procs.nodes).2 }

end Verif
