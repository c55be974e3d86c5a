import Verif.Model.Options
import Verif.Model.MpiTools
import Verif.Model.IoSim
import Verif.Model.Scripts
/-!
# The command lines of the MPI programs

Models the beginnings of `main` in `/repo/utils/bigfile-copy-mpi.c`, `/repo/utils/bigfile-sample-mpi.c` and
`/repo/utils/bigfile-iosim.c`, and the end of the latter (`-p`).
All processes see the same words.
-/

set_option autoImplicit false

namespace Verif

/-- The switch of bigfile-copy-mpi (bigfile-copy-mpi.c:43-60): `-N` and `-n` are the same, the size of the buffer is `-b`. -/
def copyMpiOpt (o : CopyOpts) : Byte × Option CStr → CopyOpts
  | (102, some v) => { o with newfile := some v }
  | (110, some v) => { o with nfile := atoi v }
  | (78, some v) => { o with nfile := atoi v }
  | (98, some v) => { o with buffersize := ((scanPtrdiff v).map Prod.fst).getD o.buffersize }
  | _ => o

/-- What the rest of bigfile-copy-mpi works with (bigfile-copy-mpi.c:25-31 and 69-118). -/
structure CopyMpiArgs where
  file : CStr
  block : CStr
  newfile : CStr
  newblock : CStr
  nfile : Option Nat
  buffersize : Nat

/-- The command line of bigfile-copy-mpi (bigfile-copy-mpi.c:42-65, 79-81). `none`: `exit(1)`. Simplified: a number of files below -1
also is `none`; it does not occur in the theorems. -/
def copyMpiArgs (permute : Bool) (args : List CStr) : Option CopyMpiArgs :=
  match getopt permute (takesOf b!"n:N:vb:f:") args with
  | some (os, [file, block, newblock]) =>
    let o := os.foldl copyMpiOpt ⟨-1, 268435456, none⟩
    if o.nfile < -1 then none
    else some ⟨file, block, o.newfile.getD file, newblock, if o.nfile = -1 then none else some o.nfile.toNat, o.buffersize⟩
  | _ => none

/-- The variables of bigfile-sample-mpi (bigfile-sample-mpi.c:28-35). `ratio` is the text that `atof` reads, `none` stands for 1.0. -/
structure SampleOpts where
  nfile : Int
  ratio : Option CStr
  newfile : Option CStr

/-- The switch of bigfile-sample-mpi (bigfile-sample-mpi.c:58-75). -/
def sampleMpiOpt (o : SampleOpts) : Byte × Option CStr → SampleOpts
  | (114, some v) => { o with ratio := some v }
  | (110, some v) => { o with nfile := atoi v }
  | (78, some v) => { o with nfile := atoi v }
  | (102, some v) => { o with newfile := some v }
  | _ => o

/-- What the rest of bigfile-sample-mpi works with (bigfile-sample-mpi.c:76-127). -/
structure SampleMpiArgs where
  file : CStr
  block : CStr
  newfile : CStr
  newblock : CStr
  nfile : Option Nat
  ratio : Option CStr

/-- The command line of bigfile-sample-mpi (bigfile-sample-mpi.c:56-93). `none`: `exit(1)`. Simplified as `copyMpiArgs`. -/
def sampleMpiArgs (permute : Bool) (args : List CStr) : Option SampleMpiArgs :=
  match getopt permute (takesOf b!"n:N:vf:r:") args with
  | some (os, [file, block, newblock]) =>
    let o := os.foldl sampleMpiOpt ⟨-1, none, none⟩
    if o.nfile < -1 then none
    else some ⟨file, block, o.newfile.getD file, newblock, if o.nfile = -1 then none else some o.nfile.toNat, o.ratio⟩
  | _ => none

/-- The variables of bigfile-iosim (bigfile-iosim.c:50-56). -/
structure SimVars where
  nmemb : Int
  nwriter : Int
  nfile : Int
  size : Nat
  aggregated : Bool
  purge : Bool

/-- The switch of bigfile-iosim (bigfile-iosim.c:305-342). `none`: the message about the usage, and the end. `-m` is announced to `getopt`
(280) but has no case. -/
def simOpt (o : Option SimVars) (x : Byte × Option CStr) : Option SimVars :=
  o.bind fun o =>
    match x with
    | (65, _) => some { o with aggregated := true }
    | (112, _) => some { o with purge := true }
    | (119, some v) => (scanInt v).map fun r => { o with nmemb := r.1 }
    | (102, some v) => (scanInt v).map fun r => { o with nfile := r.1 }
    | (110, some v) => (scanInt v).map fun r => { o with nwriter := r.1 }
    | (115, some v) => (scanPtrdiff v).map fun r => { o with size := r.1 }
    | _ => none

/-- The command (bigfile-iosim.c:42 and 348-354). -/
def simModeOf (s : CStr) : Option SimMode :=
  if s = b!"create" then some .create
  else if s = b!"read" then some .read
  else if s = b!"update" then some .update
  else if s = b!"grow" then some .grow
  else none

/-- bigfile-iosim on `n` processes (bigfile-iosim.c:294-389). The status is 0 unless the program aborts. Undefined: no name of a file
after the command (358), a name that does not fit the buffers (303, 379); simplified: a negative number of files. `order` is the order in
which `rm` removes the files; simplified: the name has no characters that mean something to the shell (380). -/
def bigfileIosim (env : Env) (n : Nat) (order : List Key → List Key) (permute : Bool) (args : List CStr) (buf : Nat → Int) (mem : Nat → Mem) :
    Phases Exit :=
  match getopt permute (takesOf b!"hf:n:s:w:m:Ap") args with
  | none => pure .done
  | some (os, ops) =>
    match os.foldl simOpt (some ⟨1, 0, 0, 1024, false, false⟩), ops with
    | none, _ => pure .done
    | some _, [] => pure .done
    | some o, cmd :: rest =>
      match simModeOf cmd, rest with
      | none, _ => pure .done
      | some _, [] => .ub
      | some mode, file :: _ =>
        if 1500 ≤ file.length ∨ o.nfile < 0 then .ub
        else do
          let e ← ioSim env n mode ⟨o.nmemb, o.nwriter, o.nfile.toNat, o.size, o.aggregated⟩ file buf mem
          if e = .aborted then pure e
          else if !o.purge then pure .done
          else if 1483 ≤ file.length then .ub
          else do
            let _ ← Phases.alone (rmTree order (slashed file b!"TestBlock"))
            pure .done

end Verif
