import Verif.Model.MpiBlock
import Verif.Model.Record
import Verif.C.Phases
/-!
# Collective functions as sequences of phases

Models `/repo/src/bigfile-mpi.c` lines 40-73 (open and create a file), 95-256 (create and grow a block as a whole) and
566-704 (records). See `Verif/C/Phases.lean` for phases and `Verif/Model/MpiBlock.lean` for the parts.

Simplification: the messages that failing calls leave are fixed texts.
-/

set_option autoImplicit false

namespace Verif

/-- All processes go on with the code they got: together, if it is the same decision on all. If some went on and the
others returned, they would wait for each other for ever. (`RAISEIF` around a collective call, as in bigfile-mpi.c:576-617.) -/
def together0 {α : Type} (n : Nat) (c : Nat → Int) (good bad : Phases α) : Phases α :=
  if (List.range n).all (fun r => c r == 0) then good
  else if (List.range n).all (fun r => c r != 0) then bad
  else .hang

/-- `big_file_mpi_open` (bigfile-mpi.c:40-56): rank 0 opens the file, all others store the name; then the exchange of
errors. The code and the stored name of each process. -/
def mpiFileOpen (n : Nat) (basename : CStr) : Phases (Nat → Int × CStr) := do
  let (rc, name) ← Phases.alone (bigFileOpen basename)
  let out ← Phases.together n fun r =>
    anyerrorP .world (List.range n) r (if r = 0 then rc else 0) (if r = 0 ∧ rc ≠ 0 then some b!"cannot open" else none)
  pure fun r => ((out r).1, if r = 0 then name else strdup basename)

/-- `big_file_mpi_create` (bigfile-mpi.c:58-73). -/
def mpiFileCreate (n : Nat) (basename : CStr) : Phases (Nat → Int × CStr) := do
  let (rc, name) ← Phases.alone (bigFileCreate basename)
  let out ← Phases.together n fun r =>
    anyerrorP .world (List.range n) r (if r = 0 then rc else 0) (if r = 0 ∧ rc ≠ 0 then some b!"cannot create" else none)
  pure fun r => ((out r).1, if r = 0 then name else strdup basename)

/-- `_big_file_mpi_create_block` (bigfile-mpi.c:116-142 and 170-211): the code of each process, and the handles. -/
def mpiCreateBlock (env : Env) (n : Nat) (bf blockname : CStr) (dtype : Option CStr) (nmemb : Int) (fsize : List Nat) :
    Phases ((Nat → Int) × Option (Nat → Block)) := do
  match ← Phases.alone (mpiCreateRoot env bf blockname dtype nmemb fsize) with
  | (0, some H) => do
    let out ← Phases.together n fun r => mpiTruncP n r (H r).basename 0 (H r).nfile none b!"cannot open"
    pure (fun r => (out r).1, some H)
  | (rc, _) => pure (fun _ => rc, none)

/-- `big_block_mpi_grow` (bigfile-mpi.c:213-256). -/
def mpiGrow (env : Env) (n : Nat) (H : Nat → Block) (sizes : List Nat) : Phases ((Nat → Int) × (Nat → Block)) := do
  let H' := mpiGrowRoot env H sizes
  let out ← Phases.together n fun r => mpiTruncP n r (H' r).basename (H r).nfile sizes.length none b!"cannot open"
  pure (fun r => (out r).1, H')

/-- One process seeks to a row and transfers (bigfile-mpi.c:638-643 and 683-688). -/
def xferP (env : Env) (write : Bool) (n : Nat) (concurrency : Int) (threshold me : Nat) (offset : Int) (bb : Block) (arr : Arr)
    (mem : Mem) : Prog (Int × Rank) := do
  let (rc, ptr) ← Prog.lift (seek bb ⟨0, 0, 0⟩ offset)
  let st : Rank := ⟨bb, ptr, arr, mem, none, b!"transfer failed"⟩
  if rc ≠ 0 then pure (rc, st)
  else if write then mpiWriteP env n concurrency threshold me st
  else mpiReadP env n concurrency threshold me st

/-- One field of `big_file_mpi_write_records` or `big_file_mpi_read_records` (bigfile-mpi.c:627-658 and 673-703), on all
processes: process `r` has `size r` records at `buf r` in its memory `mem r`. The code and the memory of each process. -/
def mpiXferField (env : Env) (write : Bool) (n : Nat) (bf : CStr) (rt : RType) (concurrency : Int) (threshold : Nat) (offset : Int)
    (size : Nat → Nat) (buf : Nat → Int) (f : RField) (mem : Nat → Mem) : Phases ((Nat → Int) × (Nat → Mem)) := do
  let arr ← Phases.together n fun r => Prog.lift (viewField env.m rt f (size r) (buf r))
  match f.name with
  | none => .ub
  | some name =>
    match ← Phases.alone (mpiOpenBlock env bf name) with
    | (0, some H) => do
      let out ← Phases.together n fun r => xferP env write n concurrency threshold r offset (H r) (arr r) (mem r)
      let rc ← Phases.alone (mpiClose env n fun r => (out r).2.bb)
      pure (fun r => if (out r).1 ≠ 0 ∨ rc ≠ 0 then -1 else 0, fun r => (out r).2.mem)
    | _ => pure (fun _ => -1, mem)

/-- One field of `big_file_mpi_create_records` (bigfile-mpi.c:574-616). -/
def mpiCreateField (env : Env) (n : Nat) (bf : CStr) (mode : RMode) (fsize : List Nat) (f : RField) : Phases (Nat → Int) :=
  match f.name with
  | none => .ub
  | some name =>
    match mode with
    | .wplus => do
      match ← mpiCreateBlock env n bf name (some f.dtype) f.nmemb fsize with
      | (c, some H) =>
        together0 n c (do
          let rc ← Phases.alone (mpiClose env n H)
          pure fun _ => if rc ≠ 0 then -1 else 0) (pure fun _ => -1)
      | _ => pure fun _ => -1
    | .aplus => do
      match ← Phases.alone (mpiOpenBlock env bf name) with
      | (0, some H) => do
        let (c, H) ← mpiGrow env n H fsize
        let rc ← Phases.alone (mpiClose env n H)
        pure fun r => if c r ≠ 0 ∨ rc ≠ 0 then -1 else 0
      | _ => pure fun _ => -1
    | .other => pure fun _ => -1

/-- The loop over fields on all processes; the first failure ends it (bigfile-mpi.c:574, 627, 673). -/
def mpiEachField (n : Nat) (act : RField → (Nat → Mem) → Phases ((Nat → Int) × (Nat → Mem))) :
    List RField → (Nat → Mem) → Phases ((Nat → Int) × (Nat → Mem))
  | [], mem => pure (fun _ => 0, mem)
  | f :: fs, mem => do
    let (c, mem) ← act f mem
    together0 n c (mpiEachField n act fs mem) (pure (fun _ => -1, mem))

/-- `big_file_mpi_create_records` (bigfile-mpi.c:566-619). -/
def mpiCreateRecords (env : Env) (n : Nat) (bf : CStr) (rt : RType) (mode : RMode) (fsize : List Nat) : Phases (Nat → Int) := do
  let r ← mpiEachField n (fun f mem => do
    let c ← mpiCreateField env n bf mode fsize f
    pure (c, mem)) rt.fields (fun _ _ => 0)
  pure r.1

/-- `big_file_mpi_write_records` (bigfile-mpi.c:620-661): the code and the memory of each process. -/
def mpiWriteRecords (env : Env) (n : Nat) (bf : CStr) (rt : RType) (concurrency : Int) (threshold : Nat) (offset : Int)
    (size : Nat → Nat) (buf : Nat → Int) (mem : Nat → Mem) : Phases ((Nat → Int) × (Nat → Mem)) :=
  mpiEachField n (mpiXferField env true n bf rt concurrency threshold offset size buf) rt.fields mem

/-- `big_file_mpi_read_records` (bigfile-mpi.c:664-704). -/
def mpiReadRecords (env : Env) (n : Nat) (bf : CStr) (rt : RType) (concurrency : Int) (threshold : Nat) (offset : Int)
    (size : Nat → Nat) (buf : Nat → Int) (mem : Nat → Mem) : Phases ((Nat → Int) × (Nat → Mem)) :=
  mpiEachField n (mpiXferField env false n bf rt concurrency threshold offset size buf) rt.fields mem

end Verif
