import Verif.C.Proc
import Verif.Model.Block
/-!
# Reading and writing a block as steps of a process

The same functions as `writeChunk`, ..., `blockRead` of `Verif/Model/Block.lean`, written as programs
whose file operations are separate steps, so that several processes can be interleaved. That they are
the same is proved in `Verif/Proof/BlockP.lean` (`interp_blockWrite`, `interp_blockRead`).
-/

set_option autoImplicit false

namespace Verif

/-- `fopen "r+"`, `fseek`, `fwrite` (bigfile.c:945-957). -/
def writeChunkP (bb : Block) (fileid : Nat) (off : Int) (felsize : Int) (chunk : Nat)
    (bytes : List Byte) : Prog Bool := do
  if ← Prog.fopen (filePath bb.basename (.data fileid)) .rplus then
    if off < 0 then pure false
    else
      let n ← Prog.fwrite (filePath bb.basename (.data fileid)) off.toNat bytes
      pure (decide (n / felsize.toNat = chunk))
  else pure false

/-- The loop of `big_block_write` (bigfile.c:926-962). -/
def writeLoopP (env : Env) (felsize : Int) (CHUNK_SIZE : Nat) (chunkArr : Arr) :
    Nat → Block → Ptr → Iter → Int → Mem → Prog Xfer
  | 0, _, _, _, _, _ => Prog.hang
  | fuel + 1, bb, ptr, it, towrite, mem => do
    let e ← Prog.lift (eof bb ptr)
    if !(decide (towrite > 0) && !e) then pure ⟨0, bb, ptr, mem⟩
    else
      let chunk ← Prog.lift (chunkSize bb ptr CHUNK_SIZE towrite)
      let r ← Prog.lift (dtypeConvert env.m env.fo (iterInit env.m chunkArr) it
        (u64 (chunk * bb.nmemb)) env.junk mem)
      if r.rc ≠ 0 then pure ⟨-1, bb, ptr, r.sm⟩
      else
        let bytes := peek r.dm 0 (chunk * felsize.toNat)
        let old ← Prog.lift (bb.fchecksum[ptr.fileid]?)
        let bb := { bb with fchecksum := bb.fchecksum.set ptr.fileid (sysvsum old bytes) }
        let ok ← writeChunkP bb ptr.fileid (ptr.roffset * felsize) felsize chunk bytes
        if !ok then pure ⟨-1, bb, ptr, r.sm⟩
        else
          let (rc, ptr) ← Prog.lift (seekRel bb ptr chunk)
          if rc ≠ 0 then pure ⟨-1, bb, ptr, r.sm⟩
          else writeLoopP env felsize CHUNK_SIZE chunkArr fuel bb ptr r.si (towrite - chunk) r.sm

/-- `big_block_write` (bigfile.c:890-975). -/
def blockWriteP (env : Env) (bb : Block) (ptr : Ptr) (a : Arr) (mem : Mem) : Prog Xfer := do
  if a.size = 0 then pure ⟨0, bb, ptr, mem⟩
  else
    let bb := { bb with dirty := true }
    let (nmemb, felsize, CHUNK_SIZE) ← Prog.lift (elemSizes env bb)
    let chunkArr ← Prog.lift (arrayInit env.m 0 bb.dtype [CHUNK_SIZE, u64 bb.nmemb] none)
    let towrite := i64 ((a.size / u64 nmemb : Nat) : Int)
    let fo ← Prog.lift (bb.foffset[ptr.fileid]?)
    let abs := i64 (fo + ptr.roffset + towrite)
    if u64 abs > bb.size then pure ⟨-1, bb, ptr, mem⟩
    else writeLoopP env felsize CHUNK_SIZE chunkArr (loopFuel a) bb ptr (iterInit env.m a) towrite mem

/-- `fopen "r"`, `fseek`, `fread` (bigfile.c:850-862). -/
def readChunkP (bb : Block) (fileid : Nat) (off : Int) (felsize : Int) (chunk : Nat) :
    Prog (Option (List Byte)) := do
  if ← Prog.fopen (filePath bb.basename (.data fileid)) .r then
    if off < 0 then pure none
    else
      let d ← Prog.fread (filePath bb.basename (.data fileid)) off.toNat (chunk * felsize.toNat)
      pure (if d.length / felsize.toNat = chunk then some d else none)
  else pure none

/-- The loop of `big_block_read` (bigfile.c:832-873). -/
def readLoopP (env : Env) (felsize : Int) (CHUNK_SIZE : Nat) (chunkArr : Arr) :
    Nat → Block → Ptr → Iter → Int → Mem → Prog Xfer
  | 0, _, _, _, _, _ => Prog.hang
  | fuel + 1, bb, ptr, it, toread, mem => do
    let e ← Prog.lift (eof bb ptr)
    if !(decide (toread > 0) && !e) then pure ⟨0, bb, ptr, mem⟩
    else
      let chunk ← Prog.lift (chunkSize bb ptr CHUNK_SIZE toread)
      if chunk = 0 then pure ⟨-1, bb, ptr, mem⟩
      else
        match ← readChunkP bb ptr.fileid (ptr.roffset * felsize) felsize chunk with
        | none => pure ⟨-1, bb, ptr, mem⟩
        | some d =>
          let r ← Prog.lift (dtypeConvert env.m env.fo it (iterInit env.m chunkArr)
            (u64 (chunk * bb.nmemb)) mem (poke env.junk 0 d))
          if r.rc ≠ 0 then pure ⟨-1, bb, ptr, r.dm⟩
          else
            let (rc, ptr) ← Prog.lift (seekRel bb ptr chunk)
            if rc ≠ 0 then pure ⟨-1, bb, ptr, r.dm⟩
            else readLoopP env felsize CHUNK_SIZE chunkArr fuel bb ptr r.di (toread - chunk) r.dm

/-- `big_block_read` (bigfile.c:797-888). -/
def blockReadP (env : Env) (bb : Block) (ptr : Ptr) (a : Arr) (mem : Mem) : Prog Xfer := do
  let (nmemb, felsize, CHUNK_SIZE) ← Prog.lift (elemSizes env bb)
  let chunkArr ← Prog.lift (arrayInit env.m 0 bb.dtype [CHUNK_SIZE, u64 bb.nmemb] none)
  let toread := i64 ((a.size / u64 nmemb : Nat) : Int)
  let fo ← Prog.lift (bb.foffset[ptr.fileid]?)
  let abs := i64 (fo + ptr.roffset + toread)
  if u64 abs > bb.size then pure ⟨-1, bb, ptr, mem⟩
  else readLoopP env felsize CHUNK_SIZE chunkArr (loopFuel a) bb ptr (iterInit env.m a) toread mem

end Verif
