import Verif.Model.AttrSet
/-!
# Blocks

Models `/repo/src/bigfile.c` lines 278-299 and 314-975.
-/

set_option autoImplicit false

namespace Verif

/-- `struct BigBlock` (bigfile.h:24-40). `fsize` and `fchecksum` hold `Nfile` entries (the C arrays
have one more, always zero); `foffset` holds `Nfile + 1`. The NULL pointers of a meta block are
empty lists, so that every access to them is out of bounds. -/
structure Block where
  dtype : CStr
  nmemb : Int
  basename : CStr
  size : Nat
  fsize : List Nat
  foffset : List Nat
  fchecksum : List Nat
  nfile : Nat
  attrset : AttrSet
  dirty : Bool

/-- `struct BigBlockPtr` (bigfile.h:44-49). -/
structure Ptr where
  fileid : Nat
  roffset : Int
  aoffset : Int
  deriving DecidableEq, Repr

/-- Running sums `foffset` of the file sizes (bigfile.c:379-382, 431-434, 510-513), starting from
`s`; additions are `size_t` additions. -/
def runningSums (s : Nat) : List Nat → List Nat
  | [] => [s]
  | f :: fs => s :: runningSums (u64 ((s + f : Nat) : Int)) fs

/-! ## Seeking -/

/-- The binary search of `big_block_seek` (bigfile.c:714-723). `none`: out-of-bounds access. The
comparison `foffset[mid] <= offset` is unsigned. The first number is fuel; `none` if it runs out
(proved impossible with the fuel given below). -/
def seekSearch (foffset : List Nat) (offset : Int) : Nat → Nat → Nat → Option Nat
  | 0, _, _ => none
  | fuel + 1, left, right =>
    if right > left + 1 then
      let mid := (right - left) / 2 + left
      match foffset[mid]? with
      | none => none
      | some f => if f ≤ u64 offset then seekSearch foffset offset fuel mid right
                  else seekSearch foffset offset fuel left mid
    else some left

/-- `big_block_seek` (bigfile.c:694-731): return code and pointer (unchanged on failure). -/
def seek (bb : Block) (ptr : Ptr) (offset : Int) : Option (Int × Ptr) :=
  if bb.size = 0 ∧ offset = 0 then some (0, ⟨0, 0, 0⟩)
  else do
    let offset ← if offset < 0 then do
        let e ← bb.foffset[bb.nfile]?
        pure (i64 (offset + e))
      else pure offset
    if u64 offset > bb.size then pure (-1, ptr)
    else do
      let left ← seekSearch bb.foffset offset (bb.nfile + 1) 0 bb.nfile
      let fo ← bb.foffset[left]?
      pure (0, ⟨left, i64 (offset - fo), offset⟩)

/-- `big_block_seek_rel` (bigfile.c:733-738). -/
def seekRel (bb : Block) (ptr : Ptr) (rel : Int) : Option (Int × Ptr) := do
  let fo ← bb.foffset[ptr.fileid]?
  seek bb ptr (i64 (fo + ptr.roffset + rel))

/-- `big_block_eof` (bigfile.c:740-745). -/
def eof (bb : Block) (ptr : Ptr) : Option Bool := do
  let fo ← bb.foffset[ptr.fileid]?
  pure (decide (u64 (i64 (fo + ptr.roffset)) ≥ bb.size))

/-! ## Reading and writing -/

/-- `int felsize = itemsize * nmemb` and `CHUNK_SIZE = CHUNK_BYTES / felsize` (bigfile.c:802-804,
897-899), after `nmemb` 0 was replaced by 1. `none`: `int` overflow or division by zero. -/
def elemSizes (env : Env) (bb : Block) : Option (Int × Int × Nat) :=
  let nmemb := if bb.nmemb = 0 then 1 else bb.nmemb
  let felsize := itemsize env.m bb.dtype * nmemb
  if !fitsInt felsize || felsize == 0 then none
  else some (nmemb, felsize, env.chunkBytes / u64 felsize)

/-- The size of the next chunk (bigfile.c:833-841, 927-935), all comparisons unsigned. -/
def chunkSize (bb : Block) (ptr : Ptr) (CHUNK_SIZE : Nat) (todo : Int) : Option Nat := do
  let fs ← bb.fsize[ptr.fileid]?
  let inFile := u64 (fs - ptr.roffset)
  let c := if CHUNK_SIZE > inFile then inFile else CHUNK_SIZE
  pure (if c > u64 todo then u64 todo else c)

/-- State of a transfer: return code so far (`none` while the loop runs), handle, pointer, the
caller's memory. (bigfile.c:797-888, 890-975, the local variables.) -/
structure Xfer where
  rc : Int
  bb : Block
  ptr : Ptr
  mem : Mem

/-- One file write: `fopen "r+"`, `fseek`, `fwrite` (bigfile.c:945-957). Returns success. A
negative offset makes `fseek` fail. -/
def writeChunk (bb : Block) (fileid : Nat) (off : Int) (felsize : Int) (chunk : Nat)
    (bytes : List Byte) : M Bool := do
  if ← openAFile bb.basename (.data fileid) .rplus then
    if off < 0 then pure false
    else
      let n ← fwriteAt (filePath bb.basename (.data fileid)) off.toNat bytes
      pure (decide (n / felsize.toNat = chunk))
  else pure false

/-- The loop of `big_block_write` (bigfile.c:926-962). `fuel` counts iterations; running out of it
means that the loop has not ended within that many. -/
def writeLoop (env : Env) (felsize : Int) (CHUNK_SIZE : Nat) (chunkArr : Arr) :
    Nat → Block → Ptr → Iter → Int → Mem → M Xfer
  | 0, _, _, _, _, _ => M.hang
  | fuel + 1, bb, ptr, it, towrite, mem => do
    let e ← M.lift (eof bb ptr)
    if !(decide (towrite > 0) && !e) then pure ⟨0, bb, ptr, mem⟩
    else
      let chunk ← M.lift (chunkSize bb ptr CHUNK_SIZE towrite)
      let r ← M.lift (dtypeConvert env.m env.fo (iterInit env.m chunkArr) it
        (u64 (chunk * bb.nmemb)) env.junk mem)
      if r.rc ≠ 0 then pure ⟨-1, bb, ptr, r.sm⟩
      else
        let bytes := peek r.dm 0 (chunk * felsize.toNat)
        let old ← M.lift (bb.fchecksum[ptr.fileid]?)
        let bb := { bb with fchecksum := bb.fchecksum.set ptr.fileid (sysvsum old bytes) }
        let ok ← writeChunk bb ptr.fileid (ptr.roffset * felsize) felsize chunk bytes
        if !ok then pure ⟨-1, bb, ptr, r.sm⟩
        else
          let (rc, ptr) ← M.lift (seekRel bb ptr chunk)
          if rc ≠ 0 then pure ⟨-1, bb, ptr, r.sm⟩
          else writeLoop env felsize CHUNK_SIZE chunkArr fuel bb ptr r.si (towrite - chunk) r.sm

/-- `big_block_write` (bigfile.c:890-975), running the loop for at most `fuel` iterations. The
array's data lives in `mem`. Simplified: `malloc` does not fail. -/
def blockWriteFuel (env : Env) (fuel : Nat) (bb : Block) (ptr : Ptr) (a : Arr) (mem : Mem) : M Xfer := do
  if a.size = 0 then pure ⟨0, bb, ptr, mem⟩
  else
    let bb := { bb with dirty := true }
    let (nmemb, felsize, CHUNK_SIZE) ← M.lift (elemSizes env bb)
    let chunkArr ← M.lift (arrayInit env.m 0 bb.dtype [CHUNK_SIZE, u64 bb.nmemb] none)
    let towrite := i64 ((a.size / u64 nmemb : Nat) : Int)
    let fo ← M.lift (bb.foffset[ptr.fileid]?)
    let abs := i64 (fo + ptr.roffset + towrite)
    if u64 abs > bb.size then pure ⟨-1, bb, ptr, mem⟩
    else writeLoop env felsize CHUNK_SIZE chunkArr fuel bb ptr (iterInit env.m a) towrite mem

/-- Number of iterations that is always enough when the loop ends at all (one per row plus the
one that re-seats a stale pointer and the final test). (bigfile.c:832, 926, the `while` loops.) -/
def loopFuel (a : Arr) : Nat := a.size + 2

/-- `big_block_write`. (bigfile.c:890-975.) -/
def blockWrite (env : Env) (bb : Block) (ptr : Ptr) (a : Arr) (mem : Mem) : M Xfer :=
  blockWriteFuel env (loopFuel a) bb ptr a mem

/-- One file read: `fopen "r"`, `fseek`, `fread` (bigfile.c:850-862). `none`: an error was
raised. -/
def readChunk (bb : Block) (fileid : Nat) (off : Int) (felsize : Int) (chunk : Nat) :
    M (Option (List Byte)) := do
  if ← openAFile bb.basename (.data fileid) .r then
    if off < 0 then pure none
    else
      let d ← freadAt (filePath bb.basename (.data fileid)) off.toNat (chunk * felsize.toNat)
      pure (if d.length / felsize.toNat = chunk then some d else none)
  else pure none

/-- The loop of `big_block_read` (bigfile.c:832-873). -/
def readLoop (env : Env) (felsize : Int) (CHUNK_SIZE : Nat) (chunkArr : Arr) :
    Nat → Block → Ptr → Iter → Int → Mem → M Xfer
  | 0, _, _, _, _, _ => M.hang
  | fuel + 1, bb, ptr, it, toread, mem => do
    let e ← M.lift (eof bb ptr)
    if !(decide (toread > 0) && !e) then pure ⟨0, bb, ptr, mem⟩
    else
      let chunk ← M.lift (chunkSize bb ptr CHUNK_SIZE toread)
      if chunk = 0 then pure ⟨-1, bb, ptr, mem⟩
      else
        match ← readChunk bb ptr.fileid (ptr.roffset * felsize) felsize chunk with
        | none => pure ⟨-1, bb, ptr, mem⟩
        | some d =>
          let r ← M.lift (dtypeConvert env.m env.fo it (iterInit env.m chunkArr)
            (u64 (chunk * bb.nmemb)) mem (poke env.junk 0 d))
          if r.rc ≠ 0 then pure ⟨-1, bb, ptr, r.dm⟩
          else
            let (rc, ptr) ← M.lift (seekRel bb ptr chunk)
            if rc ≠ 0 then pure ⟨-1, bb, ptr, r.dm⟩
            else readLoop env felsize CHUNK_SIZE chunkArr fuel bb ptr r.di (toread - chunk) r.dm

/-- `big_block_read` (bigfile.c:797-888), at most `fuel` iterations. -/
def blockReadFuel (env : Env) (fuel : Nat) (bb : Block) (ptr : Ptr) (a : Arr) (mem : Mem) : M Xfer := do
  let (nmemb, felsize, CHUNK_SIZE) ← M.lift (elemSizes env bb)
  let chunkArr ← M.lift (arrayInit env.m 0 bb.dtype [CHUNK_SIZE, u64 bb.nmemb] none)
  let toread := i64 ((a.size / u64 nmemb : Nat) : Int)
  let fo ← M.lift (bb.foffset[ptr.fileid]?)
  let abs := i64 (fo + ptr.roffset + toread)
  if u64 abs > bb.size then pure ⟨-1, bb, ptr, mem⟩
  else readLoop env felsize CHUNK_SIZE chunkArr fuel bb ptr (iterInit env.m a) toread mem

/-- `big_block_read`. (bigfile.c:797-888.) -/
def blockRead (env : Env) (bb : Block) (ptr : Ptr) (a : Arr) (mem : Mem) : M Xfer :=
  blockReadFuel env (loopFuel a) bb ptr a mem

/-- `big_block_read_simple` (bigfile.c:757-795). `buf` is the address `malloc` returns. Result:
return code, array, memory. -/
def readSimple (env : Env) (bb : Block) (start size : Int) (dtype : Option CStr) (buf : Int)
    (mem : Mem) : M (Int × Option Arr × Mem) := do
  let dt := dtype.getD bb.dtype
  let (rc, ptr) ← M.lift (seek bb ⟨0, 0, 0⟩ start)
  if rc ≠ 0 then pure (-1, none, mem)
  else
    let size := if u64 (start + size) > bb.size then i64 (bb.size - start) else size
    if size < 0 then pure (-1, none, mem)
    else
      let a ← M.lift (arrayInit env.m buf dt [size.toNat, u64 bb.nmemb] none)
      let x ← blockRead env bb ptr a mem
      if x.rc ≠ 0 then pure (-1, none, x.mem) else pure (0, some a, x.mem)

/-! ## The header -/

/-- The reduced checksum printed in the header (bigfile.c:600-602). -/
def sysvReduce (s : Nat) : Nat :=
  let r := s % 65536 + (s % 4294967296) / 65536
  r % 65536 + r / 65536

/-- One line of the header per file (bigfile.c:603): `"%06X: %td : %u : %u\n"`. -/
def headerLine (i size cksum : Nat) : CStr :=
  hex6Str i ++ b!": " ++ intStr (i64 size) ++ b!" : " ++ decStr cksum ++ b!" : " ++
    decStr (sysvReduce cksum) ++ b!"\n"

/-- The lines of files `i, i+1, ...` (bigfile.c:599-605). -/
def headerLines : Nat → List Nat → List Nat → CStr
  | i, s :: ss, c :: cs => headerLine i s c ++ headerLines (i + 1) ss cs
  | _, _, _ => []

/-- The header text (bigfile.c:593-605). -/
def headerText (bb : Block) : CStr :=
  b!"DTYPE: " ++ bb.dtype ++ b!"\nNMEMB: " ++ intStr bb.nmemb ++ b!"\nNFILE: " ++
    intStr bb.nfile ++ b!"\n" ++ headerLines 0 bb.fsize bb.fchecksum

/-- First part of `big_block_flush` (bigfile.c:588-610): write the header if needed. Returns
success. -/
def flushHeader (bb : Block) : M (Bool × Block) :=
  if bb.dirty then do
    if ← openAFile bb.basename .header .w then
      if ← writeText (filePath bb.basename .header) (headerText bb) then
        pure (true, { bb with dirty := false })
      else pure (false, bb)
    else pure (false, bb)
  else pure (true, bb)

/-- `big_block_flush` (bigfile.c:585-622). -/
def blockFlush (env : Env) (bb : Block) : M (Int × Block) := do
  let (ok, bb) ← flushHeader bb
  if !ok then pure (-1, bb)
  else if bb.attrset.dirty then do
    let (rc, s) ← writeAttrsV2 env bb.attrset bb.basename
    if rc ≠ 0 then pure (-1, { bb with attrset := s })
    else pure (0, { bb with attrset := { s with dirty := false } })
  else pure (0, bb)

/-- `big_block_close` (bigfile.c:636-650): flush, then release the handle whatever happened. -/
def blockClose (env : Env) (bb : Block) : M Int := do
  let (rc, _) ← blockFlush env bb
  pure (if rc ≠ 0 then -1 else 0)

/-- One header line read back (bigfile.c:370-377): `" %06X: %td : %u : %u"`. -/
def scanLine (s : CStr) : Option (Int × Nat × Nat × CStr) := do
  let (fid, s) ← scanHex6 (scanWs s)
  let s ← scanLit b!": " s
  let (size, s) ← scanPtrdiff s
  let s ← scanLit b!" : " s
  let (cksum, s) ← scanUInt s
  let s ← scanLit b!" : " s
  let (_, s) ← scanUInt s
  pure (fid, size, cksum, s)

/-- Result of reading the lines of the files: sizes and checksums, an error raised, or a store
outside `fsize` or `fchecksum`. (bigfile.c:314-409.) -/
inductive LinesRes where
  | ok (fsize fck : List Nat)
  | err
  | ub

/-- The loop over the files (bigfile.c:365-378). -/
def scanLines (nfile : Nat) : Nat → CStr → List Nat → List Nat → LinesRes
  | 0, _, fsize, fck => .ok fsize fck
  | n + 1, s, fsize, fck =>
    match scanLine s with
    | none => .err
    | some (fid, size, cksum, s) =>
      if fid < 0 ∨ fid ≥ nfile then .err
      else if fid < 0 ∨ fsize.length ≤ fid.toNat ∨ fck.length ≤ fid.toNat then .ub
      else scanLines nfile n s (fsize.set fid.toNat size) (fck.set fid.toNat cksum)

/-- Result of reading a header. (bigfile.c:314-409.) -/
inductive HeaderRes where
  | ok (dtype : CStr) (nmemb : Int) (nfile : Nat) (fsize fck : List Nat)
  | err
  | ub

/-- Parsing of the header (bigfile.c:339-383). `ub`: the `DTYPE` token does not fit `dtype[8]`
(`%s` has no width), or a line is stored outside the arrays. -/
def parseHeader (txt : CStr) : HeaderRes :=
  match scanLit b!" DTYPE: " txt with
  | none => .err
  | some s =>
    match scanStr s with
    | none => .err
    | some (tok, s) =>
      if 8 ≤ tok.length then .ub
      else
        let dtype := tok.takeWhile (· ≠ 0)
        match (do
          let s ← scanLit b!" NMEMB: " s
          let (nmemb, s) ← scanInt s
          let s ← scanLit b!" NFILE: " s
          let (nfile, s) ← scanInt s
          pure (nmemb, nfile, s)) with
        | none => .err
        | some (nmemb, nfile, s) =>
          if nfile < 0 ∨ nfile ≥ 2147483647 - 1 then .err
          else if nmemb < 0 then .err
          else if !dtypeIsValid dtype then .err
          else
            let n := nfile.toNat
            match scanLines n n s (List.replicate n 0) (List.replicate n 0) with
            | .err => .err
            | .ub => .ub
            | .ok fsize fck => .ok dtype nmemb n fsize fck

/-- `_big_block_open` (bigfile.c:314-409). On failure there is no usable handle. A directory in
place of the header reads as an empty file. -/
def blockOpen (env : Env) (basename : CStr) : M (Int × Option Block) := do
  let basename := strdup basename
  let s := attrsetCreate env
  let (rc, s) ← readAttrsV1 env s basename
  if rc ≠ 0 then pure (-1, none)
  else
    let (rc, s) ← readAttrsV2 env s basename
    if rc ≠ 0 then pure (-1, none)
    else if !isMeta basename then
      if ← openAFile basename .header .r then
        let fs ← getFS
        let size := (fs.bytes (resolve (filePath basename .header))).length
        let txt ← freadAt (filePath basename .header) 0 size
        match parseHeader txt with
        | .err => pure (-1, none)
        | .ub => M.ub
        | .ok dtype nmemb nfile fsize fck =>
          let foffset := runningSums 0 fsize
          let bb : Block :=
            { dtype := dtype, nmemb := nmemb, basename := basename,
              size := foffset.getLastD 0, fsize := fsize, foffset := foffset, fchecksum := fck,
              nfile := nfile, attrset := s, dirty := false }
          pure (0, some bb)
      else pure (-1, none)
    else
      let bb : Block :=
        { dtype := b!"####", nmemb := 0, basename := basename, size := 0, fsize := [],
          foffset := [], fchecksum := [], nfile := 0, attrset := s, dirty := false }
      pure (0, some bb)

/-! ## Creating and growing -/

/-- Truncation of data files `i, i+1, ..., i+n-1` (bigfile.c:459-465, 565-571). Returns success. -/
def truncFiles (basename : CStr) (i : Nat) : Nat → M Bool
  | 0 => pure true
  | n + 1 => do
    if ← openAFile basename (.data i) .w then truncFiles basename (i + 1) n else pure false

/-- `_big_block_create_internal` (bigfile.c:472-553): the handle is meaningful only on success.
`dtype = none` is the NULL dtype. Simplified: `calloc` does not fail; a negative `Nfile` is not
representable. -/
def createInternal (env : Env) (basename : CStr) (dtype : Option CStr) (nmemb : Int)
    (fsize : List Nat) : M (Int × Option Block) := do
  if hasBlank basename then pure (-1, none)
  else
    let basename := strdup basename
    let s := { attrsetCreate env with dirty := true }
    if !isMeta basename then
      let (dt, fsize) := match dtype with
        | some d => (d, fsize)
        | none => (b!"i8", [])
      let foffset := runningSums 0 fsize
      let bb : Block :=
        { dtype := dtypeNormalize env.m dt, nmemb := nmemb, basename := basename,
          size := foffset.getLastD 0, fsize := fsize, foffset := foffset,
          fchecksum := List.replicate fsize.length 0, nfile := fsize.length, attrset := s,
          dirty := true }
      let (rc, bb) ← blockFlush env bb
      if rc ≠ 0 then pure (-1, none) else pure (0, some { bb with dirty := false })
    else
      let bb : Block :=
        { dtype := [], nmemb := 0, basename := basename, size := 0, fsize := [],
          foffset := [], fchecksum := [], nfile := 0, attrset := s, dirty := false }
      let (rc, bb) ← blockFlush env bb
      if rc ≠ 0 then pure (-1, none) else pure (0, some { bb with dirty := false })

/-- `_big_block_create` (bigfile.c:555-577). -/
def blockCreate (env : Env) (basename : CStr) (dtype : Option CStr) (nmemb : Int)
    (fsize : List Nat) : M (Int × Option Block) := do
  match ← createInternal env basename dtype nmemb fsize with
  | (0, some bb) =>
    if ← truncFiles bb.basename 0 bb.nfile then pure (0, some bb) else pure (-1, none)
  | _ => pure (-1, none)

/-- `_big_block_grow_internal` (bigfile.c:411-447). -/
def growInternal (bb : Block) (grow : List Nat) : Block :=
  let fsize := bb.fsize ++ grow
  let foffset := runningSums 0 fsize
  { bb with fsize := fsize, foffset := foffset,
            fchecksum := bb.fchecksum ++ List.replicate grow.length 0,
            nfile := grow.length + bb.nfile, size := foffset.getLastD 0, dirty := true }

/-- `big_block_grow` (bigfile.c:449-470). The handle has grown even when truncating fails. -/
def blockGrow (bb : Block) (grow : List Nat) : M (Int × Block) := do
  let bb' := growInternal bb grow
  if ← truncFiles bb.basename bb.nfile grow.length then pure (0, bb') else pure (-1, bb')

/-- `big_file_open_block` (bigfile.c:278-285). -/
def openBlock (env : Env) (bf : CStr) (blockname : CStr) : M (Int × Option Block) :=
  blockOpen env (pathJoin bf blockname)

/-- `big_file_create_block` (bigfile.c:287-299). -/
def createBlock (env : Env) (bf : CStr) (blockname : CStr) (dtype : Option CStr) (nmemb : Int)
    (fsize : List Nat) : M (Int × Option Block) := do
  if (← mksubdirR bf blockname) ≠ 0 then pure (-1, none)
  else blockCreate env (pathJoin bf blockname) dtype nmemb fsize

end Verif
