import Verif.Model.Block
/-!
# `bigfile-copy`

Models `/repo/utils/bigfile-copy.c`, after the options have been read.
-/

set_option autoImplicit false

namespace Verif

/-- How the program ends: return from `main`, `exit(1)`, or `abort()`. (utils/bigfile-copy.c:14-127.) -/
inductive Exit where
  | done
  | failed
  | aborted
deriving DecidableEq

/-- The sizes of the new files (bigfile-copy.c:65-71): unsigned arithmetic. -/
def copySizes (n size : Nat) : List Nat :=
  (List.range n).map fun i =>
    u64 (((u64 (((i + 1) * size : Nat) : Int) / n : Nat) : Int) - ((u64 ((i * size : Nat) : Int) / n : Nat) : Int))

/-- The loop over the attributes (bigfile-copy.c:82-88): the structs of the source set `src` point into its buffer, which
`big_block_set_attr` may change; return codes are ignored. Result: the new attribute set and the source's. -/
def copyAttrs (env : Env) (src : AttrSet) (as : List Attr) (s : AttrSet) : Option (AttrSet × AttrSet) :=
  match as with
  | [] => some (s, src)
  | a :: as =>
    match setAttr env s (src.nameOf a) a.data a.dtype a.nmemb src.buf with
    | none => none
    | some (_, s, sm) => copyAttrs env { src with buf := sm } as s
termination_by as.length

/-- The loop over chunks of rows (bigfile-copy.c:97-117), at most `fuel` rounds. `buf` is the address of the buffer
that `big_block_read_simple` allocates (the same in each round: it is freed at the end of the round). -/
def copyLoop (env : Env) (bb : Block) (chunk : Nat) (buf : Int) : Nat → Block → Nat → Mem → M (Exit × Block)
  | 0, _, _, _ => M.hang
  | fuel + 1, bbnew, offset, mem =>
    if offset < bb.size then do
      let (_, arr, mem) ← readSimple env bb offset (i64 chunk) none buf mem
      match arr with
      | none => pure (.failed, bbnew)
      | some a =>
        let (rc, ptr) ← M.lift (seek bbnew ⟨0, 0, 0⟩ offset)
        if rc ≠ 0 then pure (.failed, bbnew)
        else
          let x ← blockWrite env bbnew ptr a mem
          if x.rc ≠ 0 then pure (.failed, x.bb)
          else copyLoop env bb chunk buf fuel x.bb (offset + a.dims.headD 0) x.mem
    else pure (.done, bbnew)

/-- Copying the data (bigfile-copy.c:90-118), skipped for blocks without members or rows. `none` for the chunk size is a
division by zero. -/
def copyData (env : Env) (bb bbnew : Block) (buffersize : Nat) (buf : Int) (mem : Mem) : M (Exit × Block) :=
  if 0 < bb.nmemb ∧ 0 < bb.size then do
    let rowbytes := bb.nmemb * itemsize env.m bb.dtype
    let chunk ← M.lift (if !fitsInt rowbytes || decide (rowbytes = 0) then none else some (buffersize / u64 rowbytes))
    copyLoop env bb chunk buf (bb.size + 1) bbnew 0 mem
  else pure (.done, bbnew)

/-- The number of files of the new block (bigfile-copy.c:62-64), `old` is the number of the source. -/
def pickFiles (nfile : Option Nat) (old : Nat) : Nat :=
  match nfile with
  | none => old
  | some n => if old = 0 then old else n

/-- `main` of bigfile-copy (bigfile-copy.c:14-127). `nfile` is the option `-n` (`none`: not given, the program's -1);
`newfile` is the option `-f` or `file` itself. Simplified: negative numbers of files are not representable; the
handles of the files are their names; the stack is large enough for the array of sizes. -/
def copyMain (env : Env) (file block newfile newblock : CStr) (nfile : Option Nat) (buffersize : Nat) (buf : Int) (mem : Mem) :
    M Exit := do
  let (rc, bf) ← bigFileOpen file
  if rc ≠ 0 then pure .failed
  else
    let (rc, bfnew) ← bigFileCreate newfile
    if rc ≠ 0 then pure .failed
    else
      match (← openBlock env bf block).2 with
      | none => pure .failed
      | some bb =>
        let n := pickFiles nfile bb.nfile
        match (← createBlock env bfnew newblock (some bb.dtype) bb.nmemb (copySizes n bb.size)).2 with
        | none => pure .failed
        | some bbnew =>
          if bbnew.size ≠ bb.size then pure .aborted
          else
            let (s, src) ← M.lift (copyAttrs env bb.attrset bb.attrset.list bbnew.attrset)
            let bb := { bb with attrset := src }
            let (e, bbnew) ← copyData env bb { bbnew with attrset := s } buffersize buf mem
            if e ≠ .done then pure e
            else if (← blockClose env bbnew) ≠ 0 then pure .failed
            else
              let _ ← blockClose env bb
              pure .done

end Verif
