import Verif.Model.Copy
import Verif.Model.LsTool
/-!
# `bigfile-rename`, `bigfile-rm` and `bigfile-repartition`

Models `/repo/utils/bigfile-rename`, `/repo/utils/bigfile-rm` and `/repo/utils/bigfile-repartition`, after the options have been read. The
arguments are single words without characters that are special to the shell. `mv` and `rm` are those of GNU coreutils, within one file
system.
-/

set_option autoImplicit false

namespace Verif

/-- The tree below `a` moved to `b`. (bigfile-rename:14, `rename(2)`.) -/
def FS.move (fs : FS) (a b : Key) : FS :=
  { node := fun k => if b <+: k then fs.node (a ++ k.drop b.length) else if a <+: k then none else fs.node k
    dom := (fs.dom.filter fun k => !(decide (a <+: k) || decide (b <+: k))) ++
      (fs.dom.filter fun k => decide (a <+: k)).map fun k => b ++ k.drop a.length }

/-- One entry removed. (bigfile-rm:15, `unlink(2)` and `rmdir(2)`.) -/
def FS.remove (fs : FS) (k : Key) : FS :=
  { node := fun k' => if k' = k then none else fs.node k'
    dom := fs.dom.filter (· ≠ k) }

/-- `mv a b` (bigfile-rename:14): whether it succeeds. Into `b` if that is a directory. Simplified: it is one operation; a process killed
in it (`crash n`) has moved the tree unless `n` is 0; a target that is an empty directory or a file is not replaced. -/
def mv (a b : CStr) : M Bool := do
  let f ← tick
  if f = .fail then pure false
  else if f = .crash 0 then die
  else
    let fs ← getFS
    let src := resolve a
    let dst := if fs.node (resolve b) = some .dir then resolve b ++ src.getLast?.toList else resolve b
    let ok : Bool := (fs.node src).isSome && (fs.node dst).isNone && decide (fs.node dst.dropLast = some .dir) && !decide (src <+: dst) &&
      decide (1 < src.length ∨ src.head? ≠ some [])
    if ok then setFS (fs.move src dst) else pure ()
    match f with
    | .crash _ => die
    | _ => pure ok

/-- Remove one entry; a directory only if it is empty (bigfile-rm:15). Killed in it, it is removed unless `n` is 0. -/
def removeOne (k : Key) : M Bool := do
  let f ← tick
  if f = .fail then pure false
  else if f = .crash 0 then die
  else
    let fs ← getFS
    let ok : Bool := (fs.node k).isSome && (fs.entries k).isEmpty
    if ok then setFS (fs.remove k) else pure ()
    match f with
    | .crash _ => die
    | _ => pure ok

/-- Remove one entry after another, going on after failures (bigfile-rm:15). -/
def removeAll : List Key → M Bool
  | [] => pure true
  | k :: ks => do
    let a ← removeOne k
    let b ← removeAll ks
    pure (a && b)

/-- `rm -r path` (bigfile-rm:15): whether it succeeds. `order` is the order in which the entries are removed. Questions to the user about
write-protected files are not modelled; neither are failures of reading directories, which leave entries in place as failures of removing
them do. -/
def rmTree (order : List Key → List Key) (path : CStr) : M Bool := do
  let fs ← getFS
  if (fs.node (resolve path)).isNone then pure false
  else removeAll (order (fs.dom.filter fun k => decide (resolve path <+: k) && (fs.node k).isSome))

/-- bigfile-rename (bigfile-rename:12-14). -/
def renameTool (file block newname : CStr) : M Bool := mv (slashed file block) (slashed file newname)

/-- bigfile-rm (bigfile-rm:12-16): the status of the last `rm`. -/
def rmTool (order : List Key → List Key) (file : CStr) : List CStr → M Bool
  | [] => pure true
  | [b] => rmTree order (slashed file b)
  | b :: bs => do
    let _ ← rmTree order (slashed file b)
    rmTool order file bs

/-- `${BLOCK}-REPBAK` (bigfile-repartition:40). -/
def backup (block : CStr) : CStr := block ++ b!"-REPBAK"

/-- `repart` (bigfile-repartition:31-43), the job for one block. `verbose` is `-v`: without it the variable `VERBOSE` is `0`, which is
passed to bigfile-copy as an argument (41), so that there are four arguments instead of three and bigfile-copy exits with the message
about its usage (bigfile-copy.c:42-44). `nfile` is `-n`, the buffer is the default. -/
def repart (env : Env) (order : List Key → List Key) (verbose : Bool) (file : CStr) (nfile : Option Nat) (block : CStr) (buf : Int)
    (mem : Mem) : M Exit := do
  if !(← renameTool file block (backup block)) then pure .failed
  else if !verbose then pure .failed
  else
    match ← copyMain env file (backup block) file block nfile 268435456 buf mem with
    | .done => if ← rmTool order file [backup block] then pure .done else pure .failed
    | e => pure e

end Verif
