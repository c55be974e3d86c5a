import Verif.Spec.AttrInv
import Verif.Spec.Header
import Verif.Spec.Transfer
/-!
# Specification: the metadata files of a block
-/

set_option autoImplicit false

namespace Verif.Spec

open Verif

/-- The block directory exists and its metadata files are not directories. -/
structure DirOk (fs : FS) (base : CStr) : Prop where
  dir : fs.node (resolve base) = some .dir
  header : fs.node (fileKey base .header) ≠ some .dir
  attr : fs.node (fileKey base .attrV2) ≠ some .dir

/-- Every failure is reported: no write is lost without an error code. -/
def NoSilent (f : Nat → Fault) : Prop := ∀ i n, f i ≠ .silent n

/-- File `k` is as before, or has been replaced by a part of the new text. -/
def Rewritten (fs fs' : FS) (k : Key) (txt : CStr) : Prop :=
  fs' = fs ∨ ∃ n, fs' = fs.set k (.file (txt.take n))

/-- Every directory and file is the same. -/
def SameFiles (fs fs' : FS) : Prop := ∀ k, fs'.node k = fs.node k

/-- A computation that leaves the disk alone, however it ends. -/
def Keeps {α : Type} (m : M α) : Prop := ∀ w, match m w with
  | .ok _ w' => w'.fs = w.fs
  | .crash w' => w'.fs = w.fs
  | _ => True

/-- What is read from the old attribute file. -/
def readsV1 (env : Env) (fs : FS) (base : CStr) (s : AttrSet) : Option (Int × AttrSet) :=
  if (fs.node (fileKey base .attr)).isSome then
    (parseV1 env ((fs.bytes (fileKey base .attr)).length + 1) (fs.bytes (fileKey base .attr))
      { s with dirty := false }).map fun r => (r.1, { r.2 with dirty := false })
  else some (0, { s with dirty := false })

/-- What is read from the attribute file. -/
def readsV2 (env : Env) (fs : FS) (base : CStr) (s : AttrSet) : Option (Int × AttrSet) :=
  if (fs.node (fileKey base .attrV2)).isSome then
    (parseV2 env ((fs.bytes (fileKey base .attrV2)).length + 1) (fs.bytes (fileKey base .attrV2))
      { s with dirty := false }).map fun r => (r.1, { r.2 with dirty := false })
  else some (0, { s with dirty := false })

/-- The header file says what the handle says. -/
def HeaderSays (fs : FS) (bb : Block) : Prop :=
  (fs.node (fileKey bb.basename .header)).isSome = true ∧
  parseHeader (fs.bytes (fileKey bb.basename .header)) = .ok bb.dtype bb.nmemb bb.nfile bb.fsize bb.fchecksum

/-- The attribute files can be read and say that the attributes are `M`. -/
def AttrsSay (env : Env) (fs : FS) (base : CStr) (M : AttrMap) : Prop := ∃ s1 s2,
  readsV1 env fs base (attrsetCreate env) = some (0, s1) ∧ readsV2 env fs base s1 = some (0, s2) ∧
  WellAttrs env.m s2 ∧ attrView env.m s2 = M

/-- An old attribute file is absent, or it can be read and all its names are also in `M`. -/
def OldOk (env : Env) (fs : FS) (base : CStr) (M : AttrMap) : Prop := ∃ s1,
  readsV1 env fs base (attrsetCreate env) = some (0, s1) ∧ WellAttrs env.m s1 ∧
  ∀ name, M name = none → attrView env.m s1 name = none

/-- What a handle does not regard as dirty is on disk. -/
structure Synced (env : Env) (fs : FS) (bb : Block) : Prop where
  header : bb.dirty = false → HeaderSays fs bb
  attrs : bb.attrset.dirty = false → AttrsSay env fs bb.basename (attrView env.m bb.attrset)

/-- Every attribute can be represented in the attribute file. -/
def AllStorable (M : AttrMap) : Prop := ∀ name v, M name = some v → Storable name v

/-- A handle whose metadata can be stored: header fields and attributes are representable, the
handle is consistent, the path is not too long and does not denote a meta block. -/
structure Savable (env : Env) (bb : Block) : Prop where
  fmt : FmtOk env
  header : GoodHeader bb
  offsets : bb.foffset = runningSums 0 bb.fsize
  size : bb.size = bb.foffset.getLastD 0
  attrs : WellAttrs env.m bb.attrset
  storable : AllStorable (attrView env.m bb.attrset)
  base : bb.basename.length ≤ 8192
  notMeta : isMeta bb.basename = false

/-- Close a block and open it again: the return codes and the new handle. -/
def closeOpen (env : Env) (bb : Block) : M (Int × Int × Option Block) := do
  let rc ← blockClose env bb
  let r ← blockOpen env bb.basename
  pure (rc, r.1, r.2)

/-- Nothing has happened except that some directories were made. -/
def OnlyNewDirs (fs fs' : FS) : Prop := ∀ k, fs'.node k = fs.node k ∨ (fs.node k = none ∧ fs'.node k = some .dir)

/-- Data files `i, ..., i+n-1` of a block made empty. -/
def truncFS (base : CStr) (i : Nat) : Nat → FS → FS
  | 0, fs => fs
  | n + 1, fs => truncFS base (i + 1) n (fs.set (fileKey base (.data i)) (.file []))

end Verif.Spec
