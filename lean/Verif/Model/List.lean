import Verif.Model.Block
/-!
# Listing the blocks of a file

Models `/repo/src/bigfile.c` lines 144-153 and 207-276.
-/

set_option autoImplicit false

namespace Verif

/-- The entries of a directory (`readdir`), without `.` and `..`. The empty name only marks the root of
absolute paths. (bigfile.c:232.) -/
def FS.entries (fs : FS) (k : Key) : List CStr :=
  fs.dom.filterMap fun k' =>
    if (fs.node k').isSome && decide (k'.dropLast = k) then k'.getLast?.filter (fun c => !c.isEmpty)
    else none

/-- `scandir` with `filter` and `_alphasort` (bigfile.c:211-221, 232): entries not starting with a
dot. `sort` is the order of the locale. `none`: error. -/
def scandir (sort : List CStr → List CStr) (path : CStr) : M (Option (List CStr)) := do
  match ← tick with
  | .crash _ => die
  | .fail => pure none
  | _ =>
    let fs ← getFS
    if path ≠ [] ∧ fs.node (resolve path) = some .dir then
      pure (some (sort ((fs.entries (resolve path)).filter fun c => c.head? != some 46)))
    else pure none

/-- `_big_file_path_is_block` (bigfile.c:144-153): a header can be opened. -/
def pathIsBlock (basename : CStr) : M Bool := openAFile basename .header .r

/-- The loop over directory entries (bigfile.c:237-252); `visit` is its body. -/
def listEntries (visit : CStr → List CStr → M (List CStr)) (blockname : CStr) :
    List CStr → List CStr → M (List CStr)
  | [], bblist => pure bblist
  | e :: es, bblist => do
    let bblist ← visit (pathJoin blockname e) bblist
    listEntries visit blockname es bblist

/-- `listbigfile_r` (bigfile.c:223-256), to depth `fuel`: the names found, last one first. -/
def listR (sort : List CStr → List CStr) (basename : CStr) : Nat → CStr → List CStr → M (List CStr)
  | 0, _, _ => M.hang
  | fuel + 1, blockname, bblist => do
    match ← scandir sort (pathJoin basename blockname) with
    | none => pure bblist
    | some names =>
      listEntries (fun name l => do
        if ← pathIsBlock (pathJoin basename name) then pure (name :: l)
        else listR sort basename fuel name l) blockname names bblist

/-- More than the depth of any directory. (bigfile.c:223-255, the recursion.) -/
def FS.depth (fs : FS) : Nat := fs.dom.foldr (fun k d => max k.length d) 0 + 2

/-- `big_file_list` (bigfile.c:258-276). -/
def bigFileList (sort : List CStr → List CStr) (bf : CStr) : M (List CStr) := do
  let fs ← getFS
  let l ← listR sort bf fs.depth [] []
  pure (l.map strdup)

end Verif
