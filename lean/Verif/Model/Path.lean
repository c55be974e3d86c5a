import Verif.C.FS
import Verif.C.Text
/-!
# Paths and physical files

Models `/repo/src/bigfile.c` lines 79-88, 128-142 and 1905-2001.
-/

set_option autoImplicit false

namespace Verif

/-- `endswith` (bigfile.c:78-88): compares from the ends as long as both strings last. -/
def endswith (str post : CStr) : Bool :=
  (List.zipWith (fun a b => decide (a = b)) str.reverse post.reverse).all id

/-- `_path_join` (bigfile.c:128-142); a NULL first part is the empty string. -/
def pathJoin (part1 part2 : CStr) : CStr :=
  if part1.length = 0 then part2
  else if part1.getLast? = some 47 then part1 ++ part2
  else part1 ++ 47 :: part2

/-- `_strdup` (bigfile-internal.h): keeps at most 8192 characters. (bigfile-internal.h:32-43.) -/
def strdup (s : CStr) : CStr := s.take 8192

/-- The physical files of a block (bigfile.c:20-35). -/
inductive FileId where
  | header | attr | attrV2 | data (i : Nat)
  deriving DecidableEq

/-- File name inside the block directory (bigfile.c:1912-1925): `EXT_HEADER`, `EXT_ATTR`,
`EXT_ATTR_V2`, `EXT_DATA`. -/
def FileId.name : FileId → CStr
  | .header => b!"header"
  | .attr => b!"attr"
  | .attrV2 => b!"attr-v2"
  | .data i => hex6Str i

/-- Path of a physical file (bigfile.c:1912-1925). -/
def filePath (basename : CStr) (id : FileId) : CStr := pathJoin basename id.name

/-- The resolved path of a physical file (used by specifications). (bigfile.c:1907-1943.) -/
def fileKey (base : CStr) (id : FileId) : Key := resolve (filePath base id)

/-- `_big_file_open_a_file` (bigfile.c:1907-1943). -/
def openAFile (basename : CStr) (id : FileId) (mode : Mode) : M Bool := fopen (filePath basename id) mode

/-- The loop of `_big_file_mksubdir_r` (bigfile.c:1979-1989): at each `/` make the directory named
by the characters before it. `done` holds the characters already passed. -/
def mksubdirLoop (pathname : CStr) : CStr → CStr → M Bool
  | _, [] => pure true
  | done, c :: rest =>
    if c = 47 then do
      let d := pathJoin pathname done
      if d.length ≠ 0 then
        if ← mkdirOk d then mksubdirLoop pathname (done ++ [c]) rest else pure false
      else mksubdirLoop pathname (done ++ [c]) rest
    else mksubdirLoop pathname (done ++ [c]) rest

/-- `_big_file_mksubdir_r` (bigfile.c:1971-2001): 0 or -1. -/
def mksubdirR (pathname subdir : CStr) : M Int := do
  let subdirname := strdup subdir
  if ← mksubdirLoop pathname [] subdirname then
    if ← mkdirOk (pathJoin pathname subdirname) then pure 0 else pure (-1)
  else pure (-1)

/-- The block directory is the root of a file ("/." or "."): bigfile.c:333 and 492. -/
def isMeta (basename : CStr) : Bool := endswith basename b!"/." || basename == b!"."

/-- `big_file_open` (bigfile.c:183-195): the handle is the stored base name. -/
def bigFileOpen (basename : CStr) : M (Int × CStr) := do
  if ← statOk basename then pure (0, strdup basename) else pure (-1, [])

/-- `big_file_create` (bigfile.c:197-205). -/
def bigFileCreate (basename : CStr) : M (Int × CStr) := do
  let rt ← mksubdirR [] basename
  pure (if rt = 0 then 0 else -1, strdup basename)

example : filePath b!"snap/Pos" (.data 255) = b!"snap/Pos/0000FF" := by decide
example : endswith b!"a/." b!"/." = true ∧ endswith b!"ab" b!"/." = false := by decide

end Verif
