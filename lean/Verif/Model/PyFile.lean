import Verif.Model.List
import Verif.Model.PyAttr
import Verif.Model.Python
/-!
# Python: the file object

Models `/repo/bigfile/pyxbigfile.pyx` lines 137-200 and the classes `FileBase` and `File` of `/repo/bigfile/__init__.py` (lines 90-193), with
`FileMPI.subfile` (lines 271-272).
-/

set_option autoImplicit false

namespace Verif

/-- A `File` object: `bf.basename`, where NULL is the empty string, and `_blocks`, which is missing until the blocks are first asked for.
(pyxbigfile.pyx:137-139, __init__.py:127-138.) -/
structure PyFile where
  basename : CStr
  blocks : Option (List CStr)
  deriving DecidableEq

/-- `os.path.join` of two parts (CPython, `Lib/posixpath.py`). (__init__.py:193, 272.) -/
def osJoin (a b : CStr) : CStr :=
  if b.head? = some 47 then b
  else if a = [] ∨ a.getLast? = some 47 then a ++ b
  else a ++ 47 :: b

/-- `key.lstrip('/')` (__init__.py:193). -/
def lstripSlash (key : CStr) : CStr := key.dropWhile fun c => decide (c = 47)

/-- `File(filename, create)` (pyxbigfile.pyx:145-157, __init__.py:128-130). -/
def pyFileInit (filename : CStr) (create : Bool) : M (Except PyExc PyFile) := do
  let r ← if create then bigFileCreate filename else bigFileOpen filename
  if r.1 ≠ 0 then pure (.error .error) else pure (.ok ⟨r.2, none⟩)

/-- `list_blocks` (pyxbigfile.pyx:185-196). -/
def pyListBlocks (sort : List CStr → List CStr) (f : PyFile) : M (List CStr) := do
  let l ← bigFileList sort f.basename
  pure (sortNames l)

/-- The property `blocks` of a `File`, and what it leaves of the object (__init__.py:132-138); `keys()`, iteration (lines 105-109) and `in`
(line 102) use it. -/
def pyFileBlocks (sort : List CStr → List CStr) (f : PyFile) : M (List CStr × PyFile) :=
  match f.blocks with
  | some l => pure (l, f)
  | none => do
    let l ← pyListBlocks sort f
    pure (l, { f with blocks := some l })

/-- `key in file` (__init__.py:102-103). -/
def pyFileContains (sort : List CStr → List CStr) (f : PyFile) (key : CStr) : M (Bool × PyFile) := do
  let r ← pyFileBlocks sort f
  pure (decide (key ∈ r.1), r.2)

/-- `File.open` (__init__.py:140-143, pyxbigfile.pyx: `ColumnLowLevelAPI.open`). -/
def pyFileOpen (env : Env) (f : PyFile) (name : CStr) : M (Except PyExc Block) := do
  let r ← openBlock env f.basename name
  match r.2 with
  | none => pure (.error .error)
  | some b => pure (.ok b)

/-- `File.create` (__init__.py:145-149). The data type and the lengths of the physical files are those given to `big_file_create_block`
(pyxbigfile.pyx: `ColumnLowLevelAPI.create`). The list of blocks is read again, if there was no exception. -/
def pyFileCreate (env : Env) (sort : List CStr → List CStr) (f : PyFile) (name : CStr) (dtype : Option CStr) (nmemb : Int)
    (fsize : List Nat) : M (Except PyExc Block × PyFile) := do
  let r ← createBlock env f.basename name dtype nmemb fsize
  match r.2 with
  | none => pure (.error .error, f)
  | some b => do
    let l ← pyListBlocks sort f
    pure (.ok b, { f with blocks := some l })

/-- `File.subfile` (__init__.py:192-193). -/
def pySubfile (f : PyFile) (key : CStr) : M (Except PyExc PyFile) :=
  pyFileInit (osJoin f.basename (lstripSlash key)) false

/-- `FileMPI.subfile` (__init__.py:271-272) on one rank: slashes at the beginning of the key remain. -/
def pySubfileMpi (f : PyFile) (key : CStr) : M (Except PyExc PyFile) :=
  pyFileInit (osJoin f.basename key) false

/-- `file[key]` (__init__.py:111-115): a file if the key ends with a slash, or else a block. -/
def pyFileGet (env : Env) (f : PyFile) (key : CStr) : M (Except PyExc (PyFile ⊕ Block)) := do
  if key.getLast? = some 47 then
    match ← pySubfile f key with
    | .error e => pure (.error e)
    | .ok g => pure (.ok (.inl g))
  else
    match ← pyFileOpen env f key with
    | .error e => pure (.error e)
    | .ok b => pure (.ok (.inr b))

/-- `__getstate__` of an open `File` (__init__.py:117-118, pyxbigfile.pyx:167-168): the blocks and the base name. (`comm` is None and
`_deallocated` is 0.) -/
def pyFileGetstate (sort : List CStr → List CStr) (f : PyFile) : M ((List CStr × CStr) × PyFile) := do
  let r ← pyFileBlocks sort f
  pure ((r.1, r.2.basename), r.2)

/-- `__setstate__` (__init__.py:120-125, pyxbigfile.pyx:170-179): the result of `big_file_open` is not looked at. If it fails, `basename`
remains NULL, as the object was made. -/
def pyFileSetstate (state : List CStr × CStr) : M PyFile := do
  let r ← bigFileOpen state.2
  pure ⟨r.2, some state.1⟩

example : osJoin b!"snap" (lstripSlash b!"//a/") = b!"snap/a/" := by decide
example : osJoin b!"snap" b!"/a/" = b!"/a/" := by decide

end Verif
