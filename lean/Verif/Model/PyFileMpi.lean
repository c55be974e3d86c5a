import Verif.Model.PyFile
import Verif.Model.PyMpi
/-!
# Python: the file object that processes share

Models `FileMPI.__init__`, `blocks`, `refresh`, `subfile` and `create` (`/repo/bigfile/__init__.py:234-278`).

Simplifications, as in `Model/PyMpi.lean`: all processes pass the same names, so that `check_unique` is true; opening a file only asks
whether the directory is there, and no process writes meanwhile, so the processes open it one after another. `bcast` ends when all
processes have called it.
-/

set_option autoImplicit false

namespace Verif

/-- Rank 0 in `FileMPI.__init__` when `create` is true (`__init__.py:240-247`): every exception is dropped. -/
def pyMpiFileMake (filename : CStr) (create : Bool) : M Unit := do
  if create then
    let _ ← pyFileInit filename true
    pure ()
  else pure ()

/-- `FileBase.__init__(self, filename, create=False)` on the processes `0, ..., n-1` (`__init__.py:250`). -/
def pyFileInitRanks (filename : CStr) : Nat → M (Nat → Except PyExc PyFile)
  | 0 => pure fun _ => .error .error
  | r + 1 => do
    let H ← pyFileInitRanks filename r
    let f ← pyFileInit filename false
    pure fun q => if q = r then f else H q

/-- `FileMPI.refresh` (`__init__.py:258-264`): rank 0 reads the list and sends it to all. -/
def pyMpiRefresh (sort : List CStr → List CStr) (F : Nat → PyFile) : Phases (Nat → PyFile) := do
  let l ← Phases.alone (pyListBlocks sort (F 0))
  pure fun r => { F r with blocks := some l }

/-- `FileMPI(comm, filename, create)` (`__init__.py:236-252`). An exception in `FileBase.__init__` is raised on the process it happens on;
the others go on to `refresh`. -/
def pyMpiFileInit (sort : List CStr → List CStr) (n : Nat) (filename : CStr) (create : Bool) : Phases (Nat → Except PyExc PyFile) := do
  Phases.alone (pyMpiFileMake filename create)
  let H ← Phases.alone (pyFileInitRanks filename n)
  pyGoOn n (fun r => match H r with | .error e => some e | .ok _ => none) do
    let F ← pyMpiRefresh sort fun r => match H r with | .error _ => ⟨[], none⟩ | .ok f => f
    pure fun r => .ok (F r)

/-- `FileMPI.subfile` (`__init__.py:271-272`). -/
def pyMpiSubfile (sort : List CStr → List CStr) (n : Nat) (f : PyFile) (key : CStr) : Phases (Nat → Except PyExc PyFile) :=
  pyMpiFileInit sort n (osJoin f.basename key) false

/-- `FileMPI.create` (`__init__.py:274-278`) with `ColumnMPI.create` (`__init__.py:200-207`). The data type, the shape of a row and the
number of rows are those of `src`. -/
def pyMpiFileCreate (env : Env) (sort : List CStr → List CStr) (n : Nat) (F : Nat → PyFile) (name : CStr) (src : PySource) (nfile : Nat) :
    Phases (Nat → Except PyExc (Block × PyFile)) := do
  let e ← Phases.alone (pyCreateRoot env (F 0).basename name src nfile src.size)
  pyGoOn n (fun r => if r = 0 then e else none)
    (pyMpiOpen env n (F 0).basename name fun H => do
      let F' ← pyMpiRefresh sort F
      pure fun r => .ok (H r, F' r))

end Verif
