import Verif.Model.Python
import Verif.Model.Record
/-!
# Python's `Dataset`

Models the class `Dataset` of `/repo/bigfile/__init__.py` (lines 322-429) and of `/repo/bigfile/pyxbigfile.pyx` (lines 589-677): several
blocks of a file as one table of records.

Records are in the memory of a NumPy array at an address that is a parameter. That the type of an array equals the type of the
dataset (`assert buf.dtype == self.dtype`) is not modelled: arrays are given as their number of records and their address.
-/

set_option autoImplicit false

namespace Verif

/-- A dataset: the file, the record type and the number of records. (pyxbigfile.pyx:589-594.) -/
structure PyData where
  bf : CStr
  rt : RType
  size : Nat
  deriving DecidableEq, Repr

/-- `numpy.dtype(x).base.str`: NumPy writes `|` for the byte order of single bytes and of byte strings. (pyxbigfile.pyx:602.) -/
def npTypeStr (m : Machine) (dt : CStr) : CStr :=
  let dt := dtypeNormalize m dt
  if charAt dt 1 = 83 ∨ itemsize m dt = 1 then 124 :: dt.drop 1 else dt

/-- The loop over the columns in `Dataset.__init__` (`__init__.py:364-374`): the number of records so far, and name, type and number
of members of each column. Simplified: a column is closed when it has been looked at, not when the next one is open. -/
def pyDataColumns (env : Env) (bf : CStr) :
    List CStr → Option Nat → M (Except PyExc (Option Nat × List (CStr × CStr × Int)))
  | [], size => pure (.ok (size, []))
  | name :: names, size => do
    match ← openBlock env bf name with
    | (0, some bb) => do
      let _ ← blockClose env bb
      if size.isSome ∧ size ≠ some bb.size then pure (.error .error)
      else
        match ← pyDataColumns env bf names (some bb.size) with
        | .error e => pure (.error e)
        | .ok (size, l) => pure (.ok (size, (name, npTypeStr env.m bb.dtype, bb.nmemb) :: l))
    | _ => pure (.error .error)

/-- The loop that sets the fields (pyxbigfile.pyx:601-609), from field `i` on. -/
def pyDataFields : List (CStr × CStr × Int) → Nat → RType → RType
  | [], _, rt => rt
  | x :: xs, i, rt => pyDataFields xs (i + 1) (typeSet rt i x.1 x.2.1 x.2.2)

/-- `Dataset.__init__` with a list of names (`__init__.py:356-377`, pyxbigfile.pyx:596-631). NumPy refuses a name that is given twice;
without columns there is no number of records. -/
def pyDataOpen (env : Env) (bf : CStr) (names : List CStr) : M (Except PyExc PyData) := do
  match ← pyDataColumns env bf names none with
  | .error e => pure (.error e)
  | .ok (size, l) =>
    if ¬ names.Nodup then pure (.error .valueError)
    else
      match size with
      | none => pure (.error .typeError)
      | some size =>
        match typeComplete env.m (pyDataFields l 0 ⟨[], 0⟩) with
        | .ok rt => pure (.ok ⟨bf, rt, size⟩)
        | _ => M.ub

/-- `Dataset._getslice` (`__init__.py:379-387`) and `read` (pyxbigfile.pyx:633-640). The number of records in the new array, which is at
`buf`; and the memory. -/
def pyDataGet (env : Env) (d : PyData) (s : PySlice) (buf : Int) (mem : Mem) : M (Except PyExc Nat × Mem) :=
  match s.indices d.size with
  | .error e => pure (.error e, mem)
  | .ok (start, stop, step) =>
    if step ≠ 1 then pure (.error .assertion, mem)
    else if stop - start < 0 then pure (.error .valueError, mem)
    else do
      let (rc, mem) ← readRecords env d.bf d.rt start (stop - start).toNat buf mem
      if rc ≠ 0 then pure (.error .error, mem) else pure (.ok (stop - start).toNat, mem)

/-- `Dataset[i]` (`__init__.py:26-42`): the first record of a slice of length one. -/
def pyDataGetOne (env : Env) (d : PyData) (i : Int) (buf : Int) (mem : Mem) : M (Except PyExc Nat × Mem) := do
  let (r, mem) ← pyDataGet env d ⟨some i, some (i + 1), none⟩ buf mem
  match r with
  | .error e => pure (.error e, mem)
  | .ok n => if n = 0 then pure (.error .indexError, mem) else pure (.ok n, mem)

/-- `Dataset.write` (pyxbigfile.pyx:669-676) of `n` records at `buf`. -/
def pyDataWrite (env : Env) (d : PyData) (start : Int) (n : Nat) (buf : Int) (mem : Mem) : M (Except PyExc Unit × Mem) := do
  let (rc, mem) ← writeRecords env d.bf d.rt start n buf mem
  if rc ≠ 0 then pure (.error .error, mem) else pure (.ok (), mem)

/-- `Dataset.__setitem__` (`__init__.py:389-398`). -/
def pyDataSet (env : Env) (d : PyData) (s : PySlice) (n : Nat) (buf : Int) (mem : Mem) : M (Except PyExc Unit × Mem) :=
  match s.indices d.size with
  | .error e => pure (.error e, mem)
  | .ok (start, stop, step) =>
    if step ≠ 1 then pure (.error .assertion, mem)
    else if (n : Int) ≠ stop - start then pure (.error .assertion, mem)
    else pyDataWrite env d start n buf mem

/-- `Dataset.append` with `_create_records` (pyxbigfile.pyx:642-667). -/
def pyDataAppend (env : Env) (d : PyData) (n nfile : Nat) (buf : Int) (mem : Mem) : M (Except PyExc Unit × PyData × Mem) := do
  if nfile = 0 ∧ n ≠ 0 then pure (.error .valueError, d, mem)
  else
    let rc ← createRecords env d.bf d.rt .aplus (pySizes nfile n)
    if rc ≠ 0 then pure (.error .error, d, mem)
    else
      let (r, mem) ← pyDataWrite env { d with size := d.size + n } d.size n buf mem
      pure (r, { d with size := d.size + n }, mem)

/-- `Dataset[columns]` (`__init__.py:411-414`): a dataset of some of the columns. -/
def pyDataSelect (env : Env) (d : PyData) (names : List CStr) : M (Except PyExc PyData) :=
  if names.all fun n => d.rt.fields.any fun f => f.name == some n then pyDataOpen env d.bf names
  else pure (.error .assertion)

end Verif
