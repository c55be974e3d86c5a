import Verif.Model.Copy
/-!
# The Python interface to blocks

Models `/repo/bigfile/pyxbigfile.pyx` (class `ColumnLowLevelAPI`: `create`, `read`, `write`, `append`) and
`/repo/bigfile/__init__.py` (`Column.__getitem__`, `Column.__setitem__`, `File.create_from_array`). What these functions use of Python
and NumPy is modelled too: `slice.indices`, `range`, and arrays in C order.

A function returns a value or raises an exception; what it did to the handle and to the memory before is kept. Memory that
NumPy allocates is at an address that is a parameter. Integers are Python's; that the arithmetic of `numpy.intp_t` does not
overflow is in the hypotheses of the theorems. `File.create` also refreshes the list of blocks (`__init__.py:148`), which is left
out: it does not change files.
-/

set_option autoImplicit false

namespace Verif

/-- The exceptions that occur: `bigfile.Error` is raised when a C function fails. (pyxbigfile.pyx:113-128, 221, 238.) -/
inductive PyExc where
  | error | valueError | indexError | zeroDivision | assertion | keyError | typeError | nameError
  deriving DecidableEq, Repr

/-- A slice `start:stop:step`; `none` is Python's `None`. (__init__.py:65-87.) -/
structure PySlice where
  start : Option Int
  stop : Option Int
  step : Option Int
  deriving DecidableEq, Repr

/-- Python's `slice.indices(size)`: start, stop and step (CPython, `Objects/sliceobject.c`). (__init__.py:70, 82.) -/
def PySlice.indices (s : PySlice) (size : Nat) : Except PyExc (Int × Int × Int) :=
  let step := s.step.getD 1
  if step = 0 then .error .valueError
  else
    let lower : Int := if step < 0 then -1 else 0
    let upper : Int := if step < 0 then (size : Int) - 1 else size
    let clip (x : Int) : Int := if x < 0 then max (x + size) lower else min x upper
    let start := match s.start with
      | none => if step < 0 then upper else lower
      | some x => clip x
    let stop := match s.stop with
      | none => if step < 0 then lower else upper
      | some x => clip x
    .ok (start, stop, step)

/-- A NumPy array in C order at address `buf`: `n` rows of shape `inner`, made into a `BigArray` by `big_array_init`
(pyxbigfile.pyx:413-416 and 491-494). -/
def pyArr (m : Machine) (dt : CStr) (n : Nat) (inner : List Nat) (buf : Int) : Option Arr :=
  arrayInit m buf dt (n :: inner) (some (defaultStrides (itemsize m dt) (n :: inner)))

/-- `ColumnLowLevelAPI.write` (pyxbigfile.pyx:405-425), for an array that `big_array_init` has initialised. Result: the exception
if one is raised, the handle and the memory. -/
def pyWrite (env : Env) (bb : Block) (start : Int) (a : Arr) (mem : Mem) : M (Except PyExc Unit × Block × Mem) := do
  let (rc, ptr) ← M.lift (seek bb ⟨0, 0, 0⟩ start)
  if rc ≠ 0 then pure (.error .error, bb, mem)
  else
    let x ← blockWrite env bb ptr a mem
    if x.rc ≠ 0 then pure (.error .error, x.bb, x.mem) else pure (.ok (), x.bb, x.mem)

/-- The number of rows that `ColumnLowLevelAPI.read` reads (pyxbigfile.pyx:478-481). -/
def pyReadLength (size : Nat) (start length : Int) : Int :=
  let length := if length = -1 then (size : Int) - start else length
  if length + start > size then (size : Int) - start else length

/-- The shape of a row (pyxbigfile.pyx:297-304): a scalar if there is one element. -/
def pyInner (bb : Block) : List Nat := if bb.nmemb ≠ 1 then [bb.nmemb.toNat] else []

/-- `ColumnLowLevelAPI.read` with `out=None` (pyxbigfile.pyx:466-505). The exception, or the new array; and the memory. -/
def pyRead (env : Env) (bb : Block) (start length : Int) (buf : Int) (mem : Mem) : M (Except PyExc Arr × Mem) := do
  let length := pyReadLength bb.size start length
  if length < 0 then pure (.error .valueError, mem)
  else
    let a ← M.lift (pyArr env.m bb.dtype length.toNat (pyInner bb) buf)
    let (rc, ptr) ← M.lift (seek bb ⟨0, 0, 0⟩ start)
    if rc ≠ 0 then pure (.error .error, mem)
    else
      let x ← blockRead env bb ptr a mem
      if x.rc ≠ 0 then pure (.error .error, x.mem) else pure (.ok a, x.mem)

/-- `Column.__getitem__` with a slice (`__init__.py:65-75`). -/
def pyGetSlice (env : Env) (bb : Block) (s : PySlice) (buf : Int) (mem : Mem) : M (Except PyExc Arr × Mem) :=
  match s.indices bb.size with
  | .error e => pure (.error e, mem)
  | .ok (start, stop, step) =>
    if step ≠ 1 then pure (.error .valueError, mem) else pyRead env bb start (stop - start) buf mem

/-- `Column.__getitem__` with a scalar (`__init__.py:26-42`): the first entry of a slice of length one. The result is the array and the
memory; the entry is its first row. Negative dimensions aside, `[0]` fails on an array without entries. -/
def pyGetScalar (env : Env) (bb : Block) (i : Int) (buf : Int) (mem : Mem) : M (Except PyExc Arr × Mem) := do
  let (r, mem) ← pyGetSlice env bb ⟨some i, some (i + 1), none⟩ buf mem
  match r with
  | .error e => pure (.error e, mem)
  | .ok a => if a.dims.headD 0 = 0 then pure (.error .indexError, mem) else pure (.ok a, mem)

/-- `Column.__setitem__` with a slice (`__init__.py:77-87`): the end of the slice is not used. -/
def pySetSlice (env : Env) (bb : Block) (s : PySlice) (a : Arr) (mem : Mem) : M (Except PyExc Unit × Block × Mem) :=
  match s.indices bb.size with
  | .error e => pure (.error e, bb, mem)
  | .ok (start, _, step) => if step ≠ 1 then pure (.error .valueError, bb, mem) else pyWrite env bb start a mem

/-- The sizes of the files (pyxbigfile.pyx:391-393 and 448-450). -/
def pySizes (nfile size : Nat) : List Nat := (List.range nfile).map fun i => (i + 1) * size / nfile - i * size / nfile

/-- `ColumnLowLevelAPI.append` (pyxbigfile.pyx:427-464), for an array of `n` rows. -/
def pyAppend (env : Env) (bb : Block) (a : Arr) (n nfile : Nat) (mem : Mem) : M (Except PyExc Unit × Block × Mem) := do
  if nfile = 0 ∧ n ≠ 0 then pure (.error .valueError, bb, mem)
  else
    let tail := bb.size
    let (rc, bb) ← blockGrow bb (pySizes nfile n)
    if rc ≠ 0 then pure (.error .error, bb, mem)
    else
      let (rc, bb) ← blockFlush env bb
      if rc ≠ 0 then pure (.error .error, bb, mem) else pyWrite env bb tail a mem

/-- Python's `range(0, stop, step)` for `step > 0`. (__init__.py:187.) -/
def pyRange (stop step : Nat) : List Nat := (List.range ((stop + step - 1) / step)).map (· * step)

/-- An array-like object: its dtype, the shape of a row, the number of rows and the bytes of each row.
(__init__.py:151-190.) -/
structure PySource where
  dtype : CStr
  inner : List Nat
  size : Nat
  row : Nat → List Byte

/-- The loop of `create_from_array` (`__init__.py:187-188`): `numpy.array(array[i:i+itemlimit])` is a copy at address `buf`. -/
def pyWriteChunks (env : Env) (src : PySource) (itemlimit : Nat) (buf : Int) :
    List Nat → Block → Mem → M (Except PyExc Unit × Block × Mem)
  | [], bb, mem => pure (.ok (), bb, mem)
  | i :: is, bb, mem => do
    let n := min itemlimit (src.size - i)
    let a ← M.lift (pyArr env.m src.dtype n src.inner buf)
    let (r, bb, mem) ← pyWrite env bb i a (poke mem buf ((List.range n).flatMap fun k => src.row (i + k)))
    match r with
    | .error e => pure (.error e, bb, mem)
    | .ok () => pyWriteChunks env src itemlimit buf is bb mem

/-- The number of files when the caller does not give one (`__init__.py:171-175`). -/
def pyNfile (nfile : Option Nat) (size : Nat) : Nat := nfile.getD ((size + 33554432 - 1) / 33554432)

/-- The number of elements of a row (pyxbigfile.pyx:387-390). -/
def pyItems (inner : List Nat) : Nat := inner.headD 1

/-- The number of rows written at once (`__init__.py:184`). -/
def pyItemlimit (memorylimit rowbytes : Nat) : Nat := memorylimit / rowbytes / 1024 * 1024

/-- `File.create_from_array` (`__init__.py:151-190`), with `ColumnLowLevelAPI.create` (pyxbigfile.pyx:360-403) and the `with` statement: the new
block is flushed (`__exit__`, pyxbigfile.pyx:322-323) also after an exception, and its handle is dropped (`__dealloc__`, pyxbigfile.pyx:577-580),
here at the end. The exception, or the handle of the block opened anew. -/
def createFromArray (env : Env) (bf name : CStr) (src : PySource) (nfile : Option Nat) (memorylimit : Nat) (buf : Int) (mem : Mem) :
    M (Except PyExc Block) := do
  let nfile := pyNfile nfile src.size
  let rowbytes := (itemsize env.m src.dtype).toNat * pyItems src.inner
  if rowbytes = 0 then pure (.error .zeroDivision)
  else
    let itemlimit := pyItemlimit memorylimit rowbytes
    if nfile = 0 ∧ src.size ≠ 0 then pure (.error .valueError)
    else if 1 < src.inner.length then pure (.error .assertion)
    else
      match (← createBlock env bf name (some src.dtype) (pyItems src.inner) (pySizes nfile src.size)).2 with
      | none => pure (.error .error)
      | some bb =>
        let (r, bb, _) ← (if itemlimit = 0 then pure (.error .valueError, bb, mem)
          else pyWriteChunks env src itemlimit buf (pyRange src.size itemlimit) bb mem)
        let (rc, bb) ← blockFlush env bb
        if rc ≠ 0 then do
          let _ ← blockClose env bb
          pure (.error .error)
        else
          match r with
          | .error e => do
            let _ ← blockClose env bb
            pure (.error e)
          | .ok () =>
            match (← openBlock env bf name).2 with
            | none => do
              let _ ← blockClose env bb
              pure (.error .error)
            | some b =>
              let _ ← blockClose env bb
              pure (.ok b)

end Verif
