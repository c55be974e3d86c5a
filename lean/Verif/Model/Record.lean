import Verif.Model.Block
/-!
# Records

Models `/repo/src/bigfile-record.c`.
-/

set_option autoImplicit false

namespace Verif

/-- `struct BigRecordField` (bigfile.h:258-264). `name = none` is the NULL name of a field that has not
been set. -/
structure RField where
  name : Option CStr
  dtype : CStr
  nmemb : Int
  offset : Int
  elsize : Int
  deriving DecidableEq, Repr

/-- `struct BigRecordType` (bigfile.h:266-270). `nfield` is the length of the list. -/
structure RType where
  fields : List RField
  itemsize : Nat
  deriving DecidableEq, Repr

/-- A field that is all zero (`memset`, bigfile-record.c:33-34). -/
def RField.zero : RField := ⟨none, [], 0, 0, 0⟩

/-- `big_record_type_clear` (bigfile-record.c:11-21). `itemsize` is not reset. -/
def typeClear (rt : RType) : RType := { rt with fields := [] }

/-- `big_record_type_set` (bigfile-record.c:23-44) for `i ≥ 0`. `strncpy` keeps at most 8 characters.
Simplified: `realloc` does not fail. -/
def typeSet (rt : RType) (i : Nat) (name dtype : CStr) (nmemb : Int) : RType :=
  let fields := rt.fields ++ List.replicate (i + 1 - rt.fields.length) RField.zero
  { rt with fields := fields.modify i fun f =>
      { f with name := some (strdup name), dtype := dtype.take 8, nmemb := nmemb } }

/-- `big_record_type_add` (bigfile-record.c:46-55). -/
def typeAdd (rt : RType) (name dtype : CStr) (nmemb : Int) : RType × Nat :=
  (typeSet rt rt.fields.length name dtype nmemb, rt.fields.length)

/-- Outcome of `big_record_type_complete`. (bigfile-record.c:57-73.) -/
inductive CompleteRes where
  | ok (rt : RType)
  /-- `abort()` because a field was never set -/
  | abort
  /-- `int` overflow, or a dtype of 8 characters, which is not terminated -/
  | ub
  deriving DecidableEq, Repr

/-- The loop of `big_record_type_complete` (bigfile-record.c:62-71): the fields done so far (last first)
and the running `int` offset. -/
def completeLoop (m : Machine) : List RField → List RField → Int → CompleteRes
  | [], done, offset => .ok ⟨done.reverse, u64 offset⟩
  | f :: fs, done, offset =>
    match f.name with
    | none => .abort
    | some _ =>
      if 8 ≤ f.dtype.length then .ub
      else
        let el := itemsize m f.dtype
        if !fitsInt (el * f.nmemb) || !fitsInt (offset + el * f.nmemb) then .ub
        else completeLoop m fs ({ f with offset := offset, elsize := el } :: done) (offset + el * f.nmemb)

/-- `big_record_type_complete` (bigfile-record.c:57-73). -/
def typeComplete (m : Machine) (rt : RType) : CompleteRes := completeLoop m rt.fields [] 0

/-- Address of field `f` of row `i` (bigfile-record.c:83, 94). The index is a `size_t`; added to the
pointer it wraps around like a signed number. -/
def fieldAddr (rt : RType) (buf : Int) (i : Int) (f : RField) : Int :=
  buf + i64 (i * rt.itemsize + f.offset)

/-- The size given to `memcpy` (bigfile-record.c:84, 95). -/
def fieldBytes (f : RField) : Nat := u64 (f.elsize * f.nmemb)

/-- `memcpy`. `none`: the ranges overlap. (bigfile-record.c:75-96.) -/
def memcpy (mem : Mem) (dst src : Int) (n : Nat) : Option Mem :=
  if dst < src + n ∧ src < dst + n then none else some (poke mem dst (peek mem src n))

/-- `big_record_set` (bigfile-record.c:75-85). `none`: undefined behaviour. -/
def recordSet (rt : RType) (buf : Int) (i : Int) (c : Nat) (data : Int) (mem : Mem) : Option Mem := do
  let f ← rt.fields[c]?
  memcpy mem (fieldAddr rt buf i f) data (fieldBytes f)

/-- `big_record_get` (bigfile-record.c:87-96). -/
def recordGet (rt : RType) (buf : Int) (i : Int) (c : Nat) (data : Int) (mem : Mem) : Option Mem := do
  let f ← rt.fields[c]?
  memcpy mem data (fieldAddr rt buf i f) (fieldBytes f)

/-- `big_record_view_field` (bigfile-record.c:98-112), which always returns 0. -/
def viewField (m : Machine) (rt : RType) (f : RField) (size : Nat) (buf : Int) : Option Arr :=
  arrayInit m (buf + f.offset) f.dtype [size, u64 f.nmemb] (some [i64 rt.itemsize, f.elsize])

/-- The mode strings of `big_file_create_records`. (bigfile-record.c:123-143.) -/
inductive RMode where
  | wplus
  | aplus
  | other
  deriving DecidableEq, Repr

/-- One field of `big_file_create_records` (bigfile-record.c:122-154). -/
def createField (env : Env) (bf : CStr) (mode : RMode) (fsize : List Nat) (f : RField) : M Int :=
  match f.name with
  | none => M.ub
  | some name =>
    match mode with
    | .wplus => do
      match ← createBlock env bf name (some f.dtype) f.nmemb fsize with
      | (0, some bb) => if (← blockClose env bb) ≠ 0 then pure (-1) else pure 0
      | _ => pure (-1)
    | .aplus => do
      match ← openBlock env bf name with
      | (0, some bb) => do
        let (rc, bb) ← blockGrow bb fsize
        if rc ≠ 0 then do
          let _ ← blockClose env bb
          pure (-1)
        else if (← blockClose env bb) ≠ 0 then pure (-1) else pure 0
      | _ => pure (-1)
    | .other => pure (-1)

/-- The loop over fields; the first failure ends it. (bigfile-record.c:122, 168, 213.) -/
def eachField (act : RField → Mem → M (Int × Mem)) : List RField → Mem → M (Int × Mem)
  | [], mem => pure (0, mem)
  | f :: fs, mem => do
    let (rc, mem) ← act f mem
    if rc ≠ 0 then pure (-1, mem) else eachField act fs mem

/-- `big_file_create_records` (bigfile-record.c:114-158). -/
def createRecords (env : Env) (bf : CStr) (rt : RType) (mode : RMode) (fsize : List Nat) : M Int := do
  let r ← eachField (fun f mem => do
    let rc ← createField env bf mode fsize f
    pure (rc, mem)) rt.fields (fun _ => 0)
  pure r.1

/-- The end of one field's transfer: close the block; an error anywhere makes the result -1
(bigfile-record.c:187-199, 230-242). -/
def closeField (env : Env) (bb : Block) (rc : Int) (mem : Mem) : M (Int × Mem) := do
  let rc2 ← blockClose env bb
  pure (if rc ≠ 0 ∨ rc2 ≠ 0 then -1 else 0, mem)

/-- One field of `big_file_write_records` (bigfile-record.c:169-200). -/
def writeField (env : Env) (bf : CStr) (rt : RType) (offset : Int) (size : Nat) (buf : Int) (f : RField)
    (mem : Mem) : M (Int × Mem) := do
  let a ← M.lift (viewField env.m rt f size buf)
  match f.name with
  | none => M.ub
  | some name =>
    match ← openBlock env bf name with
    | (0, some bb) => do
      let (rc, ptr) ← M.lift (seek bb ⟨0, 0, 0⟩ offset)
      if rc ≠ 0 then closeField env bb rc mem
      else do
        let x ← blockWrite env bb ptr a mem
        closeField env x.bb x.rc x.mem
    | _ => pure (-1, mem)

/-- `big_file_write_records` (bigfile-record.c:160-203): return code and the caller's memory. -/
def writeRecords (env : Env) (bf : CStr) (rt : RType) (offset : Int) (size : Nat) (buf : Int) (mem : Mem) :
    M (Int × Mem) :=
  eachField (writeField env bf rt offset size buf) rt.fields mem

/-- One field of `big_file_read_records` (bigfile-record.c:213-243). -/
def readField (env : Env) (bf : CStr) (rt : RType) (offset : Int) (size : Nat) (buf : Int) (f : RField)
    (mem : Mem) : M (Int × Mem) := do
  let a ← M.lift (viewField env.m rt f size buf)
  match f.name with
  | none => M.ub
  | some name =>
    match ← openBlock env bf name with
    | (0, some bb) => do
      let (rc, ptr) ← M.lift (seek bb ⟨0, 0, 0⟩ offset)
      if rc ≠ 0 then closeField env bb rc mem
      else do
        let x ← blockRead env bb ptr a mem
        closeField env x.bb x.rc x.mem
    | _ => pure (-1, mem)

/-- `big_file_read_records` (bigfile-record.c:205-246). -/
def readRecords (env : Env) (bf : CStr) (rt : RType) (offset : Int) (size : Nat) (buf : Int) (mem : Mem) :
    M (Int × Mem) :=
  eachField (readField env bf rt offset size buf) rt.fields mem

end Verif
