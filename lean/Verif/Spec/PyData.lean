import Verif.Model.PyData
import Verif.Spec.Python
import Verif.Spec.RecordsAll
/-!
# Specification: a dataset is a table of records
-/

set_option autoImplicit false

namespace Verif.Spec

open Verif

/-- A table of records. `row r` are the bytes of record `r`, `none` if some field of it was never written. `files` bounds the number
of physical files of a column. -/
structure Records where
  size : Nat
  files : Nat
  row : Nat → Option (List Byte)

/-- Records put at record `p` and the following ones. -/
def Records.put (R : Records) (p : Nat) (l : List (List Byte)) : Records :=
  { R with row := fun q => if p ≤ q ∧ q < p + l.length then some (l.getD (q - p) []) else R.row q }

/-- The records of an array: `n` of them, of `isz` bytes each, at `buf`. -/
def recordsAt (isz n : Nat) (buf : Int) (mem : Mem) : List (List Byte) :=
  (List.range n).map fun i => peek mem (buf + ((i * isz : Nat) : Int)) isz

/-- What is done with a dataset. An array of `n` records is at `buf` in the memory `mem`; a new array is made there. -/
inductive DataOp where
  | get (s : PySlice) (buf : Int) (mem : Mem)
  | getOne (i : Int) (buf : Int) (mem : Mem)
  | set (s : PySlice) (n : Nat) (buf : Int) (mem : Mem)
  | append (n nfile : Nat) (buf : Int) (mem : Mem)

/-- What comes back. -/
inductive DataAns where
  | rows (l : List (List Byte))
  | done
  | exc (e : PyExc)
  deriving DecidableEq

/-- The program: one operation. -/
def runDataOp (env : Env) (d : PyData) : DataOp → M (DataAns × PyData)
  | .get s buf mem => do
    match ← pyDataGet env d s buf mem with
    | (.ok n, mem) => pure (.rows (recordsAt d.rt.itemsize n buf mem), d)
    | (.error e, _) => pure (.exc e, d)
  | .getOne i buf mem => do
    match ← pyDataGetOne env d i buf mem with
    | (.ok _, mem) => pure (.rows (recordsAt d.rt.itemsize 1 buf mem), d)
    | (.error e, _) => pure (.exc e, d)
  | .set s n buf mem => do
    match ← pyDataSet env d s n buf mem with
    | (.ok _, _) => pure (.done, d)
    | (.error e, _) => pure (.exc e, d)
  | .append n nfile buf mem => do
    match ← pyDataAppend env d n nfile buf mem with
    | (.ok _, d, _) => pure (.done, d)
    | (.error e, d, _) => pure (.exc e, d)

/-- The program: a history. -/
def runDataOps (env : Env) : PyData → List DataOp → M (List DataAns × PyData)
  | d, [] => pure ([], d)
  | d, op :: ops => do
    let x ← runDataOp env d op
    let y ← runDataOps env x.2 ops
    pure (x.1 :: y.1, y.2)

/-- What an array of the slice `s` assigned to is refused for: steps; and another number of records. -/
def sliceExc (s : PySlice) : Option PyExc :=
  if s.step.getD 1 = 0 then some .valueError else if s.step.getD 1 ≠ 1 then some .assertion else none

/-- The table after an operation; `isz` is the size of a record. -/
def Records.next (isz : Nat) (R : Records) : DataOp → Records
  | .set s n buf mem =>
    if sliceExc s = none ∧ n = (npRows R.size s.start s.stop).length ∧ n ≠ 0 then
      R.put ((npRows R.size s.start s.stop).headD 0) (recordsAt isz n buf mem)
    else R
  | .append n nfile buf mem =>
    if nfile = 0 ∧ n ≠ 0 then R
    else { R with size := R.size + n, files := R.files + nfile }.put R.size (recordsAt isz n buf mem)
  | _ => R

/-- What the user must get. Rows are those that NumPy selects. -/
def Records.answer (R : Records) : DataOp → DataAns → Prop
  | .get s _ _, a =>
    match sliceExc s with
    | some e => a = .exc e
    | none => ∃ l, a = .rows l ∧ l.map some = (npRows R.size s.start s.stop).map R.row
  | .getOne i _ _, a =>
    if npBound R.size 0 (some i) < 0 ∨ (R.size : Int) ≤ npBound R.size 0 (some i) then a = .exc .indexError
    else ∃ rec, a = .rows [rec] ∧ R.row (npBound R.size 0 (some i)).toNat = some rec
  | .set s n _ _, a =>
    match sliceExc s with
    | some e => a = .exc e
    | none => a = if n = (npRows R.size s.start s.stop).length then .done else .exc .assertion
  | .append n nfile _ _, a => a = if nfile = 0 ∧ n ≠ 0 then .exc .valueError else .done

/-- The slice does not end before it begins. -/
def forward (R : Records) (s : PySlice) : Prop :=
  clipTo R.size (npBound R.size 0 s.start) ≤ clipTo R.size (npBound R.size R.size s.stop)

/-- What the user must observe: slices do not end before they begin (unless records are assigned to them), the scalar index is not -1, records that are read have been
written, arrays have less than 2^63 bytes, and the table does not become too large. -/
def Records.legal (isz : Nat) (R : Records) : DataOp → Prop
  | .get s _ _ => sliceExc s = none → forward R s ∧ R.size * isz < 9223372036854775808 ∧
    ∀ r ∈ npRows R.size s.start s.stop, (R.row r).isSome = true
  | .getOne i _ _ => i ≠ -1 ∧ R.size * isz < 9223372036854775808 ∧
    ∀ r : Nat, (r : Int) = npBound R.size 0 (some i) → r < R.size → (R.row r).isSome = true
  | .set s n _ _ => sliceExc s = none → (forward R s ∨ n ≠ 0) ∧ R.size * isz < 9223372036854775808
  | .append n nfile _ _ => (R.size + n) * isz < 9223372036854775808 ∧ R.size + n < 9223372036854775808 ∧ R.files + nfile ≤ 16777216

/-- The history of tables. -/
def Records.after (isz : Nat) : Records → List DataOp → Records
  | R, [] => R
  | R, op :: ops => (R.next isz op).after isz ops

/-- Every operation of a history is legal when it happens. -/
def Records.allLegal (isz : Nat) : Records → List DataOp → Prop
  | _, [] => True
  | R, op :: ops => R.legal isz op ∧ (R.next isz op).allLegal isz ops

/-- Every operation of a history was answered as it should. -/
def Records.allAnswered (isz : Nat) : Records → List DataOp → List DataAns → Prop
  | _, [], [] => True
  | R, op :: ops, x :: xs => R.answer op x ∧ (R.next isz op).allAnswered isz ops xs
  | _, _, _ => False

/-- Record `q` of columns that hold `T`: the rows of the columns one after the other. -/
def recOf {α : Type} (T : α → Content) (q : Nat) : List α → Option (List Byte)
  | [] => some []
  | f :: fs => do
    let a ← (T f).rows q
    let b ← recOf T q fs
    some (a ++ b)

/-- The dataset `d` is the table `R`: each column is a block of its own on disk with as many rows as there are records and with the
attributes `attrs`, and a record is the rows of the columns one after the other. -/
structure IsTable (env : Env) (d : PyData) (attrs : RField → AttrMap) (R : Records) (fs : FS) : Prop where
  path : d.bf ≠ []
  complete : Complete env.m d.rt
  sharable : ∀ f ∈ d.rt.fields, Sharable env d.bf f
  apart : FieldsApart d.bf d.rt.fields
  size : d.size = R.size
  columns : ∃ T : RField → Content, (∀ f ∈ d.rt.fields, OnDisk env (fieldKind env f) fs (fieldPath d.bf f) (T f) ∧
      (T f).size = R.size ∧ (T f).nfile ≤ R.files ∧ (T f).attrs = attrs f) ∧
    ∀ q, R.row q = recOf T q d.rt.fields

end Verif.Spec
