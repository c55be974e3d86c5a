import Verif.Spec.Shared
import Verif.Spec.RecordMake
/-!
# Specification: records of several processes
-/

set_option autoImplicit false

namespace Verif.Spec

open Verif

/-- Field `f` of the records of `n` processes, in rank order; process `r` has `size r` records at `buf r` in its
memory `mem r`. -/
def allOf (m : Machine) (rt : RType) (n : Nat) (size : Nat → Nat) (buf : Nat → Int) (mem : Nat → Mem) (f : RField) :
    List (List Byte) :=
  (List.range n).flatMap fun r => (List.range (size r)).map fun i => fieldOf m rt (buf r) (mem r) i f

/-- The rows `l` have been put at row `p` and the following rows. -/
def Content.put (A : Content) (p : Nat) (l : List (List Byte)) : Content :=
  { A with rows := fun q => if p ≤ q ∧ q < p + l.length then some (l.getD (q - p) []) else A.rows q }

/-- A field whose block several processes can use: it has a name, C strings that are short enough, a dtype with a
width and at least one member. -/
structure Sharable (env : Env) (bf : CStr) (f : RField) : Prop where
  name : f.name.isSome = true
  chars : (0 : Byte) ∉ bf ++ f.name.getD []
  length : bf.length + (f.name.getD []).length + 2 ≤ 8192
  item : 0 < itemsize env.m f.dtype
  memb : 0 < f.nmemb

/-- The bytes of the records of `n` processes, in rank order. -/
def allBytes (rt : RType) (n : Nat) (size : Nat → Nat) (buf : Nat → Int) (mem : Nat → Mem) : List Byte :=
  (List.range n).flatMap fun r => peek (mem r) (buf r) (size r * rt.itemsize)

/-- Nothing but physical files of the fields' blocks differs. -/
def SameOutsideAll (bf : CStr) (fields : List RField) (fs fs' : FS) : Prop :=
  ∀ k, (∀ f ∈ fields, ∀ id, k ≠ fileKey (fieldPath bf f) id) → fs'.node k = fs.node k

/-! ## A table of records, used by one or several processes -/

/-- An operation on the records: by one process on its own (`who = none`), or by `n` processes together (`who = some n`).
Process `r` has `size r` records at `buf r` in its memory `mem r`. -/
inductive ROp where
  | write (who : Option Nat) (row : Nat) (size : Nat → Nat) (buf : Nat → Int) (mem : Nat → Mem) (concurrency : Int) (threshold : Nat)
  | read (who : Option Nat) (row : Nat) (size : Nat → Nat) (buf : Nat → Int) (mem : Nat → Mem) (concurrency : Int) (threshold : Nat)
  | extend (who : Option Nat) (fsize : List Nat)

/-- What the block of each field holds after an operation. -/
def tableNext (env : Env) (rt : RType) (T : RField → Content) : ROp → RField → Content
  | .write who row size buf mem _ _ => fun f => (T f).put row (allOf env.m rt (who.getD 1) size buf mem f)
  | .read .. => T
  | .extend _ fsize => fun f => { T f with size := (T f).size + fsize.sum, nfile := (T f).nfile + fsize.length }

/-- The conditions on a transfer of `total` records. -/
def sharesOk (rt : RType) (who : Option Nat) (size : Nat → Nat) (concurrency : Int) : Prop :=
  0 < who.getD 1 ∧ who.getD 1 < 2147483648 ∧ (∀ r, r < who.getD 1 → size r * rt.itemsize < 9223372036854775808) ∧
    (who.isSome = true → rowsBefore size (who.getD 1) < 2147483648 ∧ concurrency < 2147483648)

/-- What the users must observe: the records fit the blocks; records that are read have been written. -/
def tableLegal (env : Env) (rt : RType) (T : RField → Content) : ROp → Prop
  | .write who row size _ _ concurrency _ => sharesOk rt who size concurrency ∧
    ∀ f ∈ rt.fields, row + rowsBefore size (who.getD 1) ≤ (T f).size
  | .read who row size _ _ concurrency _ => sharesOk rt who size concurrency ∧
    ∀ f ∈ rt.fields, row + rowsBefore size (who.getD 1) ≤ (T f).size ∧
      ∀ q, row ≤ q → q < row + rowsBefore size (who.getD 1) → ((T f).rows q).isSome = true
  | .extend who fsize => 0 < who.getD 1 ∧ who.getD 1 < 2147483648 ∧ ∀ f ∈ rt.fields, (T f).legal env (fieldKind env f) (.grow fsize)

/-- What the processes must get: the codes `x.1` and the memories `x.2`. -/
def tableAnswers (env : Env) (rt : RType) (T : RField → Content) (op : ROp) (x : (Nat → Int) × (Nat → Mem)) : Prop :=
  match op with
  | .write who _ size buf mem _ _ => ∀ r, r < who.getD 1 → x.1 r = 0 ∧
    ∀ y, y < buf r ∨ buf r + ((size r * rt.itemsize : Nat) : Int) ≤ y → x.2 r y = mem r y
  | .read who row size buf mem _ _ => ∀ r, r < who.getD 1 → x.1 r = 0 ∧
    (∀ f ∈ rt.fields, ∀ i, i < size r → (T f).rows (row + rowsBefore size r + i) = some (fieldOf env.m rt (buf r) (x.2 r) i f)) ∧
    ∀ y, y < buf r ∨ buf r + ((size r * rt.itemsize : Nat) : Int) ≤ y → x.2 r y = mem r y
  | .extend who _ => ∀ r, r < who.getD 1 → x.1 r = 0

/-- What the blocks hold after a history. -/
def tableAfter (env : Env) (rt : RType) : (RField → Content) → List ROp → RField → Content
  | T, [] => T
  | T, op :: ops => tableAfter env rt (tableNext env rt T op) ops

/-- Every operation of a history is legal when it happens. -/
def tableAllLegal (env : Env) (rt : RType) : (RField → Content) → List ROp → Prop
  | _, [] => True
  | T, op :: ops => tableLegal env rt T op ∧ tableAllLegal env rt (tableNext env rt T op) ops

/-- Every operation of a history was answered as it should. -/
def tableAllAnswered (env : Env) (rt : RType) : (RField → Content) → List ROp → List ((Nat → Int) × (Nat → Mem)) → Prop
  | _, [], [] => True
  | T, op :: ops, x :: xs => tableAnswers env rt T op x ∧ tableAllAnswered env rt (tableNext env rt T op) ops xs
  | _, _, _ => False

/-- One operation, with `big_file_write_records`, `big_file_read_records` or `big_file_create_records`, or with the
collective functions. -/
def runROp (env : Env) (bf : CStr) (rt : RType) : ROp → Phases ((Nat → Int) × (Nat → Mem))
  | .write none row size buf mem _ _ => do
    let x ← Phases.alone (writeRecords env bf rt row (size 0) (buf 0) (mem 0))
    pure (fun _ => x.1, fun _ => x.2)
  | .write (some n) row size buf mem concurrency threshold => mpiWriteRecords env n bf rt concurrency threshold row size buf mem
  | .read none row size buf mem _ _ => do
    let x ← Phases.alone (readRecords env bf rt row (size 0) (buf 0) (mem 0))
    pure (fun _ => x.1, fun _ => x.2)
  | .read (some n) row size buf mem concurrency threshold => mpiReadRecords env n bf rt concurrency threshold row size buf mem
  | .extend none fsize => do
    let rc ← Phases.alone (createRecords env bf rt .aplus fsize)
    pure (fun _ => rc, fun _ _ => 0)
  | .extend (some n) fsize => do
    let c ← mpiCreateRecords env n bf rt .aplus fsize
    pure (c, fun _ _ => 0)

/-- A history of operations. -/
def runROps (env : Env) (bf : CStr) (rt : RType) : List ROp → Phases (List ((Nat → Int) × (Nat → Mem)))
  | [] => pure []
  | op :: ops => do
    let x ← runROp env bf rt op
    let xs ← runROps env bf rt ops
    pure (x :: xs)

end Verif.Spec
