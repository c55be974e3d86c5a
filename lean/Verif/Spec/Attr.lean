import Verif.Model.AttrSet
import Verif.Spec.Convert
/-!
# Specification: attributes are a finite map from names to values
-/

set_option autoImplicit false

namespace Verif.Spec

open Verif

/-- The value of an attribute: dtype (with its byte order), number of elements, bytes as stored. -/
structure AttrVal where
  dtype : CStr
  nmemb : Nat
  bytes : List Byte
  deriving DecidableEq

/-- A finite map from names to values. -/
abbrev AttrMap := CStr → Option AttrVal

/-- The map without attributes. -/
def AttrMap.empty : AttrMap := fun _ => none

/-- Bind a name. -/
def AttrMap.put (M : AttrMap) (name : CStr) (v : AttrVal) : AttrMap :=
  fun x => if x = name then some v else M x

/-- Forget a name. -/
def AttrMap.del (M : AttrMap) (name : CStr) : AttrMap := fun x => if x = name then none else M x

/-- The attributes an attribute set holds: for each name, what the entry of that name says. Found by
looking at all entries one after another. -/
def attrView (m : Machine) (s : AttrSet) : AttrMap := fun name =>
  (s.list.find? (fun a => s.nameOf a == name)).map fun a =>
    { dtype := a.dtype, nmemb := a.nmemb.toNat,
      bytes := peek s.buf a.data (itemsize m a.dtype * a.nmemb).toNat }

/-- Element `i` of a string of elements of `w` bytes. -/
def elemBytes (w : Nat) (bs : List Byte) (i : Nat) : List Byte := (bs.drop (i * w)).take w

/-- The operations on attributes. `mem` is the caller's memory, `buf` the address of the data in
it. -/
inductive AttrOp where
  | set (name dtype : CStr) (nmemb : Nat) (mem : Mem) (buf : Int)
  | remove (name : CStr)
  | get (name dtype : CStr) (nmemb : Nat) (mem : Mem) (buf : Int)
  | list

/-- What an operation gives back: return code, the caller's memory, names listed (with dtype and
length). -/
structure AttrAns where
  rc : Int
  mem : Mem
  names : List (CStr × CStr × Int)

/-- The width of an element of a dtype. -/
def widthOf (m : Machine) (dtype : CStr) : Nat := (itemsize m dtype).toNat

/-- The attributes after an operation. -/
def attrNext (m : Machine) (M : AttrMap) : AttrOp → AttrMap
  | .set name dtype nmemb mem buf =>
    if hasBlank name then M
    else M.put name ⟨dtypeNormalize m dtype, nmemb, peek mem buf (widthOf m dtype * nmemb)⟩
  | .remove name => M.del name
  | .get .. => M
  | .list => M

/-- The outcome of an operation when the attributes are `M`. -/
def AnsOk (m : Machine) (fo : FloatOps) (M : AttrMap) : AttrOp → AttrAns → Prop
  | .set name dtype nmemb mem buf, ans =>
    ans.rc = (if hasBlank name then -1 else 0) ∧
    (foreign m (dtypeNormalize m dtype) = false → ans.mem = mem) ∧
    (∀ x, x < buf ∨ buf + (widthOf m dtype * nmemb : Nat) ≤ x → ans.mem x = mem x)
  | .remove name, ans => ans.rc = (if (M name).isSome then 0 else -1)
  | .get name dtype nmemb mem buf, ans =>
    match M name with
    | none => ans.rc = -1 ∧ ans.mem = mem
    | some v =>
      if v.nmemb = nmemb ∧ convertible m fo (dtypeNormalize m dtype) v.dtype = true then
        ans.rc = 0 ∧
        (∀ x, x < buf ∨ buf + (widthOf m dtype * nmemb : Nat) ≤ x → ans.mem x = mem x) ∧
        ∀ i, i < nmemb → convElem m fo (dtypeNormalize m dtype) v.dtype
            (elemBytes (widthOf m v.dtype) v.bytes i) =
          some (peek ans.mem (buf + (i * widthOf m dtype : Nat)) (widthOf m dtype))
      else ans.rc = -1 ∧ ans.mem = mem
  | .list, ans =>
    ans.names.Pairwise (fun a b => strcmp a.1 b.1 = .lt) ∧
    ∀ name dtype nmemb, (name, dtype, nmemb) ∈ ans.names ↔
      ∃ v, M name = some v ∧ dtype = v.dtype ∧ nmemb = v.nmemb

/-- What the operations need. A name is a C string. The dtype has a positive width and the value
fits an `int` number of bytes. The requested conversion is defined for the values. The attribute
that is read is stored in the machine's byte order, or its elements are single bytes: reading
anything else changes it, see `C32_changes`. -/
def LegalOp (m : Machine) (fo : FloatOps) (M : AttrMap) : AttrOp → Prop
  | .set name dtype nmemb _ _ =>
    (0 : Byte) ∉ name ∧ name.length < 9223372036854775808 ∧ 0 < itemsize m dtype ∧
    itemsize m dtype * nmemb < 2147483648
  | .remove name => (0 : Byte) ∉ name
  | .get name dtype nmemb _ _ => (0 : Byte) ∉ name ∧ 0 < itemsize m dtype ∧
    itemsize m dtype * nmemb < 2147483648 ∧
    ∀ v, M name = some v → v.nmemb = nmemb →
      (foreign m v.dtype = false ∨ widthOf m v.dtype = 1) ∧
      (convertible m fo (dtypeNormalize m dtype) v.dtype = true →
        ∀ i, i < nmemb → (convElem m fo (dtypeNormalize m dtype) v.dtype
          (elemBytes (widthOf m v.dtype) v.bytes i)).isSome = true)
  | .list => True

/-- All operations of a history are legal when they happen. -/
def LegalOps (m : Machine) (fo : FloatOps) : AttrMap → List AttrOp → Prop
  | _, [] => True
  | M, op :: ops => LegalOp m fo M op ∧ LegalOps m fo (attrNext m M op) ops

/-- The answers to a history. -/
def AnsesOk (m : Machine) (fo : FloatOps) : AttrMap → List AttrOp → List AttrAns → Prop
  | _, [], [] => True
  | M, op :: ops, a :: as => AnsOk m fo M op a ∧ AnsesOk m fo (attrNext m M op) ops as
  | _, _, _ => False

/-- The attributes after a history. -/
def attrAfter (m : Machine) : AttrMap → List AttrOp → AttrMap
  | M, [] => M
  | M, op :: ops => attrAfter m (attrNext m M op) ops

/-- One operation of the program. `none`: undefined behaviour. -/
def attrStep (env : Env) (s : AttrSet) : AttrOp → Option (AttrAns × AttrSet)
  | .set name dtype nmemb mem buf =>
    (setAttr env s name buf dtype nmemb mem).map fun (rc, s, mem) => (⟨rc, mem, []⟩, s)
  | .remove name => let r := removeAttr s name; some (⟨r.1, env.junk, []⟩, r.2)
  | .get name dtype nmemb mem buf =>
    (getAttr env s name buf dtype nmemb mem).map fun (rc, s, mem) => (⟨rc, mem, []⟩, s)
  | .list => some (⟨0, env.junk, (listAttrs s).map fun a => (s.nameOf a, a.dtype, a.nmemb)⟩, s)

/-- Is the operation a `set`? -/
def AttrOp.isSet : AttrOp → Bool
  | .set .. => true
  | _ => false

/-- Is the operation a `remove`? -/
def AttrOp.isRemove : AttrOp → Bool
  | .remove _ => true
  | _ => false

/-- Storage of the attributes: the bytes from the name up to the end of the data. -/
def attrRegion (m : Machine) (a : Attr) : Int × Int := (a.name, a.data + itemsize m a.dtype * a.nmemb)

/-- Memory safety of the storage: every attribute lies inside the allocated buffer, its name is
terminated before its data begins, and two attributes do not overlap. -/
structure AttrSafe (m : Machine) (s : AttrSet) : Prop where
  inside : ∀ a ∈ s.list, s.base ≤ (attrRegion m a).1 ∧ (attrRegion m a).2 ≤ s.base + s.bufsize
  name : ∀ a ∈ s.list, a.name + (s.nameOf a).length < a.data ∧ s.buf (a.name + (s.nameOf a).length) = 0
  order : ∀ a ∈ s.list, a.data ≤ (attrRegion m a).2
  disjoint : s.list.Pairwise fun a b =>
    (attrRegion m a).2 ≤ (attrRegion m b).1 ∨ (attrRegion m b).2 ≤ (attrRegion m a).1

/-- No NUL, tab, newline or space. -/
def Clean (s : CStr) : Prop := ∀ c ∈ s, c ≠ 0 ∧ c ≠ 9 ∧ c ≠ 10 ∧ c ≠ 32

/-- No NUL or newline. -/
def OneLine (s : CStr) : Prop := ∀ c ∈ s, c ≠ 0 ∧ c ≠ 10

/-- The C library prints floating point numbers (with `%g`) on one line and with at most 13 characters, as in `-1.23457e-308`. -/
def FmtOk (env : Env) : Prop :=
  ∀ n, (OneLine (env.fmtF4 n) ∧ (env.fmtF4 n).length ≤ 13) ∧ OneLine (env.fmtF8 n) ∧ (env.fmtF8 n).length ≤ 13

/-- An attribute the text format can represent. -/
structure Storable (name : CStr) (v : AttrVal) : Prop where
  nameNe : name ≠ []
  clean : Clean name
  nameLen : name.length < 9223372036854775808
  dtype : Clean v.dtype
  nmemb : 0 < v.nmemb
  bytes : v.bytes.length < 1073741824

/-- Elements are in machine byte order, or single bytes. -/
def Native (m : Machine) (v : AttrVal) : Prop := foreign m v.dtype = false ∨ widthOf m v.dtype = 1

/-- A value whose bytes fit its dtype: the dtype is in normal form with a positive width, and there
are as many bytes as its elements need. -/
structure Typed (m : Machine) (v : AttrVal) : Prop where
  norm : dtypeNormalize m v.dtype = v.dtype
  item : 0 < itemsize m v.dtype
  nbytes : (v.bytes.length : Int) = itemsize m v.dtype * v.nmemb

/-- A line of the attribute file: name, dtype, number of elements, bytes in hexadecimal, and a text
for human readers. -/
def lineV2 (name : CStr) (v : AttrVal) (t : CStr) : CStr :=
  name ++ b!" " ++ v.dtype ++ b!" " ++ intStr v.nmemb ++ b!" " ++ hexBytes v.bytes ++ b!" #HUMANE [ " ++ t ++ b!" ]\n"

/-- The attribute file with these attributes and human-readable texts. -/
def textV2 : List (CStr × AttrVal × CStr) → CStr
  | [] => []
  | (name, v, t) :: ls => lineV2 name v t ++ textV2 ls

/-- A record of the old binary attribute file. -/
structure RecV1 where
  name : CStr
  dtype : CStr
  nmemb : Nat
  bytes : List Byte

/-- Its bytes in the file: number of elements and length of the name as 32-bit integers, eight bytes
of dtype padded with zeros, name, data. -/
def RecV1.encode (m : Machine) (r : RecV1) : List Byte :=
  natEnc m 4 r.nmemb ++ natEnc m 4 r.name.length ++ (r.dtype ++ List.replicate (8 - r.dtype.length) 0) ++
    r.name ++ r.bytes

/-- The old binary attribute file with these records. -/
def fileV1 (m : Machine) : List RecV1 → List Byte
  | [] => []
  | r :: rs => r.encode m ++ fileV1 m rs

/-- A record that can be stored: a proper name, a valid dtype, at least one element, and as many
bytes as its elements need. -/
structure RecV1.Ok (m : Machine) (r : RecV1) : Prop where
  nameNe : r.name ≠ []
  clean : Clean r.name
  nameLen : r.name.length < 2147483648
  valid : dtypeIsValid r.dtype = true
  short : r.dtype.length < 8
  nonul : (0 : Byte) ∉ r.dtype
  nmemb : 0 < r.nmemb
  nbytes : (r.bytes.length : Int) = itemsize m r.dtype * r.nmemb
  fits : r.bytes.length < 2147483648

/-- The value of a record. -/
def RecV1.val (m : Machine) (r : RecV1) : AttrVal := ⟨dtypeNormalize m r.dtype, r.nmemb, r.bytes⟩

/-- Put the records into a map one after another, so that later ones win. -/
def putRecs (m : Machine) : AttrMap → List RecV1 → AttrMap
  | M, [] => M
  | M, r :: rs => putRecs m (M.put r.name (r.val m)) rs

/-- Put named values into a map one after another. -/
def putLines : AttrMap → List (CStr × AttrVal × CStr) → AttrMap
  | M, [] => M
  | M, (name, v, _) :: ls => putLines (M.put name v) ls

/-- The attributes are the same, except for the bytes of those in the other byte order. -/
def SameButForeign (m : Machine) (M M' : AttrMap) : Prop := ∀ name,
  (M name = none ∧ M' name = none) ∨
  ∃ v bs, M name = some v ∧ M' name = some ⟨v.dtype, v.nmemb, bs⟩ ∧ bs.length = v.bytes.length ∧
    (Native m v → bs = v.bytes)

/-- A history of operations of the program. -/
def attrRun (env : Env) : AttrSet → List AttrOp → Option (List AttrAns × AttrSet)
  | s, [] => some ([], s)
  | s, op :: ops =>
    match attrStep env s op with
    | none => none
    | some (a, s) => (attrRun env s ops).map fun (as, s) => (a :: as, s)

end Verif.Spec
