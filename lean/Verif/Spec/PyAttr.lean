import Verif.Model.PyAttr
import Verif.Spec.Attr
/-!
# Specification: attributes as a Python dictionary
-/

set_option autoImplicit false

namespace Verif.Spec

open Verif

/-- A dictionary of attributes. -/
abbrev PyDict := CStr → Option PyValue

/-- What is done with `block.attrs`. `buf` is the address of the array NumPy makes. -/
inductive DictOp where
  | set (name : CStr) (v : PyValue) (buf : Int)
  | get (name : CStr) (buf : Int)
  | del (name : CStr)
  | has (name : CStr)
  | keys

/-- What comes back. -/
inductive DictAns where
  | done
  | value (v : PyValue)
  | bool (b : Bool)
  | names (l : List CStr)
  | exc (e : PyExc)
  deriving DecidableEq, Repr

/-- The program: one operation. `none`: undefined behaviour. -/
def dictStep (env : Env) (s : AttrSet) : DictOp → Option (DictAns × AttrSet)
  | .set name v buf => (pyAttrSet env s name v buf).map fun
    | (.ok _, s) => (.done, s)
    | (.error e, s) => (.exc e, s)
  | .get name buf => (pyAttrGet env s name buf).map fun
    | (.ok v, s) => (.value v, s)
    | (.error e, s) => (.exc e, s)
  | .del name =>
    match pyAttrDel s name with
    | (.ok _, s) => some (.done, s)
    | (.error e, s) => some (.exc e, s)
  | .has name => some (.bool (pyAttrHas s name), s)
  | .keys => some (.names (pyAttrKeys s), s)

/-- The program: a history. -/
def dictRun (env : Env) : AttrSet → List DictOp → Option (List DictAns × AttrSet)
  | s, [] => some ([], s)
  | s, op :: ops => (dictStep env s op).bind fun r => (dictRun env r.2 ops).map fun q => (r.1 :: q.1, q.2)

/-- What the dictionary holds after a value was put: the value, except that the empty string has become a string of one NUL,
and that the type string of an array spells out the byte order. -/
def kept (m : Machine) : PyValue → PyValue
  | .str s => .str (if s = [] then [0] else s)
  | .texts l => .texts l
  | .array dt n data => .array (dtypeNormalize m dt) n data

/-- The dictionary after an operation. A name with a space, tab or newline is refused. -/
def dictNext (m : Machine) (D : PyDict) : DictOp → PyDict
  | .set name v _ => if hasBlank name then D else fun x => if x = name then some (kept m v) else D x
  | .del name => fun x => if x = name then none else D x
  | _ => D

/-- The answer of a dictionary. -/
def DictOk (D : PyDict) : DictOp → DictAns → Prop
  | .set name _ _, a => a = if hasBlank name then .exc .error else .done
  | .get name _, a => a = match D name with
    | some v => .value v
    | none => .exc .keyError
  | .del name, a => a = if (D name).isSome then .done else .exc .keyError
  | .has name, a => a = .bool (D name).isSome
  | .keys, a => ∃ l, a = .names l ∧ l.Pairwise (fun x y => strcmp x y = .lt) ∧ ∀ x, x ∈ l ↔ (D x).isSome = true

/-- The answers of a dictionary to a history. -/
def DictsOk (m : Machine) : PyDict → List DictOp → List DictAns → Prop
  | _, [], [] => True
  | D, op :: ops, a :: as => DictOk D op a ∧ DictsOk m (dictNext m D op) ops as
  | _, _, _ => False

/-- The dictionary after a history. -/
def dictAfter (m : Machine) : PyDict → List DictOp → PyDict
  | D, [] => D
  | D, op :: ops => dictAfter m (dictNext m D op) ops

/-- What may be put: a string; strings that are not empty and do not end in a NUL, the longest of less than 100000 bytes; an
array that is not of byte strings, in the byte order of the machine, whose type string has at most 7 characters. All of less
than 2 GiB. (What NumPy gives for an empty byte string in an array depends on its version, so these are left out.) -/
def PutLegal (m : Machine) : PyValue → Prop
  | .str s => s.length < 2147483648
  | .texts l => l ≠ [] ∧ (∀ s ∈ l, s ≠ [] ∧ s.getLast? ≠ some 0 ∧ s.length < 100000) ∧
    npWidth l * l.length < 2147483648
  | .array dt n data => (charAt dt 0 = m.endian ∨ charAt dt 0 = 124) ∧ dt.length ≤ 7 ∧
    charAt dt 1 ≠ 83 ∧ charAt dt 1 ≠ 97 ∧ 0 < itemsize m dt ∧ (data.length : Int) = itemsize m dt * n ∧
    data.length < 2147483648

/-- What the operations need. Names are C strings. -/
def DictLegal (m : Machine) : DictOp → Prop
  | .set name v _ => (0 : Byte) ∉ name ∧ name.length < 9223372036854775808 ∧ PutLegal m v
  | .get name _ => (0 : Byte) ∉ name
  | .del name => (0 : Byte) ∉ name
  | .has name => (0 : Byte) ∉ name
  | .keys => True

/-- An attribute as a Python value: byte strings as a list without the padding, characters as a string, everything else as an
array. -/
def pyItem (m : Machine) (v : AttrVal) : PyValue :=
  if charAt v.dtype 1 = 83 then .texts ((List.range v.nmemb).map fun i => npStrip (elemBytes (widthOf m v.dtype) v.bytes i))
  else if charAt v.dtype 1 = 97 then .str v.bytes
  else .array v.dtype v.nmemb v.bytes

/-- The dictionary that attributes are. -/
def pyDict (m : Machine) (M : AttrMap) : PyDict := fun name => (M name).map (pyItem m)

/-- All attributes are in the byte order of the machine, or of single bytes. -/
def InOrder (m : Machine) (M : AttrMap) : Prop :=
  ∀ name v, M name = some v → foreign m v.dtype = false ∨ widthOf m v.dtype = 1

end Verif.Spec
