import Verif.Model.Python
/-!
# The Python interface to attributes

Models the class `AttrSet` of `/repo/bigfile/pyxbigfile.pyx` (lines 202-276): the attributes of a block as a Python mapping.
What it uses of NumPy is modelled too: how strings and lists of strings become arrays of bytes, and back.

Strings are their encoded bytes; that `encode` and `decode` are inverse is not modelled. Memory that NumPy allocates is at an
address that is a parameter, and holds anything.
-/

set_option autoImplicit false

namespace Verif

/-- The values that go into and come out of the mapping: a string, a list of strings (or an array of byte strings), and
any other array in C order with its type string, number of elements and bytes. (pyxbigfile.pyx:231-235, 246-261.) -/
inductive PyValue where
  | str (s : List Byte)
  | texts (l : List (List Byte))
  | array (dt : CStr) (n : Nat) (data : List Byte)
  deriving DecidableEq, Repr

/-- The width NumPy gives to an array of these byte strings: that of the longest, at least 1. (pyxbigfile.pyx:255.) -/
def npWidth : List (List Byte) → Nat
  | [] => 1
  | s :: l => max s.length (npWidth l)

/-- A byte string in an array of width `w`: NULs are appended. (pyxbigfile.pyx:255.) -/
def npPad (w : Nat) (s : List Byte) : List Byte := s ++ List.replicate (w - s.length) 0

/-- A byte string taken out of an array: trailing NULs are dropped. (pyxbigfile.pyx:232.) -/
def npStrip (s : List Byte) : List Byte := (s.reverse.dropWhile (· == 0)).reverse

/-- What `__setitem__` hands to `big_block_set_attr` (pyxbigfile.pyx:248-266): type, number of elements, bytes. A string
becomes single characters; an array of no bytes has width 1 in NumPy, so the empty string becomes one NUL. -/
def PyValue.buffer : PyValue → CStr × Nat × List Byte
  | .str s => let s := if s = [] then [0] else s; (b!"a1", s.length, s)
  | .texts l => let w := npWidth l; (b!"|S" ++ decStr w, l.length, l.flatMap (npPad w))
  | .array dt n data => (dt, n, data)

/-- `AttrSet.__setitem__` (pyxbigfile.pyx:244-269), values of object type left out. -/
def pyAttrSet (env : Env) (s : AttrSet) (name : CStr) (v : PyValue) (buf : Int) : Option (Except PyExc Unit × AttrSet) :=
  let b := v.buffer
  (setAttr env s name buf b.1 b.2.1 (poke env.junk buf b.2.2)).map fun r =>
    (if r.1 ≠ 0 then .error .error else .ok (), r.2.1)

/-- The Python value made from an array read from an attribute (pyxbigfile.pyx:231-235). -/
def pyAttrValue (m : Machine) (dt : CStr) (n : Nat) (data : List Byte) : PyValue :=
  if charAt dt 1 = 83 then
    .texts ((List.range n).map fun i => npStrip ((data.drop (i * (itemsize m dt).toNat)).take (itemsize m dt).toNat))
  else if charAt dt 1 = 97 then .str data
  else .array dt n data

/-- `AttrSet.__getitem__` (pyxbigfile.pyx:221-235). The attribute is looked up, an array of its type and length is made, the
value is read into it. -/
def pyAttrGet (env : Env) (s : AttrSet) (name : CStr) (buf : Int) : Option (Except PyExc PyValue × AttrSet) :=
  match lookupAttr s name with
  | none => some (.error .keyError, s)
  | some i =>
    match s.list[i]? with
    | none => none
    | some a =>
      (getAttr env s name buf a.dtype a.nmemb env.junk).map fun r =>
        (if r.1 ≠ 0 then .error .error
         else .ok (pyAttrValue env.m a.dtype a.nmemb.toNat (peek r.2.2 buf (itemsize env.m a.dtype * a.nmemb).toNat)), r.2.1)

/-- `AttrSet.__delitem__` (pyxbigfile.pyx:237-243). -/
def pyAttrDel (s : AttrSet) (name : CStr) : Except PyExc Unit × AttrSet :=
  match lookupAttr s name with
  | none => (.error .keyError, s)
  | some _ => (.ok (), (removeAttr s name).2)

/-- `AttrSet.__contains__` (pyxbigfile.pyx:214-219). -/
def pyAttrHas (s : AttrSet) (name : CStr) : Bool := (lookupAttr s name).isSome

/-- Insertion into a sorted list of names. (pyxbigfile.pyx:206, `sorted`.) -/
def insertName (a : CStr) : List CStr → List CStr
  | [] => [a]
  | b :: bs => if strcmp a b = .gt then b :: insertName a bs else a :: b :: bs

/-- Python's `sorted` on names, in the order of their bytes, which is that of their characters in UTF-8.
(pyxbigfile.pyx:206.) -/
def sortNames : List CStr → List CStr
  | [] => []
  | a :: as => insertName a (sortNames as)

/-- `AttrSet.keys` and `__iter__` (pyxbigfile.pyx:202-212). -/
def pyAttrKeys (s : AttrSet) : List CStr := sortNames ((listAttrs s).map s.nameOf)

end Verif
