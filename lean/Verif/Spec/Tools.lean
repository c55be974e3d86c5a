import Verif.Spec.Cat
import Verif.Spec.Value
import Verif.Model.Tools
/-!
# Specification: attributes as text
-/

set_option autoImplicit false

namespace Verif.Spec

open Verif

/-- The elements of a value as text, with blanks between them (none between the elements of a string). -/
def valueText (env : Env) (v : AttrVal) : CStr :=
  (if charAt v.dtype 1 = 83 then [] else b!" ").intercalate
    ((List.range v.nmemb).map fun i => elemText env v.dtype (elemBytes (widthOf env.m v.dtype) v.bytes i))

/-- A string in a field of at least `n` characters, at its left end. -/
def fieldLeft (n : Nat) (s : CStr) : CStr := s ++ List.replicate (n - s.length) 32

/-- A string in a field of at least `n` characters, at its right end. -/
def fieldRight (n : Nat) (s : CStr) : CStr := List.replicate (n - s.length) 32 ++ s

/-- The line shown for an attribute: the value, and unless `brief` also name, dtype and number of elements. -/
def attrShown (env : Env) (brief : Bool) (name : CStr) (v : AttrVal) : CStr :=
  if brief then valueText env v ++ b!"\n"
  else fieldLeft 20 name ++ b!" " ++ v.dtype ++ b!" " ++ fieldRight 3 (decStr v.nmemb) ++ b!"  [ " ++ valueText env v ++ b!" ]\n"

/-- The answer for one name. -/
def nameShown (env : Env) (brief : Bool) (M : AttrMap) (name : CStr) : CStr :=
  match M name with
  | some v => attrShown env brief name v
  | none => name ++ b!", not attr:\n"

/-- A block with one attribute set, and everything stored. -/
def Content.withAttr (A : Content) (name : CStr) (v : AttrVal) : Content :=
  { A with attrs := A.attrs.put name v, saved := A.attrs.put name v, pending := false }

/-- The value is these integers, of this type. -/
structure IsInts (o : Order) (t : IntTy) (xs : List Int) (v : AttrVal) : Prop where
  dtype : v.dtype = t.dtype o
  nmemb : v.nmemb = xs.length
  bytes : v.bytes.length = xs.length * t.width
  elems : ∀ i (h : i < xs.length), intVal o t (elemBytes t.width v.bytes i) = xs[i]

/-- What a text means as an element of a character, floating point or complex type, given how the C library reads floating point
numbers: the first character; the number at the start of the text; two numbers with ` + ` between them. -/
inductive Denotes (m : Machine) (sc : FloatScan) : (type text : CStr) → List Byte → Prop
  | char (c : Byte) (s : CStr) : Denotes m sc b!"a1" (c :: s) [c]
  | f4 (s : CStr) (x : Nat) (r : CStr) : sc.f4 s = some (x, r) → Denotes m sc b!"f4" s (natEnc m 4 x)
  | f8 (s : CStr) (x : Nat) (r : CStr) : sc.f8 s = some (x, r) → Denotes m sc b!"f8" s (natEnc m 8 x)
  | c8 (s : CStr) (re : Nat) (t : CStr) (im : Nat) (r : CStr) : sc.f4 s = some (re, b!" + " ++ t) → scanWs t = t →
    sc.f4 t = some (im, r) → Denotes m sc b!"c8" s (natEnc m 4 re ++ natEnc m 4 im)
  | c16 (s : CStr) (re : Nat) (t : CStr) (im : Nat) (r : CStr) : sc.f8 s = some (re, b!" + " ++ t) → scanWs t = t →
    sc.f8 t = some (im, r) → Denotes m sc b!"c16" s (natEnc m 8 re ++ natEnc m 8 im)

end Verif.Spec
