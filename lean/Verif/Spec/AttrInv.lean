import Verif.Spec.Attr
/-!
# Specification: a well-formed attribute set

The representation of an attribute set: a list of structs sorted by name, pointing into one buffer
that holds the names and the data. `AttrInv` says that a set represents a given list of entries. It
holds of every set the library makes (`attrRun_spec`, `parseV2_text`, `parseV1_spec`).
-/

set_option autoImplicit false

namespace Verif

open Spec

/-- An attribute as the invariant sees it: its offset in the buffer, its name and its value. -/
structure Entry where
  off : Nat
  name : CStr
  val : AttrVal

/-- Bytes it occupies: name, NUL, data. -/
def Entry.len (e : Entry) : Nat := e.name.length + 1 + e.val.bytes.length

/-- The struct that represents it. -/
def Entry.attr (base : Int) (e : Entry) : Attr :=
  { nmemb := e.val.nmemb, dtype := e.val.dtype, name := base + e.off,
    data := base + e.off + e.name.length + 1 }

structure EntryOk (m : Machine) (s : AttrSet) (e : Entry) : Prop where
  nonul : (0 : Byte) ∉ e.name
  inside : e.off + e.len ≤ s.bufused
  mem : peek s.buf (s.base + e.off) e.len = e.name ++ 0 :: e.val.bytes
  norm : dtypeNormalize m e.val.dtype = e.val.dtype
  item : 0 < itemsize m e.val.dtype
  nbytes : (e.val.bytes.length : Int) = itemsize m e.val.dtype * e.val.nmemb
  fits : e.val.bytes.length < 2147483648

/-- Names in strictly increasing order. -/
def SortedE (es : List Entry) : Prop := es.Pairwise fun a b => strcmp a.name b.name = .lt

/-- The invariant of the attribute set. -/
structure AttrInv (m : Machine) (s : AttrSet) (es : List Entry) : Prop where
  list : s.list = es.map (Entry.attr s.base)
  ok : ∀ e ∈ es, EntryOk m s e
  sorted : SortedE es
  disj : es.Pairwise fun a b => a.off + a.len ≤ b.off ∨ b.off + b.len ≤ a.off
  used : s.bufused ≤ s.bufsize
  size : 128 ≤ s.bufsize

/-- The value bound to a name in a list of entries. -/
def findE (es : List Entry) : AttrMap := fun name => (es.find? (fun e => e.name == name)).map (·.val)

/-- The representation is well formed. -/
def Spec.WellAttrs (m : Machine) (s : AttrSet) : Prop := ∃ es, AttrInv m s es

end Verif
