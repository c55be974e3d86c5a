import Verif.Model.Record
import Verif.Spec.Disk
/-!
# Specification: records
-/

set_option autoImplicit false

namespace Verif.Spec

open Verif

/-- Bytes of a field: members times item size of its dtype. -/
def fieldSize (m : Machine) (f : RField) : Nat := (itemsize m f.dtype).toNat * f.nmemb.toNat

/-- Bytes of the fields before field `c`. -/
def fieldStart (m : Machine) (fields : List RField) (c : Nat) : Nat := ((fields.take c).map (fieldSize m)).sum

/-- Bytes of all fields. -/
def recordSize (m : Machine) (fields : List RField) : Nat := (fields.map (fieldSize m)).sum

/-- A field that was set to something sensible: a name, a dtype that fits its buffer and has a
non-negative width, a non-negative number of members. -/
structure FieldSet (m : Machine) (f : RField) : Prop where
  name : f.name.isSome = true
  short : f.dtype.length < 8
  width : 0 ≤ itemsize m f.dtype
  memb : 0 ≤ f.nmemb

/-- The record type is complete: offsets, element sizes and the record size are those of packed
fields. -/
structure Complete (m : Machine) (rt : RType) : Prop where
  set : ∀ f ∈ rt.fields, FieldSet m f
  elsize : ∀ f ∈ rt.fields, f.elsize = itemsize m f.dtype
  offset : ∀ c (h : c < rt.fields.length), (rt.fields[c]).offset = fieldStart m rt.fields c
  size : rt.itemsize = recordSize m rt.fields
  small : recordSize m rt.fields < 2147483648

/-- What the user chose for a field. -/
def chosen (f : RField) : Option CStr × CStr × Int := (f.name, f.dtype, f.nmemb)

/-- Add fields one after another to a cleared record type. -/
def addAll (rt : RType) : List (CStr × CStr × Int) → RType
  | [] => rt
  | x :: xs => addAll (typeAdd rt x.1 x.2.1 x.2.2).1 xs

/-- Byte `x` of the record belongs to field `c`. -/
def InField (rt : RType) (c : Nat) (x : Nat) : Prop :=
  ∃ f, rt.fields[c]? = some f ∧ f.offset ≤ x ∧ (x : Int) < f.offset + f.elsize * f.nmemb

/-- The address range of field `f` of row `i` lies in the 63-bit range. -/
def Addressable (rt : RType) (i : Int) : Prop :=
  -9223372036854775808 ≤ i * rt.itemsize ∧ i * rt.itemsize + rt.itemsize < 9223372036854775808

/-- The bytes of field `f` of row `i` of the records at `buf`. -/
def fieldOf (m : Machine) (rt : RType) (buf : Int) (mem : Mem) (i : Nat) (f : RField) : List Byte :=
  peek mem (buf + ((i * rt.itemsize : Nat) : Int) + f.offset) (fieldSize m f)

/-- The block of field `f` of the file `bf` is on disk: `bb` describes it. Its dtype and number of
members are those of the field. -/
structure FieldBlock (env : Env) (fs : FS) (bf : CStr) (f : RField) (bb : Block) : Prop where
  name : ∃ name, f.name = some name ∧ bb.basename = pathJoin bf name
  dtype : dtypeNormalize env.m bb.dtype = dtypeNormalize env.m f.dtype
  memb : bb.nmemb = f.nmemb
  memb0 : 0 < f.nmemb
  item0 : 0 < itemsize env.m f.dtype
  layout : Layout bb
  buf : fieldSize env.m f ≤ env.chunkBytes
  bufMax : env.chunkBytes < 18446744073709551616
  bytes : bb.size * fieldSize env.m f < 9223372036854775808
  savable : Savable env bb
  clean : bb.dirty = false ∧ bb.attrset.dirty = false
  dir : DirOk fs bb.basename
  data : DataFiles fs bb
  header : HeaderSays fs bb
  attrs : AttrsSay env fs bb.basename (attrView env.m bb.attrset)

/-- Address `y` lies in field `f` of one of the rows `0, ..., n-1` at `buf`. -/
def InColumn (m : Machine) (rt : RType) (buf : Int) (n : Nat) (f : RField) (y : Int) : Prop :=
  ∃ i, i < n ∧ buf + ((i * rt.itemsize : Nat) : Int) + f.offset ≤ y ∧
    y < buf + ((i * rt.itemsize : Nat) : Int) + f.offset + fieldSize m f

end Verif.Spec
