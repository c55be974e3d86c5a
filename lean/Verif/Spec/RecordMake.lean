import Verif.Spec.Record
import Verif.Spec.Copy
/-!
# Specification: making the blocks of a record type, and reporting failures
-/

set_option autoImplicit false

namespace Verif.Spec

open Verif

/-- The directory of the block of a field. -/
def fieldPath (bf : CStr) (f : RField) : CStr := pathJoin bf (f.name.getD [])

/-- The kind of block a field needs. -/
def fieldKind (env : Env) (f : RField) : Kind :=
  ⟨dtypeNormalize env.m f.dtype, (itemsize env.m f.dtype).toNat, f.nmemb.toNat⟩

/-- A block for the field can be made: it has a name without blanks, not that of the meta block, a proper dtype, at least
one member, and a row fits the buffer. -/
structure Makable (env : Env) (bf : CStr) (f : RField) : Prop where
  name : f.name.isSome = true
  length : (fieldPath bf f).length ≤ 8192
  notMeta : isMeta (fieldPath bf f) = false
  blank : hasBlank (fieldPath bf f) = false
  dtype : PlainDtype (dtypeNormalize env.m f.dtype)
  item : 0 < itemsize env.m f.dtype
  memb : 0 < f.nmemb
  small : fieldSize env.m f < 2147483648
  buf : fieldSize env.m f ≤ env.chunkBytes

/-- Rows of this many files of a field are addressable. -/
def SizesOk (env : Env) (fsize : List Nat) (f : RField) : Prop :=
  fsize.length ≤ 16777216 ∧ fsize.sum < 9223372036854775808 ∧ fsize.sum * fieldSize env.m f < 9223372036854775808

/-- The blocks of the fields have nothing to do with each other. -/
def FieldsApart (bf : CStr) (fields : List RField) : Prop :=
  fields.Pairwise fun f g => Apart (fieldPath bf f) (fieldPath bf g) ∧ Apart (fieldPath bf g) (fieldPath bf f)

/-- One after another, each of the fields makes a step. -/
inductive AllFields (step : RField → Mem → World → Mem → World → Prop) : List RField → Mem → World → Mem → World → Prop where
  | nil (mem : Mem) (w : World) : AllFields step [] mem w mem w
  | cons {f : RField} {fs : List RField} {mem mem1 mem2 : Mem} {w w1 w2 : World} :
    step f mem w mem1 w1 → AllFields step fs mem1 w1 mem2 w2 → AllFields step (f :: fs) mem w mem2 w2

/-- The field's block was opened, sought, written and closed, and each of these calls succeeded. -/
def FieldStored (env : Env) (bf : CStr) (rt : RType) (p : Int) (n : Nat) (buf : Int) (f : RField) (mem : Mem) (w : World)
    (mem' : Mem) (w' : World) : Prop :=
  ∃ name a bb ptr x w1 w2, f.name = some name ∧ viewField env.m rt f n buf = some a ∧
    openBlock env bf name w = .ok (0, some bb) w1 ∧ seek bb ⟨0, 0, 0⟩ p = some (0, ptr) ∧
    blockWrite env bb ptr a mem w1 = .ok x w2 ∧ x.rc = 0 ∧ x.mem = mem' ∧ blockClose env x.bb w2 = .ok 0 w'

/-- The field's block was opened, sought, read and closed, and each of these calls succeeded. -/
def FieldFetched (env : Env) (bf : CStr) (rt : RType) (p : Int) (n : Nat) (buf : Int) (f : RField) (mem : Mem) (w : World)
    (mem' : Mem) (w' : World) : Prop :=
  ∃ name a bb ptr x w1 w2, f.name = some name ∧ viewField env.m rt f n buf = some a ∧
    openBlock env bf name w = .ok (0, some bb) w1 ∧ seek bb ⟨0, 0, 0⟩ p = some (0, ptr) ∧
    blockRead env bb ptr a mem w1 = .ok x w2 ∧ x.rc = 0 ∧ x.mem = mem' ∧ blockClose env x.bb w2 = .ok 0 w'

/-- The field's block was made and closed (`w+`), or opened, extended and closed (`a+`), and each call succeeded. -/
def FieldMade (env : Env) (bf : CStr) (fsize : List Nat) : RMode → RField → Mem → World → Mem → World → Prop
  | .wplus, f, mem, w, mem', w' => mem' = mem ∧ ∃ name bb w1, f.name = some name ∧
    createBlock env bf name (some f.dtype) f.nmemb fsize w = .ok (0, some bb) w1 ∧ blockClose env bb w1 = .ok 0 w'
  | .aplus, f, mem, w, mem', w' => mem' = mem ∧ ∃ name bb bb' w1 w2, f.name = some name ∧
    openBlock env bf name w = .ok (0, some bb) w1 ∧ blockGrow bb fsize w1 = .ok (0, bb') w2 ∧ blockClose env bb' w2 = .ok 0 w'
  | .other, _, _, _, _, _ => False

end Verif.Spec
