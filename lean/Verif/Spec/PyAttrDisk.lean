import Verif.Spec.PyAttr
/-!
# Specification: attributes set in Python that the attribute file can hold
-/

set_option autoImplicit false

namespace Verif.Spec

open Verif

/-- The text file can hold the value: it is of less than 1 GiB, and if it is an array, it has at least one element and there are no blanks in
the name of its type. -/
def PutStores : PyValue → Prop
  | .str s => s.length < 1073741824
  | .texts l => npWidth l * l.length < 1073741824
  | .array dt n data => 0 < n ∧ Clean dt ∧ data.length < 1073741824

/-- The same of an operation; attributes have names. -/
def DictStores : DictOp → Prop
  | .set name v _ => name ≠ [] ∧ PutStores v
  | _ => True

/-- It sets an item. -/
def DictOp.isSet : DictOp → Bool
  | .set .. => true
  | _ => false

/-- It deletes one. -/
def DictOp.isDel : DictOp → Bool
  | .del _ => true
  | _ => false

end Verif.Spec
