import Verif.Spec.Disk
/-!
# Specification: malformed attribute files
-/

set_option autoImplicit false

namespace Verif.Spec

open Verif

/-- How many blanks a text has. -/
def blanks (s : CStr) : Nat := (s.filter (fun c => c == 32 || c == 9)).length

/-- No NUL and no blank; newlines are allowed. -/
def Token (s : CStr) : Prop := ∀ c ∈ s, c ≠ 0 ∧ c ≠ 9 ∧ c ≠ 32

/-- Four fields that make no attribute: the data has not the length that the dtype and the number of elements need, or
the name has a newline in it, as after an empty line. -/
structure BadFields (m : Machine) (name dtype len data : CStr) : Prop where
  nameOk : name ≠ [] ∧ Token name
  dtypeOk : dtype ≠ [] ∧ Token dtype
  lenOk : len ≠ [] ∧ Token len
  dataOk : data ≠ [] ∧ Token data
  fits : fitsInt (atoi len * itemsize m dtype) = true ∧ fitsInt (atoi len * itemsize m dtype * 2) = true
  wrong : atoi len * itemsize m dtype * 2 ≠ data.length ∨ 10 ∈ name
  small : data.length < 9223372036854775808

/-- The text of such a line. -/
def badLine (name dtype len data : CStr) : CStr := name ++ b!" " ++ dtype ++ b!" " ++ len ++ b!" " ++ data ++ b!" "

/-- The attribute file has well-formed lines and then something else. -/
structure AttrTail (env : Env) (fs : FS) (base : CStr) (ls : List (CStr × AttrVal × CStr)) (tail : CStr) : Prop where
  lines : ∀ l ∈ ls, Storable l.1 l.2.1 ∧ Typed env.m l.2.1 ∧ OneLine l.2.2
  file : fs.node (fileKey base .attrV2) = some (.file (textV2 ls ++ tail))
  old : ∃ s1, readsV1 env fs base (attrsetCreate env) = some (0, s1) ∧ WellAttrs env.m s1

end Verif.Spec
