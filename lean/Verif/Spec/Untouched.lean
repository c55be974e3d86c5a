import Verif.Spec.CopyMay
/-!
# Specification: what a program may change on the disk
-/

set_option autoImplicit false

namespace Verif.Spec

open Verif

/-- Nothing has changed but the file with the attributes of the block `base` (`attr-v2` in its directory). -/
def OnlyAttrs (base : CStr) (fs fs' : FS) : Prop := ∀ k, k ≠ fileKey base .attrV2 → fs'.node k = fs.node k

/-- However the program ends — normally, or killed at some point — the disk before and after are related by `R`. -/
def ChangesOnly {α : Type} (R : FS → FS → Prop) (m : M α) : Prop := ∀ w, match m w with
  | .ok _ w' => R w.fs w'.fs
  | .crash w' => R w.fs w'.fs
  | .ub => True
  | .hang => True

end Verif.Spec
