import Verif.Spec.Copy
/-!
# Specification: what making a block may touch
-/

set_option autoImplicit false

namespace Verif.Spec

open Verif

/-- Nothing has changed but the files of the block `dst` and directories on the way to it, which are new. -/
def OnlyMade (dst : CStr) (fs fs' : FS) : Prop :=
  ∀ k, fs'.node k ≠ fs.node k → (∃ id, k = fileKey dst id) ∨ (k <+: resolve dst ∧ fs.node k = none ∧ fs'.node k = some .dir)

end Verif.Spec
