import Verif.Spec.Copy
/-!
# Specification: all the rows whose bytes are there
-/

set_option autoImplicit false

namespace Verif.Spec

open Verif

/-- The same block, of which perhaps more rows are known. -/
structure Content.Extends (A' A : Content) : Prop where
  size : A'.size = A.size
  nfile : A'.nfile = A.nfile
  attrs : A'.attrs = A.attrs
  saved : A'.saved = A.saved
  pending : A'.pending = A.pending
  rows : ∀ r bytes, A.rows r = some bytes → A'.rows r = some bytes

/-- Under `base` there is a closed block with the content `A`, and `A` tells of every row of the block whether its bytes are there: also of
rows that nobody wrote, if they lie before the end of their file. -/
def WholeOnDisk (env : Env) (K : Kind) (fs : FS) (base : CStr) (A : Content) : Prop :=
  OnDisk env K fs base A ∧ ∀ b r, b.basename = base → HeaderSays fs b → r < A.size →
    ((A.rows r).isSome = true ↔ Stored env.m fs b r)

end Verif.Spec
