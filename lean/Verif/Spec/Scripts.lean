import Verif.Model.Scripts
import Verif.Spec.CopyMay
/-!
# Specification: renaming and removing blocks
-/

set_option autoImplicit false

namespace Verif.Spec

open Verif

/-- The tree at `a` is now at `b`; nothing else has changed. -/
structure Moved (a b : Key) (fs fs' : FS) : Prop where
  there : ∀ t, fs'.node (b ++ t) = fs.node (a ++ t)
  gone : ∀ t, fs'.node (a ++ t) = none
  rest : ∀ k, ¬ a <+: k → ¬ b <+: k → fs'.node k = fs.node k

/-- Nothing has changed but that some entries at or below `p` are gone. -/
def Trimmed (p : Key) (fs fs' : FS) : Prop := ∀ k, fs'.node k = fs.node k ∨ (p <+: k ∧ fs'.node k = none)

/-- An order of removal: all of them, and what is in a directory before the directory. -/
def ChildrenFirst (order : List Key → List Key) : Prop :=
  ∀ l, (order l).Perm l ∧ (l.Nodup → (order l).Pairwise fun x y => ¬ x <+: y)

end Verif.Spec
