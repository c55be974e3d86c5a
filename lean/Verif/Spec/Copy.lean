import Verif.Spec.Object
/-!
# Specification: copying a block
-/

set_option autoImplicit false

namespace Verif.Spec

open Verif

/-- Under `base` there is a closed block with the content `A`: everything is stored. -/
def OnDisk (env : Env) (K : Kind) (fs : FS) (base : CStr) (A : Content) : Prop :=
  A.pending = false ∧ A.saved = A.attrs ∧ ∃ b : Block, b.basename = base ∧ b.dirty = false ∧ Holds env K b fs A

/-- Every row was written. -/
def Content.full (A : Content) : Prop := ∀ r, r < A.size → (A.rows r).isSome = true

/-- Two block directories are different, the first one is not a file of the second, and the second one is not below a
file of the first. -/
structure Apart (src dst : CStr) : Prop where
  ne : resolve src ≠ resolve dst
  notFile : ∀ id, resolve src ≠ fileKey dst id
  notBelow : ∀ id, ¬ fileKey src id <+: resolve dst

/-- The same block in `n` files. -/
def Content.inFiles (A : Content) (n : Nat) : Content := { A with nfile := n }

/-- There is room for a new block under `base`: no file is in the way of its directory, nothing but files is where its files
go, and there is no attribute file of the old format. -/
structure Room (fs : FS) (base : CStr) : Prop where
  way : ∀ k, k <+: resolve base → ¬ IsFile fs k
  files : ∀ id, fs.node (fileKey base id) ≠ some .dir
  noOld : fs.node (fileKey base .attr) = none

end Verif.Spec
