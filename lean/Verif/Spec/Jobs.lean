import Verif.Spec.Scripts
import Verif.Spec.Cut
import Verif.Spec.Tree
/-!
# Specification: repartitioning several blocks
-/

set_option autoImplicit false

namespace Verif.Spec

open Verif

/-- A block to be repartitioned: the names on the way to it from the file, its kind, its content, and the handle its header was written
from. -/
structure RBlock where
  ds : List CStr
  c : CStr
  K : Kind
  A : Content
  hdr : Block

/-- Its name. -/
def RBlock.name (b : RBlock) : CStr := joinNames (b.ds ++ [b.c])

/-- Its path, and that of its backup. -/
def RBlock.path (file : CStr) (b : RBlock) : CStr := pathJoin file b.name

/-- The path of its backup. -/
def RBlock.bak (file : CStr) (b : RBlock) : CStr := pathJoin file (b.name ++ b!"-REPBAK")

/-- The rows and the attributes are in the block, in its backup, or in the block in `n` files; or, if something could not be opened (`f`), in
the block in `n` files without the attributes. -/
def RBlock.Safe (env : Env) (file : CStr) (n : Nat) (f : Prop) (b : RBlock) (fs : FS) : Prop :=
  OnDisk env b.K fs (b.path file) b.A ∨ OnDisk env b.K fs (b.bak file) b.A ∨ OnDisk env b.K fs (b.path file) (b.A.inFiles n) ∨
    f ∧ OnDisk env b.K fs (b.path file) { b.A.inFiles n with attrs := AttrMap.empty, saved := AttrMap.empty }

/-- The block is in `n` files and there is no backup. -/
def RBlock.Redone (env : Env) (file : CStr) (n : Nat) (f : Prop) (b : RBlock) (fs : FS) : Prop :=
  (∀ k, resolve (b.bak file) <+: k → fs.node k = none) ∧
    (OnDisk env b.K fs (b.path file) (b.A.inFiles n) ∨
      f ∧ OnDisk env b.K fs (b.path file) { b.A.inFiles n with attrs := AttrMap.empty, saved := AttrMap.empty })

/-- The directories of two blocks and of their backups do not lie in each other. -/
def RBlock.Separate (file : CStr) (a b : RBlock) : Prop :=
  ∀ x ∈ [resolve (a.path file), resolve (a.bak file)], ∀ y ∈ [resolve (b.path file), resolve (b.bak file)], ¬ x <+: y ∧ ¬ y <+: x

/-- Jobs run one after another on a disk. Each has failures of its own, and is killed or not; the rest goes on in any case. `r` is what a job
returned, nothing if it was killed. -/
inductive JobsRun {β ρ : Type} (job : β → M ρ) : List (β × (Nat → Fault) × Option ρ) → FS → FS → Prop where
  | nil (fs : FS) : JobsRun job [] fs fs
  | ends {b : β} {F : Nat → Fault} {c : Nat} {r : ρ} {w : World} {l : List (β × (Nat → Fault) × Option ρ)} {fs fs' : FS}
      (h : job b ⟨fs, F, c⟩ = .ok r w) (hl : JobsRun job l w.fs fs') : JobsRun job ((b, F, some r) :: l) fs fs'
  | killed {b : β} {F : Nat → Fault} {c : Nat} {w : World} {l : List (β × (Nat → Fault) × Option ρ)} {fs fs' : FS}
      (h : job b ⟨fs, F, c⟩ = .crash w) (hl : JobsRun job l w.fs fs') : JobsRun job ((b, F, none) :: l) fs fs'

end Verif.Spec
