import Verif.Spec.RecordsAll
import Verif.Spec.SharedMay
import Verif.Spec.Cut
import Verif.Spec.CopyMay
/-!
# Specification: records of several processes while file operations fail
-/

set_option autoImplicit false

namespace Verif.Spec

open Verif

/-- A block that held `A` while a write of the rows `p, ..., p+k-1` was not completed: these rows may hold anything, every
other row, the layout and the stored attributes are as before. Either the block can be opened and holds just that; or the
header file is damaged, and all that can be said is what the directory of the block holds. -/
def Unfinished (env : Env) (K : Kind) (fs : FS) (base : CStr) (A : Content) (p k : Nat) : Prop :=
  OnDisk env K fs base (A.forget p k) ∨
  ∃ b a, resolve b.basename = resolve base ∧ HoldsD env K b fs ⟨{ A.forget p k with attrs := a }, none, true, true⟩

/-- What an interrupted transfer of records leaves: the fields before some field `f` are complete, the transfer of `f` is not
finished, and those after it have not been touched. -/
def RecordsCut (env : Env) (bf : CStr) (A A' : RField → Content) (p k : Nat) (fields : List RField) (fs : FS) : Prop :=
  ∃ pre f post, fields = pre ++ f :: post ∧ (∀ g ∈ pre, OnDisk env (fieldKind env g) fs (fieldPath bf g) (A' g)) ∧
    Unfinished env (fieldKind env f) fs (fieldPath bf f) (A f) p k ∧
    ∀ g ∈ post, OnDisk env (fieldKind env g) fs (fieldPath bf g) (A g)

/-- The content after growing. -/
def Content.grown (A : Content) (fsize : List Nat) : Content :=
  { A with size := A.size + fsize.sum, nfile := A.nfile + fsize.length }

/-- A block that held `A` while growing it by files of the sizes `fsize` was not completed. Either it is as before; or its
directory holds all rows and stored attributes of `A`, the header file records the new size or is damaged, and some of the
new files may be missing. -/
def Ungrown (env : Env) (K : Kind) (fs : FS) (base : CStr) (A : Content) (fsize : List Nat) : Prop :=
  OnDisk env K fs base A ∨
  ∃ b a st wh, resolve b.basename = resolve base ∧ (st = none ∨ st = some (A.size + fsize.sum, A.nfile + fsize.length)) ∧
    HoldsD env K b fs ⟨{ A.grown fsize with attrs := a }, st, true, wh⟩

/-- What an interrupted extension of the blocks of records leaves. -/
def ExtensionCut (env : Env) (bf : CStr) (A : RField → Content) (fsize : List Nat) (fields : List RField) (fs : FS) : Prop :=
  ∃ pre f post, fields = pre ++ f :: post ∧ (∀ g ∈ pre, OnDisk env (fieldKind env g) fs (fieldPath bf g) ((A g).grown fsize)) ∧
    Ungrown env (fieldKind env f) fs (fieldPath bf f) (A f) fsize ∧
    ∀ g ∈ post, OnDisk env (fieldKind env g) fs (fieldPath bf g) (A g)

/-- Nothing has changed but the files of the blocks of these fields and directories on the way to them, which are new. -/
def OnlyMadeAll (bf : CStr) (fields : List RField) (fs fs' : FS) : Prop :=
  ∀ k, fs'.node k ≠ fs.node k → ∃ f ∈ fields, (∃ id, k = fileKey (fieldPath bf f) id) ∨
    (k <+: resolve (fieldPath bf f) ∧ fs.node k = none ∧ fs'.node k = some .dir)

/-- What an interrupted creation of the blocks of records leaves: those before some field are complete, and nothing was done
for the fields after it. -/
def CreationCut (env : Env) (bf : CStr) (fsize : List Nat) (fields : List RField) (fs fs' : FS) : Prop :=
  ∃ pre f post, fields = pre ++ f :: post ∧
    (∀ g ∈ pre, OnDisk env (fieldKind env g) fs' (fieldPath bf g) (Content.fresh fsize)) ∧
    OnlyMadeAll bf (pre ++ [f]) fs fs'

end Verif.Spec
