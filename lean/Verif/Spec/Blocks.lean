import Verif.Spec.Format
import Verif.Spec.CopyMay
import Verif.Spec.Tree
/-!
# Specification: a file of several blocks

A program makes blocks in a file and uses them in any order. The file is a map from names to blocks, and every block is
an array of rows with attributes (`Spec/Object.lean`, `Spec/Holes.lean`).
-/

set_option autoImplicit false

namespace Verif.Spec

open Verif

/-- What a program does with a file: make a block, or use a block it has made. -/
inductive FileOp where
  | create (name dt : CStr) (nmemb : Nat) (sizes : List Nat)
  | use (name : CStr) (op : BOp)

/-- A block of the file: its kind, its dtype as stored, and what it holds. -/
structure Slot where
  K : Kind
  dt : CStr
  H : Holey

/-- The blocks of a file, by name. -/
abbrev Blocks := CStr → Option Slot

/-- The handles a program has, by name. -/
abbrev OpenBlocks := CStr → Option Block

/-- A new block. -/
def Slot.fresh (m : Machine) (dt : CStr) (nmemb : Nat) (sizes : List Nat) : Slot :=
  ⟨⟨dtypeNormalize m (dtypeNormalize m dt), (itemsize m (dtypeNormalize m dt)).toNat, nmemb⟩, dtypeNormalize m dt, Holey.fresh sizes⟩

/-- What the program does. Making a block which is there already replaces it; its old handle is not used any more. -/
def runFileOp (env : Env) (bf : CStr) (hs : OpenBlocks) : FileOp → M (BAns × OpenBlocks)
  | .create name dt nmemb sizes => do
    let (rc, b) ← createBlock env bf name (some dt) nmemb sizes
    pure (⟨rc, env.junk, none⟩, fun n => if n = name then b else hs n)
  | .use name op =>
    match hs name with
    | none => M.ub
    | some b => do
      let (x, b') ← runBOp env b op
      pure (x, fun n => if n = name then some b' else hs n)

/-- A history. -/
def runFileOps (env : Env) (bf : CStr) : OpenBlocks → List FileOp → M (List BAns × OpenBlocks)
  | hs, [] => pure ([], hs)
  | hs, op :: ops => do
    let (x, hs) ← runFileOp env bf hs op
    let (xs, hs) ← runFileOps env bf hs ops
    pure (x :: xs, hs)

/-- What the blocks hold after an operation: only the block it names changes. -/
def Blocks.next (env : Env) (S : Blocks) : FileOp → Blocks
  | .create name dt nmemb sizes => fun n => if n = name then some (Slot.fresh env.m dt nmemb sizes) else S n
  | .use name op => fun n => if n = name then (S name).map fun s => { s with H := s.H.next env s.K op } else S n

/-- After a history. -/
def Blocks.after (env : Env) : Blocks → List FileOp → Blocks
  | S, [] => S
  | S, op :: ops => (S.next env op).after env ops

/-- A block of this kind can be made and opened again. -/
structure Makeable (env : Env) (bf name dt : CStr) (nmemb : Nat) (sizes : List Nat) : Prop where
  length : (pathJoin bf name).length ≤ 8192
  notMeta : isMeta (pathJoin bf name) = false
  noBlank : hasBlank (pathJoin bf name) = false
  dtype : PlainDtype (dtypeNormalize env.m dt)
  item : 0 < itemsize env.m (dtypeNormalize env.m dt)
  memb : 0 < nmemb
  rowBytes : (itemsize env.m (dtypeNormalize env.m dt)).toNat * nmemb < 2147483648
  buffer : (itemsize env.m (dtypeNormalize env.m dt)).toNat * nmemb ≤ env.chunkBytes
  nfile : sizes.length ≤ 16777216
  size : sizes.sum < 9223372036854775808
  bytes : sizes.sum * ((itemsize env.m (dtypeNormalize env.m dt)).toNat * nmemb) < 9223372036854775808

/-- What a program may do. A new block must have a directory of its own: it is not the directory of another
block and neither of the two is inside a file of the other; and the disk, as it was at the start (`fs0`), has room for it. -/
def Blocks.legal (env : Env) (bf : CStr) (fs0 : FS) (S : Blocks) : FileOp → Prop
  | .create name dt nmemb sizes => Makeable env bf name dt nmemb sizes ∧ Room fs0 (pathJoin bf name) ∧
    ∀ n, n ≠ name → (S n).isSome = true → Apart (pathJoin bf n) (pathJoin bf name) ∧ Apart (pathJoin bf name) (pathJoin bf n)
  | .use name op => ∃ s, S name = some s ∧ s.H.legal env s.K op

/-- Every operation is legal when it happens. -/
def Blocks.allLegal (env : Env) (bf : CStr) (fs0 : FS) : Blocks → List FileOp → Prop
  | _, [] => True
  | S, op :: ops => S.legal env bf fs0 op ∧ (S.next env op).allLegal env bf fs0 ops

/-- What the program must observe: making a block succeeds; an operation on a block is answered according to what this
block holds. -/
def Blocks.answers (env : Env) (S : Blocks) : FileOp → BAns → Prop
  | .create .., ans => ans.rc = 0
  | .use name op, ans => ∃ s, S name = some s ∧ s.H.answers env s.K op ans

/-- Every operation is answered as it must be. -/
def Blocks.allAnswered (env : Env) : Blocks → List FileOp → List BAns → Prop
  | _, [], [] => True
  | S, op :: ops, x :: xs => S.answers env op x ∧ (S.next env op).allAnswered env ops xs
  | _, _, _ => False

/-- No blocks. -/
def Blocks.none : Blocks := fun _ => Option.none

/-- A plain name: components that do not start with a dot and are not the name of a file of a block, joined by slashes. -/
def PlainBlockName (n : CStr) : Prop :=
  ∃ cs : List CStr, cs ≠ [] ∧ (∀ c ∈ cs, IsName c ∧ c.head? ≠ some 46 ∧ ∀ id : FileId, c ≠ id.name) ∧ n = joinNames cs

/-- The block `n` is inside the directory of the block `o`. -/
def InsideBlock (o n : CStr) : Prop := o ++ [47] <+: n

/-- The operation is about this block. -/
def FileOp.about (name : CStr) : FileOp → Prop
  | .create n .. => n = name
  | .use n _ => n = name

/-- What a program may do with a new file if its names are plain. -/
def Blocks.plainLegal (env : Env) (bf : CStr) (S : Blocks) : FileOp → Prop
  | .create name dt nmemb sizes => Makeable env bf name dt nmemb sizes ∧ PlainBlockName name
  | .use name op => ∃ s, S name = some s ∧ s.H.legal env s.K op

/-- At every step. -/
def Blocks.allPlainLegal (env : Env) (bf : CStr) : Blocks → List FileOp → Prop
  | _, [] => True
  | S, op :: ops => S.plainLegal env bf op ∧ (S.next env op).allPlainLegal env bf ops

/-- A directory with nothing in it. -/
structure EmptyDir (fs : FS) (bf : CStr) : Prop where
  dir : fs.node (resolve bf) = some .dir
  empty : ∀ k, resolve bf <+: k → k ≠ resolve bf → fs.node k = none

end Verif.Spec
