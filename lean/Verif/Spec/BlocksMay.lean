import Verif.Spec.Blocks
import Verif.Spec.Durable
/-!
# Specification: a file of several blocks, with failures and kills

A program makes blocks in a file and uses them. Any file operation may fail, and the process may be killed at any moment.
The program sees the answers and may go on after failures.
-/

set_option autoImplicit false

namespace Verif.Spec

open Verif

/-- The blocks that the program can use, by name: the kind, and the state of the handle and of the files
(`Spec/Durable.lean`). -/
abbrev DBlocks := CStr → Option (Kind × Durable)

/-- One block changes. -/
def DBlocks.put (D : DBlocks) (name : CStr) (s : Option (Kind × Durable)) : DBlocks := fun n => if n = name then s else D n

/-- A program: it stops, makes a block or uses one, and goes on depending on the answer. -/
inductive FileSession where
  | stop
  | create (name dt : CStr) (nmemb : Nat) (sizes : List Nat) (next : Int → FileSession)
  | use (name : CStr) (op : BOp) (next : BAns → FileSession)

/-- Run it. -/
def runFileSession (env : Env) (bf : CStr) : OpenBlocks → FileSession → M OpenBlocks
  | hs, .stop => pure hs
  | hs, .create name dt nmemb sizes k => do
    let (rc, b) ← createBlock env bf name (some dt) nmemb sizes
    runFileSession env bf (fun n => if n = name then b else hs n) (k rc)
  | hs, .use name op k =>
    match hs name with
    | none => M.ub
    | some b => do
      let (x, b') ← runBOp env b op
      runFileSession env bf (fun n => if n = name then some b' else hs n) (k x)

/-- A block that was just made, and is stored. -/
def madeBlock (m : Machine) (dt : CStr) (nmemb : Nat) (sizes : List Nat) : Kind × Durable :=
  (⟨dtypeNormalize m (dtypeNormalize m dt), (itemsize m (dtypeNormalize m dt)).toNat, nmemb⟩, Durable.opened (Content.fresh sizes))

/-- The program does what it may, whatever fails: it makes blocks with names out of `N`, and uses those it has. -/
def FileSession.Safe (env : Env) (bf : CStr) (N : CStr → Prop) : FileSession → DBlocks → Prop
  | .stop, _ => True
  | .create name dt nmemb sizes k, D => N name ∧ Makeable env bf name dt nmemb sizes ∧
    (k 0).Safe env bf N (D.put name (some (madeBlock env.m dt nmemb sizes))) ∧ (k (-1)).Safe env bf N (D.put name none)
  | .use name op k, D => ∃ K S, D name = some (K, S) ∧ S.legal env K op ∧
    ∀ x S', S.Outcome env K op x S' → (k x).Safe env bf N (D.put name (some (K, S')))

/-- Running the program from `D`, with any failures and kills, may leave `D'` behind: every operation has one of the outcomes of
`Spec/Durable.lean` for its own block, and **changes no other block**. If making a block fails or is interrupted, nothing is
known of that block. -/
inductive FileLeaves (env : Env) : DBlocks → FileSession → DBlocks → Prop
  | stop (D : DBlocks) : FileLeaves env D .stop D
  | made (D D' : DBlocks) (name dt : CStr) (nmemb : Nat) (sizes : List Nat) (k : Int → FileSession) :
      FileLeaves env (D.put name (some (madeBlock env.m dt nmemb sizes))) (k 0) D' → FileLeaves env D (.create name dt nmemb sizes k) D'
  | notMade (D D' : DBlocks) (name dt : CStr) (nmemb : Nat) (sizes : List Nat) (k : Int → FileSession) :
      FileLeaves env (D.put name none) (k (-1)) D' → FileLeaves env D (.create name dt nmemb sizes k) D'
  | killedMaking (D : DBlocks) (name dt : CStr) (nmemb : Nat) (sizes : List Nat) (k : Int → FileSession) :
      FileLeaves env D (.create name dt nmemb sizes k) (D.put name none)
  | step (D D' : DBlocks) (name : CStr) (op : BOp) (k : BAns → FileSession) (K : Kind) (S S1 : Durable) (x : BAns) : D name = some (K, S) →
      S.Outcome env K op x S1 → FileLeaves env (D.put name (some (K, S1))) (k x) D' → FileLeaves env D (.use name op k) D'
  | killed (D : DBlocks) (name : CStr) (op : BOp) (k : BAns → FileSession) (K : Kind) (S S1 : Durable) : D name = some (K, S) →
      S.Killed K op S1 → FileLeaves env D (.use name op k) (D.put name (some (K, S1)))

/-- A block can be made there: no file is in the way of its directory, no directory in the way of its data files, and there is no
attribute file of the old format. -/
structure Clear (fs : FS) (base : CStr) : Prop where
  way : ∀ d, fs.node (resolve base) ≠ some (.file d)
  noOld : fs.node (fileKey base .attr) = none
  data : ∀ f, fs.node (fileKey base (.data f)) ≠ some .dir

/-- The names `N` are those of different directories, none inside a file of another block, and blocks can be made there. -/
structure Names (bf : CStr) (N : CStr → Prop) (fs : FS) : Prop where
  apart : ∀ n n', N n → N n' → n ≠ n' → Apart (pathJoin bf n) (pathJoin bf n')
  clear : ∀ n, N n → Clear fs (pathJoin bf n)

/-- The program does nothing with this block. -/
def FileSession.Ignores (name : CStr) : FileSession → Prop
  | .stop => True
  | .create n _ _ _ k => n ≠ name ∧ ∀ x, (k x).Ignores name
  | .use n _ k => n ≠ name ∧ ∀ x, (k x).Ignores name

/-- The handles and the files of the blocks are in the state `D`. -/
def AllHold (env : Env) (bf : CStr) (N : CStr → Prop) (hs : OpenBlocks) (fs : FS) (D : DBlocks) : Prop :=
  ∀ n K S, D n = some (K, S) → N n ∧ ∃ b, hs n = some b ∧ b.basename = pathJoin bf n ∧ HoldsD env K b fs S

end Verif.Spec
