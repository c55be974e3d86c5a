import Verif.Spec.BlocksSharedMay
import Verif.Spec.Went
/-!
# Specification: what a program that uses several blocks may conclude from the answers it got

The sessions of `Verif/Spec/BlocksMay.lean` and `Verif/Spec/BlocksSharedMay.lean`, with the answers that the operations gave.
-/

set_option autoImplicit false

namespace Verif.Spec

open Verif

/-! ## One process -/

/-- The answer of an operation: the code of making a block, or the answer of a use. -/
inductive FileAns where
  | made (rc : Int)
  | used (x : BAns)

/-- Run a program, and note the answers. -/
def runFileNoted (env : Env) (bf : CStr) : OpenBlocks → FileSession → M (List FileAns × OpenBlocks)
  | hs, .stop => pure ([], hs)
  | hs, .create name dt nmemb sizes k => do
    let (rc, b) ← createBlock env bf name (some dt) nmemb sizes
    let (xs, hs) ← runFileNoted env bf (fun n => if n = name then b else hs n) (k rc)
    pure (.made rc :: xs, hs)
  | hs, .use name op k =>
    match hs name with
    | none => M.ub
    | some b => do
      let (x, b') ← runBOp env b op
      let (xs, hs) ← runFileNoted env bf (fun n => if n = name then some b' else hs n) (k x)
      pure (.used x :: xs, hs)

/-- The program got the answers `xs`, and this took it from `D` to `D'`. -/
inductive FileWent (env : Env) : DBlocks → FileSession → List FileAns → DBlocks → Prop
  | stop (D : DBlocks) : FileWent env D .stop [] D
  | made (D D' : DBlocks) (name dt : CStr) (nmemb : Nat) (sizes : List Nat) (k : Int → FileSession) (xs : List FileAns) :
      FileWent env (D.put name (some (madeBlock env.m dt nmemb sizes))) (k 0) xs D' →
      FileWent env D (.create name dt nmemb sizes k) (.made 0 :: xs) D'
  | notMade (D D' : DBlocks) (name dt : CStr) (nmemb : Nat) (sizes : List Nat) (k : Int → FileSession) (xs : List FileAns) :
      FileWent env (D.put name none) (k (-1)) xs D' → FileWent env D (.create name dt nmemb sizes k) (.made (-1) :: xs) D'
  | step (D D' : DBlocks) (name : CStr) (op : BOp) (k : BAns → FileSession) (K : Kind) (S S1 : Durable) (x : BAns) (xs : List FileAns) :
      D name = some (K, S) → S.Outcome env K op x S1 → FileWent env (D.put name (some (K, S1))) (k x) xs D' →
      FileWent env D (.use name op k) (.used x :: xs) D'

/-- No operation answered with an error code (operations on attributes have answers of their own). -/
def FileSession.NoError : FileSession → List FileAns → Prop
  | .create _ _ _ _ k, .made rc :: xs => rc = 0 ∧ (k rc).NoError xs
  | .use _ op k, .used x :: xs => ((∃ a, op = .attr a) ∨ x.rc = 0) ∧ (k x).NoError xs
  | _, _ => True

/-- The answers and the states of all blocks at the end are those of a run in which nothing failed. -/
def FileSession.AsIf (env : Env) : FileSession → List FileAns → DBlocks → DBlocks → Prop
  | .stop, [], D, D' => D' = D
  | .create name dt nmemb sizes k, .made rc :: xs, D, D' => rc = 0 ∧
    (k rc).AsIf env xs (D.put name (some (madeBlock env.m dt nmemb sizes))) D'
  | .use name op k, .used x :: xs, D, D' => ∃ K S, D name = some (K, S) ∧ S.now.answers env K op x ∧
    (k x).AsIf env xs (D.put name (some (K, S.next env K op))) D'
  | _, _, _, _ => False

/-! ## Several processes -/

/-- The answers of an operation, one for each process. -/
inductive CommAns where
  | made (c : Nat → Int)
  | used (x : Nat → BAns)

/-- Run a collective program, and note the answers. -/
def runCommNoted (env : Env) (n : Nat) (bf : CStr) : SharedHandles → CommSession → Phases (List CommAns × SharedHandles)
  | hs, .stop => pure ([], hs)
  | hs, .create name dt nmemb sizes k => do
    let (c, o) ← mpiCreateBlock env n bf name (some dt) nmemb sizes
    let (xs, hs) ← runCommNoted env n bf (fun m => if m = name then o else hs m) (k c)
    pure (.made c :: xs, hs)
  | hs, .use name op k =>
    match hs name with
    | none => Phases.hang
    | some H => do
      let (x, H') ← runMOp env n H op
      let (xs, hs) ← runCommNoted env n bf (fun m => if m = name then some H' else hs m) (k x)
      pure (.used x :: xs, hs)

/-- The processes got the answers `xs`, and this took them from `D` to `D'`. -/
inductive CommWent (env : Env) (n : Nat) : DBlocks → CommSession → List CommAns → DBlocks → Prop
  | stop (D : DBlocks) : CommWent env n D .stop [] D
  | made (D D' : DBlocks) (name dt : CStr) (nmemb : Nat) (sizes : List Nat) (k : (Nat → Int) → CommSession) (c : Nat → Int) (xs : List CommAns) :
      AllMade n c → CommWent env n (D.put name (some (sharedMade env.m dt nmemb sizes))) (k c) xs D' →
      CommWent env n D (.create name dt nmemb sizes k) (.made c :: xs) D'
  | notMade (D D' : DBlocks) (name dt : CStr) (nmemb : Nat) (sizes : List Nat) (k : (Nat → Int) → CommSession) (c : Nat → Int) (xs : List CommAns) :
      NoneMade n c → CommWent env n (D.put name none) (k c) xs D' → CommWent env n D (.create name dt nmemb sizes k) (.made c :: xs) D'
  | step (D D' : DBlocks) (name : CStr) (op : MOp) (k : (Nat → BAns) → CommSession) (K : Kind) (S S1 : Durable) (x : Nat → BAns) (xs : List CommAns) :
      D name = some (K, S) → S.OutcomeAll env K n op x S1 → CommWent env n (D.put name (some (K, S1))) (k x) xs D' →
      CommWent env n D (.use name op k) (.used x :: xs) D'

/-- Process `r` saw no error code (operations on attributes have answers of their own). -/
def CommSession.NoError (r : Nat) : CommSession → List CommAns → Prop
  | .create _ _ _ _ k, .made c :: xs => c r = 0 ∧ (k c).NoError r xs
  | .use _ op k, .used x :: xs => ((∃ a, op = .attr a) ∨ (x r).rc = 0) ∧ (k x).NoError r xs
  | _, _ => True

/-- The answers of all processes and the states of all blocks at the end are those of a run in which nothing failed. -/
def CommSession.AsIf (env : Env) (n : Nat) : CommSession → List CommAns → DBlocks → DBlocks → Prop
  | .stop, [], D, D' => D' = D
  | .create name dt nmemb sizes k, .made c :: xs, D, D' => AllMade n c ∧
    (k c).AsIf env n xs (D.put name (some (sharedMade env.m dt nmemb sizes))) D'
  | .use name op k, .used x :: xs, D, D' => ∃ K S, D name = some (K, S) ∧ S.now.answersAll env K n op x ∧
    (k x).AsIf env n xs (D.put name (some (K, S.nextAll env K n op))) D'
  | _, _, _, _ => False

/-- No block is damaged. -/
def DBlocks.Whole (D : DBlocks) : Prop := ∀ m K S, D m = some (K, S) → S.attrsKnown = true ∧ S.whole = true

end Verif.Spec
