import Verif.Spec.Blocks
import Verif.Spec.Shared
/-!
# Specification: a file of several blocks, shared by several processes

The processes of a communicator make blocks in a file, open, use and close them together, in any order. The file is a map
from names to blocks, and every block is an array of rows with attributes (`Spec/Shared.lean`).
-/

set_option autoImplicit false

namespace Verif.Spec

open Verif

/-- What the processes do together: make a block, open one, use one that is open, or close it. -/
inductive CommOp where
  | create (name dt : CStr) (nmemb : Nat) (sizes : List Nat)
  | openIt (name : CStr)
  | use (name : CStr) (op : MOp)
  | close (name : CStr)

/-- A block of the file: its kind, what it holds, and whether it is open. -/
structure SharedSlot where
  K : Kind
  A : Content
  live : Bool

/-- The blocks of the file, by name. -/
abbrev SharedBlocks := CStr → Option SharedSlot

/-- The handles of all processes, by name and rank. -/
abbrev SharedHandles := CStr → Option (Nat → Block)

/-- A new block. -/
def SharedSlot.fresh (m : Machine) (dt : CStr) (nmemb : Nat) (sizes : List Nat) : SharedSlot :=
  ⟨⟨dtypeNormalize m dt, (itemsize m dt).toNat, nmemb⟩, Content.fresh sizes, true⟩

/-- What the `n` processes do; the answer is one for each process. -/
def runCommOp (env : Env) (n : Nat) (bf : CStr) (hs : SharedHandles) : CommOp → Phases ((Nat → BAns) × SharedHandles)
  | .create name dt nmemb sizes => do
    let (c, o) ← mpiCreateBlock env n bf name (some dt) nmemb sizes
    pure (fun r => ⟨c r, env.junk, none⟩, fun m => if m = name then o else hs m)
  | .openIt name => do
    let (rc, o) ← Phases.alone (mpiOpenBlock env bf name)
    pure (fun _ => ⟨rc, env.junk, none⟩, fun m => if m = name then o else hs m)
  | .use name op =>
    match hs name with
    | none => Phases.hang
    | some H => do
      let (x, H') ← runMOp env n H op
      pure (x, fun m => if m = name then some H' else hs m)
  | .close name =>
    match hs name with
    | none => Phases.hang
    | some H => do
      let rc ← Phases.alone (mpiClose env n H)
      pure (fun _ => ⟨rc, env.junk, none⟩, fun m => if m = name then none else hs m)

/-- A history. -/
def runCommOps (env : Env) (n : Nat) (bf : CStr) : SharedHandles → List CommOp → Phases (List (Nat → BAns) × SharedHandles)
  | hs, [] => pure ([], hs)
  | hs, op :: ops => do
    let (x, hs) ← runCommOp env n bf hs op
    let (xs, hs) ← runCommOps env n bf hs ops
    pure (x :: xs, hs)

/-- What the blocks hold after an operation: only the block it names changes. -/
def SharedBlocks.next (env : Env) (n : Nat) (S : SharedBlocks) : CommOp → SharedBlocks
  | .create name dt nmemb sizes => fun m => if m = name then some (SharedSlot.fresh env.m dt nmemb sizes) else S m
  | .openIt name => fun m => if m = name then (S name).map fun s => { s with live := true } else S m
  | .use name op => fun m => if m = name then (S name).map fun s => { s with A := s.A.nextAll env s.K n op } else S m
  | .close name => fun m => if m = name then (S name).map fun s => { s with A := s.A.next env s.K .reopen, live := false } else S m

/-- After a history. -/
def SharedBlocks.after (env : Env) (n : Nat) : SharedBlocks → List CommOp → SharedBlocks
  | S, [] => S
  | S, op :: ops => (S.next env n op).after env n ops

/-- A block of this kind can be made by processes together and opened again. -/
structure MakeableAll (env : Env) (bf name dt : CStr) (nmemb : Nat) (sizes : List Nat) : Prop where
  noZero : (0 : Byte) ∉ mpiPath bf name
  length : (mpiPath bf name).length ≤ 8192
  notMeta : isMeta (pathJoin bf name) = false
  noBlank : hasBlank (pathJoin bf name) = false
  dtype : PlainDtype (dtypeNormalize env.m dt)
  item : 0 < itemsize env.m dt
  memb : 0 < nmemb
  rowBytes : (itemsize env.m dt).toNat * nmemb < 2147483648
  buffer : (itemsize env.m dt).toNat * nmemb ≤ env.chunkBytes
  nfile : sizes.length ≤ 16777216
  size : sizes.sum < 9223372036854775808
  bytes : sizes.sum * ((itemsize env.m dt).toNat * nmemb) < 9223372036854775808

/-- What the processes may do. A new block must have a directory of its own, and the disk, as it was at the start
(`fs0`), must have room for it. A block that is used or closed is open, one that is opened is not. -/
def SharedBlocks.legal (env : Env) (n : Nat) (bf : CStr) (fs0 : FS) (S : SharedBlocks) : CommOp → Prop
  | .create name dt nmemb sizes => MakeableAll env bf name dt nmemb sizes ∧ Room fs0 (pathJoin bf name) ∧
    ∀ m, m ≠ name → (S m).isSome = true → Apart (pathJoin bf m) (pathJoin bf name) ∧ Apart (pathJoin bf name) (pathJoin bf m)
  | .openIt name => ∃ s, S name = some s ∧ s.live = false
  | .use name op => ∃ s, S name = some s ∧ s.live = true ∧ s.A.legalAll env s.K n op ∧ op.procs n = n
  | .close name => ∃ s, S name = some s ∧ s.live = true

/-- Every operation is legal when it happens. -/
def SharedBlocks.allLegal (env : Env) (n : Nat) (bf : CStr) (fs0 : FS) : SharedBlocks → List CommOp → Prop
  | _, [] => True
  | S, op :: ops => S.legal env n bf fs0 op ∧ (S.next env n op).allLegal env n bf fs0 ops

/-- What the processes must get: making, opening and closing succeed everywhere; a use of a block is answered according
to what this block holds. -/
def SharedBlocks.answers (env : Env) (n : Nat) (S : SharedBlocks) : CommOp → (Nat → BAns) → Prop
  | .use name op, ans => ∃ s, S name = some s ∧ s.A.answersAll env s.K n op ans
  | _, ans => ∀ r, r < n → (ans r).rc = 0

/-- Every operation is answered as it must be. -/
def SharedBlocks.allAnswered (env : Env) (n : Nat) : SharedBlocks → List CommOp → List (Nat → BAns) → Prop
  | _, [], [] => True
  | S, op :: ops, x :: xs => S.answers env n op x ∧ (S.next env n op).allAnswered env n ops xs
  | _, _, _ => False

/-- What the processes may do with a new file if its names are plain. -/
def SharedBlocks.plainLegal (env : Env) (n : Nat) (bf : CStr) (S : SharedBlocks) : CommOp → Prop
  | .create name dt nmemb sizes => MakeableAll env bf name dt nmemb sizes ∧ PlainBlockName name
  | .openIt name => ∃ s, S name = some s ∧ s.live = false
  | .use name op => ∃ s, S name = some s ∧ s.live = true ∧ s.A.legalAll env s.K n op ∧ op.procs n = n
  | .close name => ∃ s, S name = some s ∧ s.live = true

/-- At every step. -/
def SharedBlocks.allPlainLegal (env : Env) (n : Nat) (bf : CStr) : SharedBlocks → List CommOp → Prop
  | _, [] => True
  | S, op :: ops => S.plainLegal env n bf op ∧ (S.next env n op).allPlainLegal env n bf ops

end Verif.Spec
