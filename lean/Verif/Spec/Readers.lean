import Verif.Spec.Holes
import Verif.Model.Pack
/-!
# Specification: readers alongside a writer

One handle works on a block without restrictions. At any moment others open the block, read rows and attributes through
their own handles, flush (or close) them, or pass copies of them to other processes.
-/

set_option autoImplicit false

namespace Verif.Spec

open Verif

/-- What a reader knows: the rows and files there were when it opened the block, and the attributes that were stored
(less those that it has removed from its own list). -/
structure Snapshot where
  size : Nat
  nfile : Nat
  attrs : AttrMap

/-- What the block holds; the numbers of rows and of files that its header file records; the readers. -/
structure Watched where
  main : Holey
  stored : Nat × Nat
  readers : List Snapshot

/-- An operation of the writer, or another program opens the block, or reader `i` does something, or the handle of reader
`i` is packed and unpacked in another process, which makes a further reader. -/
inductive SharedOp where
  | main (op : BOp)
  | attach
  | reader (i : Nat) (op : BOp)
  | copy (i : Nat)

/-- The header file records what the block is like whenever the writer flushes or reopens. -/
def Watched.storedAfter (W : Watched) : BOp → Nat × Nat
  | .flush => (W.main.content.size, W.main.content.nfile)
  | .reopen => (W.main.content.size, W.main.content.nfile)
  | _ => W.stored

/-- What a reader sees of the rows: the present ones, but only as many as there were. -/
def Watched.seen (W : Watched) (s : Snapshot) : Holey := ⟨{ W.main.content with size := s.size }, W.main.sizes⟩

/-- After an operation of a reader. Only its own list of attributes can change. -/
def Snapshot.next (m : Machine) (s : Snapshot) : BOp → Snapshot
  | .attr op => { s with attrs := attrNext m s.attrs op }
  | _ => s

/-- After an operation. -/
def Watched.next (env : Env) (K : Kind) (W : Watched) : SharedOp → Watched
  | .main op => ⟨W.main.next env K op, W.storedAfter op, W.readers⟩
  | .attach => { W with readers := W.readers ++ [⟨W.stored.1, W.stored.2, W.main.content.saved⟩] }
  | .reader i op => match W.readers[i]? with
    | some s => { W with readers := W.readers.set i (s.next env.m op) }
    | none => W
  | .copy i => match W.readers[i]? with
    | some s => { W with readers := W.readers ++ [s] }
    | none => W

/-- A reader may read rows, look at attributes, remove attributes from its list, and flush. -/
def Watched.mayRead (env : Env) (K : Kind) (W : Watched) (s : Snapshot) : BOp → Prop
  | .read p a mem sw => (W.seen s).legal env K (.read p a mem sw)
  | .attr op => op.isSet = false ∧ LegalOp env.m env.fo s.attrs op
  | .flush => True
  | _ => False

/-- What a reader must get. -/
def Watched.shows (env : Env) (K : Kind) (W : Watched) (s : Snapshot) : BOp → BAns → Prop
  | .attr op, x => ∃ y, x.attr = some y ∧ AnsOk env.m env.fo s.attrs op y
  | op, x => (W.seen s).answers env K op x

/-- What the programs must observe. -/
def Watched.legal (env : Env) (K : Kind) (W : Watched) : SharedOp → Prop
  | .main op => W.main.legal env K op
  | .attach => True
  | .reader i op => ∃ s, W.readers[i]? = some s ∧ W.mayRead env K s op
  | .copy i => i < W.readers.length

/-- What the program that performs the operation must get. -/
def Watched.answers (env : Env) (K : Kind) (W : Watched) : SharedOp → BAns → Prop
  | .main op, x => W.main.answers env K op x
  | .attach, x => x.rc = 0
  | .reader i op, x => ∃ s, W.readers[i]? = some s ∧ W.shows env K s op x
  | .copy _, _ => True

/-- The history. -/
def Watched.after (env : Env) (K : Kind) : Watched → List SharedOp → Watched
  | W, [] => W
  | W, op :: ops => (W.next env K op).after env K ops

/-- Every operation of a history is legal when it happens. -/
def Watched.allLegal (env : Env) (K : Kind) : Watched → List SharedOp → Prop
  | _, [] => True
  | W, op :: ops => W.legal env K op ∧ (W.next env K op).allLegal env K ops

/-- Every operation of a history was answered as it should. -/
def Watched.allAnswered (env : Env) (K : Kind) : Watched → List SharedOp → List BAns → Prop
  | _, [], [] => True
  | W, op :: ops, x :: xs => W.answers env K op x ∧ (W.next env K op).allAnswered env K ops xs
  | _, _, _ => False

/-- The handle of the writer and those of the readers. -/
structure Handles where
  main : Block
  readers : List Block

/-- Run an operation: opening is `big_block_open`, copying is `_big_block_pack` and `_big_block_unpack`. -/
def runSharedOp (env : Env) (hs : Handles) : SharedOp → M (BAns × Handles)
  | .main op => do
    let (x, bb) ← runBOp env hs.main op
    pure (x, { hs with main := bb })
  | .attach => do
    let (rc, b) ← blockOpen env hs.main.basename
    pure (⟨rc, env.junk, none⟩, { hs with readers := hs.readers ++ b.toList })
  | .reader i op => match hs.readers[i]? with
    | some rb => do
      let (x, rb) ← runBOp env rb op
      pure (x, { hs with readers := hs.readers.set i rb })
    | none => pure (⟨-1, env.junk, none⟩, hs)
  | .copy i => match hs.readers[i]? with
    | some rb => pure (⟨0, env.junk, none⟩, { hs with readers := hs.readers ++ [blockUnpack env (blockPack env rb)] })
    | none => pure (⟨-1, env.junk, none⟩, hs)

/-- Run a history. -/
def runShared (env : Env) : Handles → List SharedOp → M (List BAns × Handles)
  | hs, [] => pure ([], hs)
  | hs, op :: ops => do
    let (x, hs) ← runSharedOp env hs op
    let (xs, hs) ← runShared env hs ops
    pure (x :: xs, hs)

end Verif.Spec
