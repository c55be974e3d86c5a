import Verif.Spec.Shared
import Verif.Spec.Durable
import Verif.C.Withstands
/-!
# Specification: a shared block while file operations fail

Several processes work on an open block through their handles. File operations of any process may fail, and the processes
may be killed at any moment. The processes see the answers and may go on after failures. The states are those of
`Verif/Spec/Durable.lean`.
-/

set_option autoImplicit false

namespace Verif.Spec

open Verif

/-- What the processes may do: everything of `Content.legalAll` except reopening, which ends the session. An array that is
read to must be able to take any bytes of an element (after a failure the processes convert what the buffer happens to hold). -/
def Durable.legalAll (env : Env) (K : Kind) (n : Nat) (S : Durable) : MOp → Prop
  | .reopen _ => False
  | .read row arr mem sw concurrency threshold => S.now.legalAll env K n (.read row arr mem sw concurrency threshold) ∧
      ∀ r, r < n → 0 < rowsOf K arr r → ∀ bs : List Byte, bs.length = K.w →
        ∃ o, convElem env.m env.fo (arr r).dtype K.dtype bs = some o
  | op => S.now.legalAll env K n op

/-- What a collective operation that worked does. -/
def Durable.nextAll (env : Env) (K : Kind) (n : Nat) (S : Durable) (op : MOp) : Durable :=
  match op with
  | .flush => S.flushed
  | op => { S with now := S.now.nextAll env K n op }

/-- All processes got the same code, and it is not 0. -/
def AllFailed (n : Nat) (x : Nat → BAns) : Prop := ∃ e : Int, e ≠ 0 ∧ ∀ r, r < n → (x r).rc = e

/-- The possible outcomes of a collective operation that returns: every process is answered as it should and the work is done,
or every process gets the same error code. -/
inductive Durable.OutcomeAll (env : Env) (K : Kind) (n : Nat) (S : Durable) : MOp → (Nat → BAns) → Durable → Prop
  /-- It worked. -/
  | done (op : MOp) (x : Nat → BAns) : S.now.answersAll env K n op x → OutcomeAll env K n S op x (S.nextAll env K n op)
  /-- A failed write: its rows are lost, nothing else. -/
  | write (row : Nat) (arr : Nat → Arr) (mem : Nat → Mem) (sw : Nat → Nat) (concurrency : Int) (threshold : Nat) (x : Nat → BAns) :
      AllFailed n x →
      OutcomeAll env K n S (.write row arr mem sw concurrency threshold) x
        { S with now := S.now.forget row (rowsBefore (rowsOf K arr) n) }
  /-- A failed read: nothing has changed but the arrays. -/
  | read (row : Nat) (arr : Nat → Arr) (mem : Nat → Mem) (sw : Nat → Nat) (concurrency : Int) (threshold : Nat) (x : Nat → BAns) :
      AllFailed n x → OutcomeAll env K n S (.read row arr mem sw concurrency threshold) x S
  /-- A failed growing: the block has grown all the same, but files are missing. -/
  | grow (sizes : List Nat) (x : Nat → BAns) : AllFailed n x →
      OutcomeAll env K n S (.grow sizes) x { S with now := S.now.next env K (.grow sizes), whole := false }
  /-- A failed flush: the header file may be damaged; the next flush will write it again. -/
  | flush (x : Nat → BAns) : AllFailed n x → OutcomeAll env K n S .flush x { S with stored := none }
  /-- A failed flush: the attribute file may be damaged, and the next flush will not write it again. -/
  | attrs (x : Nat → BAns) : AllFailed n x → S.now.pending = true → OutcomeAll env K n S .flush x S.attrsLost

/-- What may be found on disk if the processes are killed during a collective operation. -/
inductive Durable.KilledAll (K : Kind) (n : Nat) (S : Durable) : MOp → Durable → Prop
  | write (row : Nat) (arr : Nat → Arr) (mem : Nat → Mem) (sw : Nat → Nat) (concurrency : Int) (threshold : Nat) :
      KilledAll K n S (.write row arr mem sw concurrency threshold) { S with now := S.now.forget row (rowsBefore (rowsOf K arr) n) }
  | read (row : Nat) (arr : Nat → Arr) (mem : Nat → Mem) (sw : Nat → Nat) (concurrency : Int) (threshold : Nat) :
      KilledAll K n S (.read row arr mem sw concurrency threshold) S
  | grow (sizes : List Nat) : KilledAll K n S (.grow sizes) S
  | attr (op : AttrOp) : KilledAll K n S (.attr op) S
  | flush : KilledAll K n S .flush { S with stored := none }
  | attrs : S.now.pending = true → KilledAll K n S .flush S.attrsLost

/-- A collective program: it stops, or the processes perform an operation together and go on depending on the answers. -/
inductive MSession where
  | stop
  | call (op : MOp) (next : (Nat → BAns) → MSession)

/-- Run a program through the handles of `n` processes. -/
def runMSession (env : Env) (n : Nat) : (Nat → Block) → MSession → Phases (Nat → Block)
  | H, .stop => pure H
  | H, .call op k => do
    let (x, H) ← runMOp env n H op
    runMSession env n H (k x)

/-- The program uses the block as it should, whatever fails: each operation is legal in each state that the earlier
outcomes allow. -/
def MSession.Safe (env : Env) (K : Kind) (n : Nat) : MSession → Durable → Prop
  | .stop, _ => True
  | .call op k, S => S.legalAll env K n op ∧ ∀ x S', S.OutcomeAll env K n op x S' → (k x).Safe env K n S'

/-- Running the program from `S`, with any failures and kills, may leave `S'` behind. -/
inductive LeavesAll (env : Env) (K : Kind) (n : Nat) : Durable → MSession → Durable → Prop
  | stop (S : Durable) : LeavesAll env K n S .stop S
  | killed (S S' : Durable) (op : MOp) (k : (Nat → BAns) → MSession) : S.KilledAll K n op S' → LeavesAll env K n S (.call op k) S'
  | step (S S1 S' : Durable) (op : MOp) (x : Nat → BAns) (k : (Nat → BAns) → MSession) : S.OutcomeAll env K n op x S1 →
      LeavesAll env K n S1 (k x) S' → LeavesAll env K n S (.call op k) S'

/-- The program never writes to row `q`. -/
def MSession.Spares (K : Kind) (n q : Nat) : MSession → Prop
  | .stop => True
  | .call op k => (match op with
      | .write row arr _ _ _ _ => ¬ (row ≤ q ∧ q < row + rowsBefore (rowsOf K arr) n)
      | .reopen _ => False
      | _ => True) ∧ ∀ x, (k x).Spares K n q

/-- The program never flushes. -/
def MSession.NoFlush : MSession → Prop
  | .stop => True
  | .call op k => (match op with
      | .flush => False
      | .reopen _ => False
      | _ => True) ∧ ∀ x, (k x).NoFlush

/-- The handle of one of the processes: like the handle `bb`, but for the checksums and for what is marked as not yet stored. -/
structure MateD (env : Env) (bb bb' : Block) : Prop where
  shape : SameShape bb bb'
  layout : Layout bb'
  attrs : WellAttrs env.m bb'.attrset
  view : attrView env.m bb'.attrset = attrView env.m bb.attrset

/-- The handles of `n` processes and the disk fit the state `S`: each handle is like one for which `HoldsD` says so; if that
one's header has to be stored, some process will do so, and process 0 knows whether attributes have to be stored. -/
def HoldsAllD (env : Env) (K : Kind) (n : Nat) (H : Nat → Block) (fs : FS) (S : Durable) : Prop :=
  0 < n ∧ n < 2147483648 ∧ ∃ bb, HoldsD env K bb fs S ∧ (0 : Byte) ∉ bb.basename ∧
    (bb.dirty = true → ∃ r, r < n ∧ (H r).dirty = true) ∧ (H 0).attrset.dirty = bb.attrset.dirty ∧
    ∀ r, r < n → MateD env bb (H r)

end Verif.Spec
