import Verif.Spec.Object
/-!
# Specification: what survives failures and kills

A session: a program works on an open block through one handle. Any file operation may fail, and the process may be
killed at any moment. The program sees the answers and may go on after failures.
-/

set_option autoImplicit false

namespace Verif.Spec

open Verif

/-- What the handle shows (`now`) and what a later session will find: `stored` is the size and number of files that the
header file records (`none`: not known, an interrupted flush may have damaged it), `attrsKnown` says that the attribute file
holds `now.saved` (an interrupted flush may have damaged it), `whole` that all data files exist. -/
structure Durable where
  now : Content
  stored : Option (Nat × Nat)
  attrsKnown : Bool
  whole : Bool

/-- A block that was just opened: everything is stored. -/
def Durable.opened (A : Content) : Durable := ⟨A, some (A.size, A.nfile), true, true⟩

/-- The rows `p, ..., p+n-1` hold nothing that can be relied on. -/
def Content.forget (A : Content) (p n : Nat) : Content :=
  { A with rows := fun r => if p ≤ r ∧ r < p + n then none else A.rows r }

/-- What an operation may do: everything of `Content` except reopening, which ends the session. (Closing is a flush after
which the program stops.) -/
def Durable.legal (env : Env) (K : Kind) (S : Durable) : BOp → Prop
  | .reopen => False
  | op => S.now.legal env K op

/-- A flush that worked: the header file records the present size, and the attributes are stored if there were new ones. -/
def Durable.flushed (S : Durable) : Durable :=
  { S with
    now := if S.now.pending then { S.now with saved := S.now.attrs, pending := false } else S.now
    stored := some (S.now.size, S.now.nfile)
    attrsKnown := S.attrsKnown || S.now.pending }

/-- A flush that could not write the attributes: the header file is complete, the attribute file is damaged, **and
nothing is regarded as pending any more**. -/
def Durable.attrsLost (S : Durable) : Durable :=
  { S with
    now := { S.now with pending := false }
    stored := some (S.now.size, S.now.nfile)
    attrsKnown := false }

/-- What an operation that worked does. -/
def Durable.next (env : Env) (K : Kind) (S : Durable) (op : BOp) : Durable :=
  match op with
  | .flush => S.flushed
  | op => { S with now := S.now.next env K op }

/-- The possible outcomes of an operation that returns: it is answered as it should and has done its work, or it reports a
failure. -/
inductive Durable.Outcome (env : Env) (K : Kind) (S : Durable) : BOp → BAns → Durable → Prop
  /-- It worked (or was refused because it does not fit the block). -/
  | done (op : BOp) (x : BAns) : S.now.answers env K op x → Outcome env K S op x (S.next env K op)
  /-- A failed write: its rows are lost, nothing else. Of the user's memory only the array can have changed. -/
  | write (p : Nat) (a : Arr) (mem : Mem) (sw : Nat) (x : BAns) : x.rc = -1 → p + a.size / K.nm ≤ S.now.size →
      (foreign env.m a.dtype = false → x.mem = mem) →
      (∀ y, ¬ InElems a sw 0 (a.size / K.nm * K.nm) y → x.mem y = mem y) →
      Outcome env K S (.write p a mem sw) x { S with now := S.now.forget p (a.size / K.nm) }
  /-- A failed read: nothing has changed but the array. -/
  | read (p : Nat) (a : Arr) (mem : Mem) (sw : Nat) (x : BAns) : x.rc = -1 →
      (∀ y, ¬ InElems a sw 0 (a.size / K.nm * K.nm) y → x.mem y = mem y) →
      Outcome env K S (.read p a mem sw) x S
  /-- A failed growing: the block has grown all the same, but files are missing. -/
  | grow (sizes : List Nat) (x : BAns) : x.rc = -1 →
      Outcome env K S (.grow sizes) x { S with now := S.now.next env K (.grow sizes), whole := false }
  /-- A failed flush: the header file may be damaged; the next flush will write it again. -/
  | flush (x : BAns) : x.rc = -1 → Outcome env K S .flush x { S with stored := none }
  /-- A failed flush: the attribute file may be damaged, and the next flush will not write it again. -/
  | attrs (x : BAns) : x.rc = -1 → S.now.pending = true → Outcome env K S .flush x S.attrsLost

/-- What may be found on disk if the process is killed during an operation. -/
inductive Durable.Killed (K : Kind) (S : Durable) : BOp → Durable → Prop
  | write (p : Nat) (a : Arr) (mem : Mem) (sw : Nat) : p + a.size / K.nm ≤ S.now.size →
      Killed K S (.write p a mem sw) { S with now := S.now.forget p (a.size / K.nm) }
  | read (p : Nat) (a : Arr) (mem : Mem) (sw : Nat) : Killed K S (.read p a mem sw) S
  | grow (sizes : List Nat) : Killed K S (.grow sizes) S
  | flush : Killed K S .flush { S with stored := none }
  | attrs : S.now.pending = true → Killed K S .flush S.attrsLost

/-- A program: it stops, or performs an operation and goes on depending on the answer. -/
inductive Session where
  | stop
  | call (op : BOp) (next : BAns → Session)

/-- Run a program through a handle. -/
def runSession (env : Env) : Block → Session → M Block
  | bb, .stop => pure bb
  | bb, .call op k => do
    let (x, bb) ← runBOp env bb op
    runSession env bb (k x)

/-- The program uses the block as it should, whatever fails: each operation is legal in each state that the earlier
outcomes allow. -/
def Session.Safe (env : Env) (K : Kind) : Session → Durable → Prop
  | .stop, _ => True
  | .call op k, S => S.legal env K op ∧ ∀ x S', S.Outcome env K op x S' → (k x).Safe env K S'

/-- Running the program from `S`, with any failures and kills, may leave `S'` behind. -/
inductive Leaves (env : Env) (K : Kind) : Durable → Session → Durable → Prop
  | stop (S : Durable) : Leaves env K S .stop S
  | killed (S S' : Durable) (op : BOp) (k : BAns → Session) : S.Killed K op S' → Leaves env K S (.call op k) S'
  | step (S S1 S' : Durable) (op : BOp) (x : BAns) (k : BAns → Session) : S.Outcome env K op x S1 → Leaves env K S1 (k x) S' →
      Leaves env K S (.call op k) S'

/-- The program never writes to row `r`. -/
def Session.Spares (K : Kind) (r : Nat) : Session → Prop
  | .stop => True
  | .call op k => (match op with
      | .write p a _ _ => ¬ (p ≤ r ∧ r < p + a.size / K.nm)
      | .reopen => False
      | _ => True) ∧ ∀ x, (k x).Spares K r

/-- The program never flushes. -/
def Session.NoFlush : Session → Prop
  | .stop => True
  | .call op k => (match op with
      | .flush => False
      | .reopen => False
      | _ => True) ∧ ∀ x, (k x).NoFlush

/-- What the next session finds when the header file records `n` rows in `k` files: the first `n` rows and the stored
attributes. -/
def Durable.recovered (S : Durable) (n k : Nat) : Content :=
  ⟨n, k, fun r => if r < n then S.now.rows r else none, S.now.saved, S.now.saved, false⟩

/-- A handle and the directory of its block are in the state `S`. -/
structure HoldsD (env : Env) (K : Kind) (bb : Block) (fs : FS) (S : Durable) : Prop where
  ok : BlockOk env bb K.w K.nm
  kind : dtypeNormalize env.m bb.dtype = K.dtype
  size : bb.size = S.now.size
  nfile : bb.nfile = S.now.nfile
  savable : Savable env bb
  attrs : attrView env.m bb.attrset = S.now.attrs
  pending : bb.attrset.dirty = S.now.pending
  tame : Tame env.m S.now.attrs ∧ (S.attrsKnown = true → Tame env.m S.now.saved)
  saved : S.attrsKnown = true → AttrsSay env fs bb.basename S.now.saved
  clean : bb.dirty = false → S.stored = some (S.now.size, S.now.nfile) ∧ HeaderSays fs bb
  header : ∀ n k, S.stored = some (n, k) → k ≤ bb.nfile ∧ n = (bb.fsize.take k).sum ∧ ∃ ck : List Nat, ck.length = k ∧
    (∀ c ∈ ck, c < 4294967296) ∧ HeaderSays fs { bb with nfile := k, fsize := bb.fsize.take k, fchecksum := ck }
  dir : DirOk fs bb.basename
  noOld : fs.node (fileKey bb.basename .attr) = none
  noDirs : ∀ f, fs.node (fileKey bb.basename (.data f)) ≠ some .dir
  data : S.whole = true → DataFiles fs bb
  rows : ∀ r bytes, S.now.rows r = some bytes → r < S.now.size ∧ row env.m fs bb r = bytes ∧ Stored env.m fs bb r

end Verif.Spec
