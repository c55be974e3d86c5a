import Verif.Spec.Object
import Verif.Spec.MpiBlock
import Verif.Model.MpiPhases
/-!
# Specification: a block shared by several processes

The block is the same array of rows with attributes as for one process (`Verif/Spec/Object.lean`). A collective
transfer writes or reads the arrays of all processes, one after the other in rank order.
-/

set_option autoImplicit false

namespace Verif.Spec

open Verif

/-- A collective operation of the processes of a communicator. Process `r` passes the array `arr r`, with elements of
`sw r` bytes, in its memory `mem r`; the arrays are written to, or filled from, row `row` and the following rows.
Attributes are set, removed and read by all processes alike, each on its own handle. The processes may close the block,
and then `n'` processes open it. -/
inductive MOp where
  | write (row : Nat) (arr : Nat → Arr) (mem : Nat → Mem) (sw : Nat → Nat) (concurrency : Int) (threshold : Nat)
  | read (row : Nat) (arr : Nat → Arr) (mem : Nat → Mem) (sw : Nat → Nat) (concurrency : Int) (threshold : Nat)
  | grow (sizes : List Nat)
  | attr (op : AttrOp)
  | flush
  | reopen (n' : Nat)

/-- The number of processes after an operation of `n` processes. -/
def MOp.procs (n : Nat) : MOp → Nat
  | .reopen n' => n'
  | _ => n

/-- The rows of process `r`: so many, of `nm` elements. -/
def rowsOf (K : Kind) (arr : Nat → Arr) (r : Nat) : Nat := (arr r).size / K.nm

/-- The rows of the arrays of `n` processes in rank order, in the dtype of the block. -/
def gathered (env : Env) (K : Kind) (n : Nat) (arr : Nat → Arr) (mem : Nat → Mem) (sw : Nat → Nat) : List (List Byte) :=
  (List.range n).flatMap fun r => (List.range (rowsOf K arr r)).map (arrayRow env K (arr r) (mem r) (sw r))

/-- What the block holds after an operation of `n` processes. -/
def Content.nextAll (env : Env) (K : Kind) (n : Nat) (A : Content) : MOp → Content
  | .write row arr mem sw _ _ =>
    { A with
      rows := fun q =>
        if row ≤ q ∧ q < row + rowsBefore (rowsOf K arr) n then some ((gathered env K n arr mem sw).getD (q - row) [])
        else A.rows q }
  | .read .. => A
  | .grow sizes => A.next env K (.grow sizes)
  | .attr op => A.next env K (.attr op)
  | .flush => A.next env K .flush
  | .reopen _ => A.next env K .reopen

/-- What the processes must get when the block holds `A`: process `r` gets `ans r`. -/
def Content.answersAll (env : Env) (K : Kind) (n : Nat) (A : Content) (op : MOp) (ans : Nat → BAns) : Prop :=
  ∀ r, r < n → match op with
    | .write _ arr mem sw _ _ => (ans r).rc = 0 ∧ SourceAfter env.m (arr r) (sw r) (mem r) (ans r).mem
    | .read row arr mem sw _ _ =>
      (ans r).rc = 0 ∧
      (∀ i, i < rowsOf K arr r → ∀ j, j < K.nm → ∃ bytes, A.rows (row + rowsBefore (rowsOf K arr) r + i) = some bytes ∧
        fromBlock env K (arr r) bytes j = some (peek (ans r).mem (elemAddr (arr r) (i * K.nm + j)) (sw r))) ∧
      ∀ y, ¬ InElems (arr r) (sw r) 0 (arr r).size y → (ans r).mem y = mem r y
    | .attr op => ∃ x, (ans r).attr = some x ∧ AnsOk env.m env.fo A.attrs op x
    | _ => (ans r).rc = 0

/-- The conditions on the array of one process: its first dimension is the number of its rows; if it has any, it is an
array as for `big_block_write`. -/
structure ShareOk (env : Env) (K : Kind) (a : Arr) (sw : Nat) : Prop where
  dims : a.dims.head? = some (a.size / K.nm)
  size : a.size = a.size / K.nm * K.nm
  strides : a.strides ≠ []
  arr : 0 < a.size / K.nm → ArrayOk env a sw

/-- What the processes must observe. All rows of a transfer fit the block and are fewer than `2^31`. -/
def Content.legalAll (env : Env) (K : Kind) (n : Nat) (A : Content) : MOp → Prop
  | .write row arr mem sw concurrency _ =>
    row + rowsBefore (rowsOf K arr) n ≤ A.size ∧ rowsBefore (rowsOf K arr) n < 2147483648 ∧ concurrency < 2147483648 ∧
    ∀ r, r < n → ShareOk env K (arr r) (sw r) ∧ (foreign env.m (arr r).dtype = true → Disjoint (arr r) (sw r)) ∧
      ∀ e, e < (arr r).size → (toBlock env K (arr r) (mem r) (sw r) e).isSome = true
  | .read row arr _ sw concurrency _ =>
    row + rowsBefore (rowsOf K arr) n ≤ A.size ∧ rowsBefore (rowsOf K arr) n < 2147483648 ∧ concurrency < 2147483648 ∧
    ∀ r, r < n → ShareOk env K (arr r) (sw r) ∧ Disjoint (arr r) (sw r) ∧
      (0 < rowsOf K arr r → convertible env.m env.fo (arr r).dtype K.dtype = true) ∧
      ∀ i, i < rowsOf K arr r → ∃ bytes, A.rows (row + rowsBefore (rowsOf K arr) r + i) = some bytes ∧
        ∀ j, j < K.nm → (fromBlock env K (arr r) bytes j).isSome = true
  | .grow sizes => A.legal env K (.grow sizes)
  | .attr op => A.legal env K (.attr op)
  | .flush => True
  | .reopen n' => 0 < n' ∧ n' < 2147483648

/-- The history of contents. -/
def Content.afterAll (env : Env) (K : Kind) : Nat → Content → List MOp → Content
  | _, A, [] => A
  | n, A, op :: ops => (A.nextAll env K n op).afterAll env K (op.procs n) ops

/-- Every operation of a history is legal when it happens. -/
def Content.allLegalAll (env : Env) (K : Kind) : Nat → Content → List MOp → Prop
  | _, _, [] => True
  | n, A, op :: ops => A.legalAll env K n op ∧ (A.nextAll env K n op).allLegalAll env K (op.procs n) ops

/-- Every operation of a history was answered as it should. -/
def Content.allAnsweredAll (env : Env) (K : Kind) : Nat → Content → List MOp → List (Nat → BAns) → Prop
  | _, _, [], [] => True
  | n, A, op :: ops, x :: xs => A.answersAll env K n op x ∧ (A.nextAll env K n op).allAnsweredAll env K (op.procs n) ops xs
  | _, _, _, _ => False

/-- The number of processes after a history. -/
def procsAfter : Nat → List MOp → Nat
  | n, [] => n
  | n, op :: ops => procsAfter (op.procs n) ops

/-- One operation of `n` processes with the handles `H`. -/
def runMOp (env : Env) (n : Nat) (H : Nat → Block) : MOp → Phases ((Nat → BAns) × (Nat → Block))
  | .write row arr mem _ concurrency threshold => do
    let out ← Phases.together n fun r => xferP env true n concurrency threshold r row (H r) (arr r) (mem r)
    pure (fun r => ⟨(out r).1, (out r).2.mem, none⟩, fun r => (out r).2.bb)
  | .read row arr mem _ concurrency threshold => do
    let out ← Phases.together n fun r => xferP env false n concurrency threshold r row (H r) (arr r) (mem r)
    pure (fun r => ⟨(out r).1, (out r).2.mem, none⟩, fun r => (out r).2.bb)
  | .grow sizes => do
    let (c, H') ← mpiGrow env n H sizes
    pure (fun r => ⟨c r, env.junk, none⟩, H')
  | .attr op => do
    let out ← Phases.together n fun r => Prog.lift (attrStep env (H r).attrset op)
    pure (fun r => ⟨(out r).1.rc, (out r).1.mem, some (out r).1⟩, fun r => { H r with attrset := (out r).2 })
  | .flush => do
    let (rc, H') ← Phases.alone (mpiFlush env n H)
    pure (fun _ => ⟨rc, env.junk, none⟩, H')
  | .reopen _ => do
    let rc ← Phases.alone (mpiClose env n H)
    let (rc', H') ← Phases.alone (mpiOpen env (H 0).basename)
    pure (fun _ => ⟨if rc ≠ 0 then rc else rc', env.junk, none⟩, H'.getD H)

/-- A history of collective operations. -/
def runMOps (env : Env) : Nat → (Nat → Block) → List MOp → Phases (List (Nat → BAns) × (Nat → Block))
  | _, H, [] => pure ([], H)
  | n, H, op :: ops => do
    let (x, H) ← runMOp env n H op
    let (xs, H) ← runMOps env (op.procs n) H ops
    pure (x :: xs, H)

/-- The handle of one of the processes: like the handle `bb`, but for the checksums and for whether it is dirty. -/
structure Mate (env : Env) (bb bb' : Block) : Prop where
  shape : SameShape bb bb'
  layout : Layout bb'
  attrs : WellAttrs env.m bb'.attrset
  view : attrView env.m bb'.attrset = attrView env.m bb.attrset
  pending : bb'.attrset.dirty = bb.attrset.dirty

/-- The handles of `n` processes, of a block that holds `A`: each is like one that would belong to the block as
`Holds` says; if that one's header had to be stored, some process will do so. -/
def HoldsAll (env : Env) (K : Kind) (n : Nat) (H : Nat → Block) (fs : FS) (A : Content) : Prop :=
  0 < n ∧ n < 2147483648 ∧ ∃ bb, Holds env K bb fs A ∧ (0 : Byte) ∉ bb.basename ∧
    (bb.dirty = true → ∃ r, r < n ∧ (H r).dirty = true) ∧ ∀ r, r < n → Mate env bb (H r)

/-- A user opens a block, works with it and closes it: one process on its own, or several processes together. -/
inductive Visit where
  | alone (ops : List BOp)
  | shared (n : Nat) (ops : List MOp)

/-- What a session gives: the code of the open or the close, and the answers. -/
inductive VAns where
  | one (rc : Int) (xs : List BAns)
  | many (rc : Int) (xs : List (Nat → BAns))

/-- What the block holds after a session. -/
def Content.afterVisit (env : Env) (K : Kind) (A : Content) : Visit → Content
  | .alone ops => (A.after env K ops).next env K .reopen
  | .shared n ops => (A.afterAll env K n ops).next env K .reopen

/-- What the users must observe in a session. -/
def Content.legalVisit (env : Env) (K : Kind) (A : Content) : Visit → Prop
  | .alone ops => A.allLegal env K ops
  | .shared n ops => 0 < n ∧ n < 2147483648 ∧ A.allLegalAll env K n ops

/-- What they must get. -/
def Content.answeredVisit (env : Env) (K : Kind) (A : Content) : Visit → VAns → Prop
  | .alone ops, .one rc xs => rc = 0 ∧ A.allAnswered env K ops xs
  | .shared n ops, .many rc xs => rc = 0 ∧ A.allAnsweredAll env K n ops xs
  | _, _ => False

/-- A session with the block `name` of the file `bf`. -/
def runVisit (env : Env) (bf name : CStr) : Visit → Phases VAns
  | .alone ops => Phases.alone do
    match ← openBlock env bf name with
    | (0, some b) => do
      let (xs, b) ← runBOps env b ops
      let rc ← blockClose env b
      pure (.one rc xs)
    | (rc, _) => pure (.one rc [])
  | .shared n ops => do
    match ← Phases.alone (mpiOpenBlock env bf name) with
    | (0, some H) => do
      let (xs, H) ← runMOps env n H ops
      let rc ← Phases.alone (mpiClose env (procsAfter n ops) H)
      pure (.many rc xs)
    | (rc, _) => pure (.many rc [])

/-- Sessions one after another. -/
def runVisits (env : Env) (bf name : CStr) : List Visit → Phases (List VAns)
  | [] => pure []
  | s :: ss => do
    let x ← runVisit env bf name s
    let xs ← runVisits env bf name ss
    pure (x :: xs)

/-- What the block holds after the sessions. -/
def Content.afterVisits (env : Env) (K : Kind) : Content → List Visit → Content
  | A, [] => A
  | A, s :: ss => (A.afterVisit env K s).afterVisits env K ss

/-- Every session is legal when it happens. -/
def Content.legalVisits (env : Env) (K : Kind) : Content → List Visit → Prop
  | _, [] => True
  | A, s :: ss => A.legalVisit env K s ∧ (A.afterVisit env K s).legalVisits env K ss

/-- Every session was answered as it should. -/
def Content.answeredVisits (env : Env) (K : Kind) : Content → List Visit → List VAns → Prop
  | _, [], [] => True
  | A, s :: ss, x :: xs => A.answeredVisit env K s x ∧ (A.afterVisit env K s).answeredVisits env K ss xs
  | _, _, _ => False

end Verif.Spec
