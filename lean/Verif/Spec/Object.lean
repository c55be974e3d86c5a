import Verif.Spec.Attr
import Verif.Spec.Disk
/-!
# Specification: a block as an array of rows with attributes

What a user who knows nothing about files, buffers and handles expects of a block.
-/

set_option autoImplicit false

namespace Verif.Spec

open Verif

/-- What a block holds: so many rows in so many files; for every row what was last written to it; the
attributes; the attributes on disk, and whether there are new ones to be stored. -/
structure Content where
  size : Nat
  nfile : Nat
  rows : Nat → Option (List Byte)
  attrs : AttrMap
  saved : AttrMap
  pending : Bool

/-- A new block with files of these sizes: no row was written, there are no attributes. -/
def Content.fresh (fsize : List Nat) : Content := ⟨fsize.sum, fsize.length, fun _ => none, AttrMap.empty, AttrMap.empty, false⟩

/-- An operation of a user. An array to write or to fill has elements of `sw` bytes and lives in the memory `mem`;
it is written to, or filled from, row `row` and the following rows. -/
inductive BOp where
  | write (row : Nat) (arr : Arr) (mem : Mem) (sw : Nat)
  | read (row : Nat) (arr : Arr) (mem : Mem) (sw : Nat)
  | grow (sizes : List Nat)
  | attr (op : AttrOp)
  | flush
  | reopen

/-- What the user gets: the return code, their memory, and for attribute operations the answer. -/
structure BAns where
  rc : Int
  mem : Mem
  attr : Option AttrAns

/-- The kind of block: its normalised dtype, the width of an element and the elements per row. -/
structure Kind where
  dtype : CStr
  w : Nat
  nm : Nat

/-- The conditions of `XferOk` that concern the array alone. -/
structure ArrayOk (env : Env) (a : Arr) (sw : Nat) : Prop where
  arr : ArrOk a
  asize : a.size < 9223372036854775808
  anorm : dtypeNormalize env.m a.dtype = a.dtype
  aitem : itemsize env.m a.dtype = sw
  aitem0 : 0 < sw
  abytes : a.size * sw < 18446744073709551616

/-- Element `e` of an array, in the dtype of the block. -/
def toBlock (env : Env) (K : Kind) (a : Arr) (mem : Mem) (sw e : Nat) : Option (List Byte) :=
  convElem env.m env.fo K.dtype a.dtype (peek mem (elemAddr a e) sw)

/-- Row `i` of an array, in the dtype of the block. -/
def arrayRow (env : Env) (K : Kind) (a : Arr) (mem : Mem) (sw i : Nat) : List Byte :=
  rowOfElems (fun e => (toBlock env K a mem sw e).getD []) K.nm i

/-- Element `j` of a row, in the dtype of an array. -/
def fromBlock (env : Env) (K : Kind) (a : Arr) (bytes : List Byte) (j : Nat) : Option (List Byte) :=
  convElem env.m env.fo a.dtype K.dtype ((bytes.drop (j * K.w)).take K.w)

/-- What the block holds after an operation. A write that does not fit changes nothing. Removing an attribute is
stored only together with a new one (see `C31_not_saved`). -/
def Content.next (env : Env) (K : Kind) (A : Content) : BOp → Content
  | .write row a mem sw =>
    if row + a.size / K.nm ≤ A.size then
      { A with rows := fun r =>
          if row ≤ r ∧ r < row + a.size / K.nm then some (arrayRow env K a mem sw (r - row)) else A.rows r }
    else A
  | .read .. => A
  | .grow sizes => { A with size := A.size + sizes.sum, nfile := A.nfile + sizes.length }
  | .attr op => { A with attrs := attrNext env.m A.attrs op, pending := A.pending || op.isSet }
  | .flush => if A.pending then { A with saved := A.attrs, pending := false } else A
  | .reopen => if A.pending then { A with saved := A.attrs, pending := false } else { A with attrs := A.saved }

/-- What the user must get when the block holds `A`. A write or read that does not fit is refused. -/
def Content.answers (env : Env) (K : Kind) (A : Content) : BOp → BAns → Prop
  | .write row a mem _, ans =>
    if row + a.size / K.nm ≤ A.size then ans.rc = 0 ∧ (foreign env.m a.dtype = false → ans.mem = mem)
    else ans.rc = -1 ∧ ans.mem = mem
  | .read row a mem sw, ans =>
    if row + a.size / K.nm ≤ A.size then
      ans.rc = 0 ∧
      (∀ i, i < a.size / K.nm → ∀ j, j < K.nm → ∃ bytes, A.rows (row + i) = some bytes ∧
        fromBlock env K a bytes j = some (peek ans.mem (elemAddr a (i * K.nm + j)) sw)) ∧
      ∀ y, ¬ InElems a sw 0 (a.size / K.nm * K.nm) y → ans.mem y = mem y
    else ans.rc = -1 ∧ ans.mem = mem
  | .grow _, ans => ans.rc = 0
  | .attr op, ans => ∃ x, ans.attr = some x ∧ AnsOk env.m env.fo A.attrs op x
  | .flush, ans => ans.rc = 0
  | .reopen, ans => ans.rc = 0

/-- The attributes can be stored, and are in machine byte order. -/
def Tame (m : Machine) (M : AttrMap) : Prop := ∀ name v, M name = some v → Storable name v ∧ Native m v

/-- What the user must observe. A write that fits needs a conversion for its elements, and if the array is not in
machine byte order its elements must not overlap. A read that fits must be of rows that were written. -/
def Content.legal (env : Env) (K : Kind) (A : Content) : BOp → Prop
  | .write row a mem sw => row < 9223372036854775808 ∧ ArrayOk env a sw ∧ (foreign env.m a.dtype = true → Disjoint a sw) ∧
    (row + a.size / K.nm ≤ A.size → ∀ e, e < a.size / K.nm * K.nm → (toBlock env K a mem sw e).isSome = true)
  | .read row a _ sw => row < 9223372036854775808 ∧ ArrayOk env a sw ∧ Disjoint a sw ∧
    convertible env.m env.fo a.dtype K.dtype = true ∧
    (row + a.size / K.nm ≤ A.size → ∀ i, i < a.size / K.nm → ∃ bytes, A.rows (row + i) = some bytes ∧
      ∀ j, j < K.nm → (fromBlock env K a bytes j).isSome = true)
  | .grow sizes => A.size + sizes.sum < 9223372036854775808 ∧ (A.size + sizes.sum) * (K.w * K.nm) < 9223372036854775808 ∧
    A.nfile + sizes.length ≤ 16777216
  | .attr op => LegalOp env.m env.fo A.attrs op ∧ Tame env.m (attrNext env.m A.attrs op)
  | .flush => True
  | .reopen => True

/-- The history of contents. -/
def Content.after (env : Env) (K : Kind) : Content → List BOp → Content
  | A, [] => A
  | A, op :: ops => (A.next env K op).after env K ops

/-- Every operation of a history is legal when it happens. -/
def Content.allLegal (env : Env) (K : Kind) : Content → List BOp → Prop
  | _, [] => True
  | A, op :: ops => A.legal env K op ∧ (A.next env K op).allLegal env K ops

/-- Every operation of a history was answered as it should. -/
def Content.allAnswered (env : Env) (K : Kind) : Content → List BOp → List BAns → Prop
  | _, [], [] => True
  | A, op :: ops, x :: xs => A.answers env K op x ∧ (A.next env K op).allAnswered env K ops xs
  | _, _, _ => False

/-- One operation through a handle: for transfers, a seek and the transfer; for `reopen`, close and open. -/
def runBOp (env : Env) (bb : Block) : BOp → M (BAns × Block)
  | .write row a mem _ => do
    let (rc, ptr) ← M.lift (seek bb ⟨0, 0, 0⟩ row)
    if rc ≠ 0 then pure (⟨rc, mem, none⟩, bb)
    else
      let x ← blockWrite env bb ptr a mem
      pure (⟨x.rc, x.mem, none⟩, x.bb)
  | .read row a mem _ => do
    let (rc, ptr) ← M.lift (seek bb ⟨0, 0, 0⟩ row)
    if rc ≠ 0 then pure (⟨rc, mem, none⟩, bb)
    else
      let x ← blockRead env bb ptr a mem
      pure (⟨x.rc, x.mem, none⟩, x.bb)
  | .grow sizes => do
    let (rc, bb') ← blockGrow bb sizes
    pure (⟨rc, env.junk, none⟩, bb')
  | .attr op => do
    let (x, s) ← M.lift (attrStep env bb.attrset op)
    pure (⟨x.rc, x.mem, some x⟩, { bb with attrset := s })
  | .flush => do
    let (rc, bb') ← blockFlush env bb
    pure (⟨rc, env.junk, none⟩, bb')
  | .reopen => do
    let (rc, rc', b) ← closeOpen env bb
    pure (⟨if rc ≠ 0 then rc else rc', env.junk, none⟩, b.getD bb)

/-- A history of operations. -/
def runBOps (env : Env) : Block → List BOp → M (List BAns × Block)
  | bb, [] => pure ([], bb)
  | bb, op :: ops => do
    let (x, bb) ← runBOp env bb op
    let (xs, bb) ← runBOps env bb ops
    pure (x :: xs, bb)

/-- The block directory of a handle holds the content `A`: the handle is consistent and storable, all data files are
there, written rows are stored, and what the handle regards as stored is on disk. There is no attribute file of the
old format. -/
structure Holds (env : Env) (K : Kind) (bb : Block) (fs : FS) (A : Content) : Prop where
  ok : BlockOk env bb K.w K.nm
  kind : dtypeNormalize env.m bb.dtype = K.dtype
  size : bb.size = A.size
  nfile : bb.nfile = A.nfile
  savable : Savable env bb
  attrs : attrView env.m bb.attrset = A.attrs
  pending : bb.attrset.dirty = A.pending
  tame : Tame env.m A.attrs ∧ (A.pending = false → Tame env.m A.saved)
  saved : A.pending = false → AttrsSay env fs bb.basename A.saved
  header : bb.dirty = false → HeaderSays fs bb
  dir : DirOk fs bb.basename
  noOld : fs.node (fileKey bb.basename .attr) = none
  noDirs : ∀ f, fs.node (fileKey bb.basename (.data f)) ≠ some .dir
  data : DataFiles fs bb
  rows : ∀ r bytes, A.rows r = some bytes → r < A.size ∧ row env.m fs bb r = bytes ∧ Stored env.m fs bb r

end Verif.Spec
