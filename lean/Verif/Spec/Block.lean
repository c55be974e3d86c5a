import Verif.Model.Block
import Verif.Spec.Array
/-!
# Specification: the rows of a block and where they live
-/

set_option autoImplicit false

namespace Verif.Spec

open Verif

/-- First row of file `f`: the number of rows in the files before it. -/
def start (fsize : List Nat) (f : Nat) : Nat := (fsize.take f).sum

/-- A consistent handle: one size and one checksum per file, offsets are the first rows of the files
(and the total after the last), the total fits a `ptrdiff_t` and checksums are 32-bit numbers. -/
structure Layout (bb : Block) : Prop where
  nfile : bb.fsize.length = bb.nfile
  nck : bb.fchecksum.length = bb.nfile
  foff : bb.foffset = (List.range (bb.nfile + 1)).map (start bb.fsize)
  size : bb.size = bb.fsize.sum
  small : bb.fsize.sum < 9223372036854775808
  ck32 : ∀ c ∈ bb.fchecksum, c < 4294967296

/-- The pointer denotes row `t`: it names an existing file (or file 0 of a block without files), its
start plus the in-file row is `t`, and unless `t` is the end of the block, that file contains row
`t`. -/
structure PointsTo (bb : Block) (ptr : Ptr) (t : Nat) : Prop where
  file : ptr.fileid < bb.nfile ∨ (bb.nfile = 0 ∧ ptr.fileid = 0)
  row : (start bb.fsize ptr.fileid : Int) + ptr.roffset = t
  nonneg : 0 ≤ ptr.roffset
  holds : t < bb.fsize.sum → t < start bb.fsize (ptr.fileid + 1)

/-- A 64-bit signed integer. -/
def IsI64 (x : Int) : Prop := -9223372036854775808 ≤ x ∧ x < 9223372036854775808

/-! ## Rows -/

/-- Which file holds row `r` of a block whose files have these sizes, and which row of that file it
is. -/
def locate : List Nat → Nat → Nat × Nat
  | [], r => (0, r)
  | s :: ss, r =>
    if r < s then (0, r)
    else ((locate ss (r - s)).1 + 1, (locate ss (r - s)).2)

/-- Bytes per row. -/
def rowSize (m : Machine) (bb : Block) : Nat := (itemsize m bb.dtype).toNat * bb.nmemb.toNat

/-- The file that holds row `r`. -/
def rowFile (bb : Block) (r : Nat) : Nat := (locate bb.fsize r).1

/-- Byte offset of row `r` in its file. -/
def rowOff (m : Machine) (bb : Block) (r : Nat) : Nat := (locate bb.fsize r).2 * rowSize m bb

/-- The stored bytes of row `r`; fewer than `rowSize` bytes if the file ends before. -/
def row (m : Machine) (fs : FS) (bb : Block) (r : Nat) : List Byte :=
  ((fs.bytes (fileKey bb.basename (.data (rowFile bb r)))).drop (rowOff m bb r)).take (rowSize m bb)

/-- Row `r` is completely stored. -/
def Stored (m : Machine) (fs : FS) (bb : Block) (r : Nat) : Prop :=
  (row m fs bb r).length = rowSize m bb

/-- Put bytes at the place of row `r`. -/
def putRow (m : Machine) (bb : Block) (fs : FS) (r : Nat) (bytes : List Byte) : FS :=
  fs.writeFile (fileKey bb.basename (.data (rowFile bb r))) (rowOff m bb r) bytes

/-- Put the rows `rows 0, ..., rows (n-1)` at rows `p, ..., p+n-1`, in this order. -/
def putRows (m : Machine) (bb : Block) (fs : FS) (p : Nat) (rows : Nat → List Byte) : Nat → FS
  | 0 => fs
  | n + 1 => putRow m bb (putRows m bb fs p rows n) (p + n) (rows n)

/-- The file system after writing some of the rows `p, ..., p+n-1`: the first `j` rows are complete, a
part of the next one may be there. -/
def Torn (m : Machine) (bb : Block) (fs fs' : FS) (p : Nat) (rows : Nat → List Byte) (n : Nat) : Prop :=
  ∃ j k, j ≤ n ∧ (j = n → k = 0) ∧
    fs' = putRow m bb (putRows m bb fs p rows j) (p + j) ((rows j).take k)

/-- Concatenation of `g 0, ..., g (n-1)`. -/
def flatN (g : Nat → List Byte) : Nat → List Byte
  | 0 => []
  | n + 1 => flatN g n ++ g n

/-- The path is a regular file. -/
def IsFile (fs : FS) (k : Key) : Prop := ∃ d, fs.node k = some (.file d)

/-- All data files of the block are there. -/
def DataFiles (fs : FS) (bb : Block) : Prop :=
  ∀ f, f < bb.nfile → IsFile fs (fileKey bb.basename (.data f))

/-- Sum of the bytes. -/
def byteSum (bs : List Byte) : Nat := (bs.map UInt8.toNat).sum

/-- Sum of the bytes of those rows `p, ..., p+n-1` that live in file `f`. -/
def rowsSum (bb : Block) (p : Nat) (rows : Nat → List Byte) (f : Nat) : Nat → Nat
  | 0 => 0
  | n + 1 => rowsSum bb p rows f n + if rowFile bb (p + n) = f then byteSum (rows n) else 0

end Verif.Spec
