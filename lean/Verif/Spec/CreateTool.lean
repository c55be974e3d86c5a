import Verif.Spec.Copy
import Verif.Spec.Tree
/-!
# Specification: a block made of a stream of bytes
-/

set_option autoImplicit false

namespace Verif.Spec

open Verif

/-- Row `r` of a stream whose rows have `n` bytes. -/
def streamRow (input : List Byte) (n r : Nat) : List Byte := (input.drop (r * n)).take n

/-- The block that holds the complete rows of a stream, in one file and without attributes. -/
def streamContent (input : List Byte) (n : Nat) : Content :=
  ⟨input.length / n, 1, fun r => if r < input.length / n then some (streamRow input n r) else none, AttrMap.empty, AttrMap.empty, false⟩

/-- The call: names that can be used, on a disk with room for the block and without faults, a dtype, and rows of `wd * nm` bytes
that fit into the buffer of the library. -/
structure CreateOk (env : Env) (file block dtype : CStr) (wd nm : Nat) (w : World) : Prop where
  noFaults : w.faults = Verif.noFaults
  fmt : FmtOk env
  tree : TreeOk w.fs
  file0 : file ≠ []
  fileLen : file.length ≤ 8192
  room : Room w.fs (pathJoin file block)
  len : (pathJoin file block).length ≤ 8192
  notMeta : isMeta (pathJoin file block) = false
  noBlank : hasBlank (pathJoin file block) = false
  plain : PlainDtype dtype
  item : itemsize env.m dtype = wd
  item0 : 0 < wd
  memb0 : 0 < nm
  row : wd * nm < 2147483648
  chunk : wd * nm ≤ env.chunkBytes
  chunkMax : env.chunkBytes < 18446744073709551616

end Verif.Spec
