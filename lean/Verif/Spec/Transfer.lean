import Verif.Spec.Block
import Verif.Spec.Convert
/-!
# Specification: what a transfer needs and what rows it moves
-/

set_option autoImplicit false

namespace Verif.Spec

open Verif

/-- A legal transfer between a block and an array: the block is consistent, its item size `w` and
members per row `nm` are positive, a row fits an `int` and the transfer buffer, file offsets fit 63
bits; the array is usable and was initialised by `big_array_init` (normalised dtype), with item size
`sw`. -/
structure XferOk (env : Env) (bb : Block) (a : Arr) (w sw nm : Nat) : Prop where
  layout : Layout bb
  item : itemsize env.m bb.dtype = w
  item0 : 0 < w
  memb : bb.nmemb = nm
  memb0 : 0 < nm
  felInt : w * nm < 2147483648
  buf : w * nm ≤ env.chunkBytes
  bufMax : env.chunkBytes < 18446744073709551616
  offs : bb.fsize.sum * (w * nm) < 9223372036854775808
  arr : ArrOk a
  asize : a.size < 9223372036854775808
  anorm : dtypeNormalize env.m a.dtype = a.dtype
  aitem : itemsize env.m a.dtype = sw
  aitem0 : 0 < sw
  abytes : a.size * sw < 18446744073709551616

/-- The conditions of `XferOk` that concern the block alone. -/
structure BlockOk (env : Env) (bb : Block) (w nm : Nat) : Prop where
  layout : Layout bb
  item : itemsize env.m bb.dtype = w
  item0 : 0 < w
  memb : bb.nmemb = nm
  memb0 : 0 < nm
  felInt : w * nm < 2147483648
  buf : w * nm ≤ env.chunkBytes
  bufMax : env.chunkBytes < 18446744073709551616
  offs : bb.fsize.sum * (w * nm) < 9223372036854775808

/-- The array of a fresh buffer of `n` rows of `nm` elements of a dtype, `sw` bytes each. -/
def freshArr (m : Machine) (dt : CStr) (n nm sw : Nat) (buf : Int) : Arr :=
  { dtype := dtypeNormalize m dt, dims := [n, nm], strides := [(sw : Int) * nm, sw], size := n * nm,
    data := buf }

/-- The fields of a handle that say where rows live. -/
structure SameShape (bb bb' : Block) : Prop where
  dtype : bb'.dtype = bb.dtype
  nmemb : bb'.nmemb = bb.nmemb
  base : bb'.basename = bb.basename
  size : bb'.size = bb.size
  fsize : bb'.fsize = bb.fsize
  foffset : bb'.foffset = bb.foffset
  nfile : bb'.nfile = bb.nfile

/-- Row `i` made of the elements `out (i*nm), ..., out (i*nm+nm-1)`. -/
def rowOfElems (out : Nat → List Byte) (nm : Nat) (i : Nat) : List Byte :=
  flatN (fun j => out (i * nm + j)) nm

/-- A legal write: the array holds `a.size / nm` rows, the pointer denotes row `p`, the rows fit the
block, and element `e` of the array converts to the bytes `stored e` of the block's dtype. (If the
array is not in machine byte order its elements must not overlap each other.) -/
structure LegalWrite (env : Env) (bb : Block) (ptr : Ptr) (a : Arr) (mem : Mem) (p w sw nm : Nat)
    (stored : Nat → List Byte) : Prop where
  ok : XferOk env bb a w sw nm
  dis : foreign env.m a.dtype = true → Disjoint a sw
  points : PointsTo bb ptr p
  range : p + a.size / nm ≤ bb.size
  conv : ∀ e, e < a.size / nm * nm →
    convElem env.m env.fo (dtypeNormalize env.m bb.dtype) a.dtype (peek mem (elemAddr a e) sw) =
      some (stored e)

/-- Element `e` of the rows from row `p` on (`nm` elements of `w` bytes per row). -/
def elemOfRows (m : Machine) (fs : FS) (bb : Block) (p w nm : Nat) (e : Nat) : List Byte :=
  ((row m fs bb (p + e / nm)).drop (e % nm * w)).take w

/-- A legal read of `a.size / nm` rows from row `p` on, given the file system it happens in: element
`e` of the stored rows converts to the bytes `out e` of the array's dtype. -/
structure LegalRead (env : Env) (fs : FS) (bb : Block) (ptr : Ptr) (a : Arr) (p w sw nm : Nat)
    (out : Nat → List Byte) : Prop where
  ok : XferOk env bb a w sw nm
  points : PointsTo bb ptr p
  range : p + a.size / nm ≤ bb.size
  sup : convertible env.m env.fo a.dtype (dtypeNormalize env.m bb.dtype) = true
  conv : ∀ e, e < a.size / nm * nm → Stored env.m fs bb (p + e / nm) →
    convElem env.m env.fo a.dtype (dtypeNormalize env.m bb.dtype)
      (elemOfRows env.m fs bb p w nm e) = some (out e)

end Verif.Spec
