import Verif.Model.Block
/-!
# Sending a block handle to another process

Models `/repo/src/bigfile.c` lines 1793-1902. The fixed-size structs at the front of the two parts are
copied as they are (sender and receiver run the same program); their pointers are meaningless to the
receiver and are not part of the images here. The arrays are bytes.
-/

set_option autoImplicit false

namespace Verif

/-- The plain members of `struct BigBlock` (bigfile.h). (bigfile.h:24-40.) -/
structure BlockImage where
  dtype : CStr
  nmemb : Int
  size : Nat
  nfile : Nat
  dirty : Bool

/-- The plain members of `struct BigAttrSet` (bigfile.c:40-50). -/
structure AttrSetImage where
  dirty : Bool
  bufused : Nat
  bufsize : Nat
  listused : Nat
  listsize : Nat

/-- The message of `_big_block_pack`: the struct, the strings and arrays, and the packed attribute set (the
struct, the used part of the buffer, the entries). (bigfile.c:1838-1875.) -/
structure Packed where
  img : BlockImage
  body : List Byte
  aimg : AttrSetImage
  abuf : List Byte
  alist : List Attr

/-- The memory of an array of `w`-byte numbers. (bigfile.c:1838-1875.) -/
def encArr (m : Machine) (w : Nat) (xs : List Nat) : List Byte := xs.flatMap (natEnc m w)

/-- The first `n` numbers in memory. (bigfile.c:1877-1904.) -/
def decArr (m : Machine) (w : Nat) : Nat → List Byte → List Nat
  | 0, _ => []
  | n + 1, bs => natDec m (bs.take w) :: decArr m w n (bs.drop w)

/-- An array with room for `n` elements of which `xs` are in use; the allocation was zeroed. If there is no
array, the bytes of the message stay uninitialised (bigfile.c:1861-1869). -/
def packArr (env : Env) (w n : Nat) (xs : List Nat) (isNull : Bool) : List Byte :=
  if isNull then peek env.junk 0 (n * w)
  else encArr env.m w (xs ++ List.replicate (n - xs.length) 0)

/-- `_big_attrset_pack` (bigfile.c:1793-1818): the pointers of the entries become offsets. -/
def packAttrs (s : AttrSet) : AttrSetImage × List Byte × List Attr :=
  (⟨s.dirty, s.bufused, s.bufsize, s.list.length, s.listsize⟩, peek s.buf s.base s.bufused,
    s.list.map fun a => { a with data := a.data - s.base, name := a.name - s.base })

/-- `_big_attrset_unpack` (bigfile.c:1820-1839); the new buffer is at `env.heap bufsize`. -/
def unpackAttrs (env : Env) (img : AttrSetImage) (abuf : List Byte) (alist : List Attr) : AttrSet :=
  let nb := env.heap img.bufsize
  { dirty := img.dirty, base := nb, buf := poke env.junk nb (abuf.take img.bufused), bufused := img.bufused,
    bufsize := img.bufsize,
    list := (alist.take img.listused).map fun a => { a with data := a.data + nb, name := a.name + nb },
    listsize := img.listsize }

/-- `_big_block_pack` (bigfile.c:1841-1876). A block that only holds attributes has no arrays. -/
def blockPack (env : Env) (bb : Block) : Packed :=
  let n := bb.nfile + 1
  let null := bb.foffset.isEmpty
  let (aimg, abuf, alist) := packAttrs bb.attrset
  { img := ⟨bb.dtype, bb.nmemb, bb.size, bb.nfile, bb.dirty⟩
    body := bb.basename ++ [0] ++ packArr env 8 n bb.fsize null ++ packArr env 8 n bb.foffset null ++
      packArr env 4 n bb.fchecksum null
    aimg := aimg, abuf := abuf, alist := alist }

/-- `_big_block_unpack` (bigfile.c:1878-1904): all three arrays have room for one number more than there are
files. -/
def blockUnpack (env : Env) (p : Packed) : Block :=
  let n := p.img.nfile + 1
  let name := p.body.takeWhile (· ≠ 0)
  let t := p.body.drop (name.length + 1)
  { dtype := p.img.dtype, nmemb := p.img.nmemb, basename := strdup name, size := p.img.size,
    fsize := (decArr env.m 8 n t).take p.img.nfile,
    foffset := decArr env.m 8 n (t.drop (n * 8)),
    fchecksum := (decArr env.m 4 n (t.drop (n * 8 + n * 8))).take p.img.nfile,
    nfile := p.img.nfile, attrset := unpackAttrs env p.aimg p.abuf p.alist, dirty := p.img.dirty }

end Verif
