import Verif.Model.Copy
/-!
# `bigfile-create`

Models `/repo/utils/bigfile-create.c`, after the options have been read. The standard input is the list of bytes it will deliver.
-/

set_option autoImplicit false

namespace Verif

/-- The largest `size_t`: `size_t fsize[1] = {-1}` (bigfile-create.c:57). -/
def sizeMax : Nat := 18446744073709551615

/-- What `fread(buffer, size, n, stdin)` leaves (bigfile-create.c:73): the number of complete items, the bytes stored, the bytes still to be
read, and whether the end of the input was noticed. It is noticed when fewer bytes were there than asked for. -/
structure InRead where
  nread : Nat
  bytes : List Byte
  rest : List Byte
  eof : Bool

/-- `fread(buffer, size, n, stdin)` (bigfile-create.c:73). -/
def freadIn (size n : Nat) (input : List Byte) : InRead :=
  ⟨(input.take (size * n)).length / size, input.take (size * n), input.drop (size * n), decide (input.length < size * n)⟩

/-- The loop (bigfile-create.c:72-80), at most `fuel` rounds; `ptr` is `none` while it has not been set. The return codes of
`big_block_seek` and `big_block_write` are ignored. Result: the handle and `offset`. -/
def createLoop (env : Env) (rowbytes chunk : Nat) (buf : Int) :
    Nat → Block → Option Ptr → Nat → List Byte → Mem → M (Block × Nat)
  | 0, _, _, _, _, _ => M.hang
  | fuel + 1, bb, ptr, offset, input, mem => do
    let r := freadIn rowbytes chunk input
    let mem := poke mem buf r.bytes
    let a ← M.lift (arrayInit env.m buf bb.dtype [r.nread, u64 bb.nmemb] none)
    let (rc, p) ← M.lift (seek bb (ptr.getD ⟨0, 0, 0⟩) offset)
    if rc ≠ 0 ∧ ptr.isNone then M.ub
    else
      let x ← blockWrite env bb p a mem
      if r.eof then pure (x.bb, offset + r.nread)
      else createLoop env rowbytes chunk buf fuel x.bb (some x.ptr) (offset + r.nread) r.rest x.mem

/-- `main` of bigfile-create (bigfile-create.c:26-86): `nmemb` is the option `-n`, `buffersize` the option `-B`, `buf` the address of the
buffer allocated. The size of the block is set behind the library's back (81-82), and the return code of `big_block_close` is ignored. -/
def createMain (env : Env) (file block dtype : CStr) (nmemb : Int) (buffersize : Nat) (buf : Int) (input : List Byte) (mem : Mem) :
    M Exit := do
  let (rc, bf) ← bigFileCreate file
  if rc ≠ 0 then pure .failed
  else
    match (← createBlock env bf block (some dtype) nmemb [sizeMax]).2 with
    | none => pure .failed
    | some bb =>
      let rowbytes := bb.nmemb * itemsize env.m bb.dtype
      let chunk ← M.lift (if !fitsInt rowbytes || decide (rowbytes = 0) then none else some (buffersize / u64 rowbytes))
      let (bb, offset) ← createLoop env (u64 rowbytes) chunk buf (input.length + 2) bb none 0 input mem
      let _ ← blockClose env { bb with size := offset, fsize := bb.fsize.set 0 offset }
      pure .done

end Verif
