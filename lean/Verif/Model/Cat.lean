import Verif.Model.Copy
/-!
# `bigfile-cat`

Models `/repo/utils/bigfile-cat.c`, after the options have been read. The standard output is the list of bytes written to it;
failures of writing to it are not modelled (the program does not look at them).
-/

set_option autoImplicit false

namespace Verif

/-- The binary output of one chunk (bigfile-cat.c:94-95). -/
def catBinary (env : Env) (bb : Block) (a : Arr) (mem : Mem) : Option (List Byte × Mem) :=
  some (peek mem a.data (a.size * (itemsize env.m bb.dtype).toNat), mem)

/-- The elements of one row as text (bigfile-cat.c:103-107), `k` of them: the text, the memory (printing an element of foreign byte
order swaps its bytes in place) and the iterator. `big_file_dtype_format` converts the element in a buffer of 128 bytes
(bigfile.c:1172); a larger one is undefined behaviour. Only the default format is modelled (not the option `-f`). -/
def catRow (env : Env) (dtype : CStr) : Nat → Iter → Mem → Option (List Byte × Mem × Iter)
  | 0, it, mem => some ([], mem, it)
  | k + 1, it, mem =>
    if 128 < itemsize env.m dtype then none
    else
      match dtypeFormat env dtype it.ptr mem with
      | none => none
      | some (t, mem) =>
        match iterAdvance it with
        | none => none
        | some it => (catRow env dtype k it mem).map fun r => (t.takeWhile (· ≠ 0) ++ b!" " ++ r.1, r.2)

/-- The loop over the rows of a chunk (bigfile-cat.c:101-109), `n` rows of `nmemb` elements. -/
def catRows (env : Env) (dtype : CStr) (nmemb : Nat) : Nat → Iter → Mem → Option (List Byte × Mem)
  | 0, _, mem => some ([], mem)
  | n + 1, it, mem =>
    match catRow env dtype nmemb it mem with
    | none => none
    | some (t, mem, it) => (catRows env dtype nmemb n it mem).map fun r => (t ++ b!"\n" ++ r.1, r.2)

/-- The text output of one chunk (bigfile-cat.c:97-109). -/
def catText (env : Env) (bb : Block) (a : Arr) (mem : Mem) : Option (List Byte × Mem) :=
  catRows env a.dtype bb.nmemb.toNat (a.dims.headD 0) (iterInit env.m a) mem

/-- The loop over chunks (bigfile-cat.c:86-115), at most `fuel` rounds; `out` is what has been printed. The comparison of `chunksize`
with `size` is unsigned. -/
def catLoop (env : Env) (bb : Block) (print : Arr → Mem → Option (List Byte × Mem)) (size stop : Int) (buf : Int) :
    Nat → Nat → Int → Mem → List Byte → M (Exit × List Byte)
  | 0, _, _, _, _ => M.hang
  | fuel + 1, chunk, offset, mem, out =>
    if offset < stop then do
      let chunk := if chunk > u64 size then u64 size else chunk
      let (_, arr, mem) ← readSimple env bb offset (i64 chunk) none buf mem
      match arr with
      | none => pure (.failed, out)
      | some a =>
        let (o, mem) ← M.lift (print a mem)
        catLoop env bb print size stop buf fuel chunk (offset + a.dims.headD 0) mem (out ++ o)
    else pure (.done, out)

/-- From the adjustment of `size` on (bigfile-cat.c:71-115). The sum `size + start` is signed, its comparison with `bb.size`
unsigned. -/
def catData (env : Env) (bb : Block) (print : Arr → Mem → Option (List Byte × Mem)) (start size : Int) (buffersize : Nat) (buf : Int)
    (mem : Mem) : M (Exit × List Byte) := do
  let _ ← M.lift (if size ≠ -1 ∧ ¬ (-9223372036854775808 ≤ size + start ∧ size + start < 9223372036854775808) then none else some ())
  let size := if size = -1 ∨ bb.size < u64 (size + start) then i64 (bb.size - start) else size
  let rowbytes := bb.nmemb * itemsize env.m bb.dtype
  let chunk ← M.lift (if !fitsInt rowbytes || decide (rowbytes = 0) then none else some (buffersize / u64 rowbytes))
  catLoop env bb print size (start + size) buf ((start + size - start).toNat + 1) chunk start mem []

/-- `main` of bigfile-cat (bigfile-cat.c:30-122) with the options `-b` (`binary`), `-o` (`start`), `-c` (`size`, -1 if not given) and
`-B`. `buf` is the address of the buffers that `big_block_read_simple` allocates. -/
def catMain (env : Env) (file block : CStr) (binary : Bool) (start size : Int) (buffersize : Nat) (buf : Int) (mem : Mem) :
    M (Exit × List Byte) := do
  let (rc, bf) ← bigFileOpen file
  if rc ≠ 0 then pure (.failed, [])
  else
    match (← openBlock env bf block).2 with
    | none => pure (.failed, [])
    | some bb =>
      let (e, out) ← catData env bb (if binary then catBinary env bb else catText env bb) start size buffersize buf mem
      if e ≠ .done then pure (e, out)
      else
        let _ ← blockClose env bb
        pure (.done, out)

end Verif
