import Verif.Model.Array
/-!
# Conversion of elements

Models `/repo/src/bigfile.c` lines 1250-1428: `dtype_convert_simple`, `_dtype_convert`,
`byte_swap`, `cast`, `sysvsum`.
-/

set_option autoImplicit false

namespace Verif

/-- Little-endian bytes of `n`, `w` of them. (bigfile.c:1293-1331: numbers in memory.) -/
def leEnc : Nat → Nat → List Byte
  | 0, _ => []
  | w + 1, n => UInt8.ofNat (n % 256) :: leEnc w (n / 256)

/-- Value of little-endian bytes. (bigfile.c:1293-1331: numbers in memory.) -/
def leDec : List Byte → Nat
  | [] => 0
  | b :: bs => b.toNat + 256 * leDec bs

/-- Native representation of `n` in `w` bytes. (bigfile.c:1293-1331: numbers in memory.) -/
def natEnc (m : Machine) (w n : Nat) : List Byte := if m.le then leEnc w n else (leEnc w n).reverse

/-- Value of a native representation. (bigfile.c:1293-1331: numbers in memory.) -/
def natDec (m : Machine) (bs : List Byte) : Nat := if m.le then leDec bs else leDec bs.reverse

/-- Floating point conversions of the C compiler, on bit patterns. Uninterpreted: nothing is
assumed about them. `intOfF4`/`intOfF8` truncate toward zero (`none` for NaN and infinities).
(bigfile.c:1315-1332, 1361-1414.) -/
structure FloatOps where
  f4OfInt : Int → Nat
  f8OfInt : Int → Nat
  f8OfF4 : Nat → Nat
  f4OfF8 : Nat → Nat
  intOfF4 : Nat → Option Int
  intOfF8 : Nat → Option Int

/-- The numeric types of the `CAST` table (bigfile.c:1361-1408). -/
inductive Num where
  | i4 | u4 | i8 | u8 | f4 | f8 | b1
  deriving DecidableEq, Repr

/-- The name of a numeric type as it appears in `dtype + 1`. (bigfile.c:1315-1332, 1361-1414.) -/
def Num.ofName (s : CStr) : Option Num :=
  if s = b!"i4" then some .i4
  else if s = b!"u4" then some .u4
  else if s = b!"i8" then some .i8
  else if s = b!"u8" then some .u8
  else if s = b!"f4" then some .f4
  else if s = b!"f8" then some .f8
  else if s = b!"b1" then some .b1
  else none

/-- `sizeof` of the C type of the table. (bigfile.c:1315-1332, 1361-1414.) -/
def Num.width : Num → Nat
  | .i4 => 4 | .u4 => 4 | .i8 => 8 | .u8 => 8 | .f4 => 4 | .f8 => 8 | .b1 => 1

/-- A C value read from memory: an integer or a floating point bit pattern. (bigfile.c:1315-1332, 1361-1414.) -/
inductive Val where
  | int (x : Int)
  | f4 (bits : Nat)
  | f8 (bits : Nat)

/-- Reading `*p2` with the C type of the source. (bigfile.c:1315-1332, 1361-1414.) -/
def Num.load (m : Machine) (t : Num) (bs : List Byte) : Val :=
  let n := natDec m bs
  match t with
  | .i4 => .int (i32 n)
  | .u4 => .int n
  | .i8 => .int (i64 n)
  | .u8 => .int n
  | .f4 => .f4 n
  | .f8 => .f8 n
  | .b1 => .int (if m.charSigned && decide (128 ≤ n) then (n : Int) - 256 else n)

/-- An out-of-range conversion from floating point to integer is undefined (C11 6.3.1.4).
(bigfile.c:1315-1332, 1361-1414.) -/
def inRange (lo hi x : Int) : Option Int := if lo ≤ x ∧ x < hi then some x else none

/-- The integer value that is stored in an integer target: integers convert modulo the width,
floating point values are truncated and must be in range. (bigfile.c:1315-1332, 1361-1414.) -/
def Val.toInt (fo : FloatOps) (lo hi : Int) : Val → Option Int
  | .int x => some x
  | .f4 b => (fo.intOfF4 b).bind (inRange lo hi)
  | .f8 b => (fo.intOfF8 b).bind (inRange lo hi)

/-- `*p1 = *p2` with the C type of the destination; `none` is undefined behaviour. `b1` is never
a destination of a conversion. (bigfile.c:1315-1332, 1361-1414.) -/
def Num.store (m : Machine) (fo : FloatOps) (t : Num) (v : Val) : Option (List Byte) :=
  match t with
  | .i4 => (v.toInt fo (-2147483648) 2147483648).map fun x => natEnc m 4 (u32 x)
  | .u4 => (v.toInt fo 0 4294967296).map fun x => natEnc m 4 (u32 x)
  | .i8 => (v.toInt fo (-9223372036854775808) 9223372036854775808).map fun x => natEnc m 8 (u64 x)
  | .u8 => (v.toInt fo 0 18446744073709551616).map fun x => natEnc m 8 (u64 x)
  | .f4 => some <| natEnc m 4 <| match v with
    | .int x => fo.f4OfInt x
    | .f4 b => b
    | .f8 b => fo.f4OfF8 b
  | .f8 => some <| natEnc m 8 <| match v with
    | .int x => fo.f8OfInt x
    | .f4 b => fo.f8OfF4 b
    | .f8 b => b
  | .b1 => none

/-- One entry of the conversion table: how wide the source and destination elements are and how
one native element is turned into another. (bigfile.c:1315-1332, 1361-1414.) -/
structure CastFn where
  sw : Nat
  dw : Nat
  f : List Byte → Option (List Byte)

/-- The conversion table of `cast` (bigfile.c:1361-1414) for two different type names
(`dtype + 1`); `none` is "Unsupported conversion". -/
def castTable (m : Machine) (fo : FloatOps) (dst src : CStr) : Option CastFn :=
  match Num.ofName dst, Num.ofName src with
  | some .b1, _ => none
  | some d, some s => some ⟨s.width, d.width, fun bs => d.store m fo (s.load m bs)⟩
  | _, _ =>
    if dst = b!"c8" ∧ src = b!"c16" then
      some ⟨16, 8, fun bs =>
        some (natEnc m 4 (fo.f4OfF8 (natDec m (bs.take 8))) ++
              natEnc m 4 (fo.f4OfF8 (natDec m (bs.drop 8))))⟩
    else if dst = b!"c16" ∧ src = b!"c8" then
      some ⟨8, 16, fun bs =>
        some (natEnc m 8 (fo.f8OfF4 (natDec m (bs.take 4))) ++
              natEnc m 8 (fo.f8OfF4 (natDec m (bs.drop 4))))⟩
    else none

/-- The element loop of `cast` (bigfile.c:1315-1332 and 1352-1357): read one element, convert it,
store it, advance both iterators. -/
def castLoop (c : CastFn) : Nat → Iter → Iter → Mem → Mem → Option (Iter × Iter × Mem)
  | 0, di, si, dm, _ => some (di, si, dm)
  | n + 1, di, si, dm, sm =>
    match c.f (peek sm si.ptr c.sw) with
    | none => none
    | some bs =>
      match iterAdvance di, iterAdvance si with
      | some di', some si' => castLoop c n di' si' (poke dm di.ptr bs) sm
      | _, _ => none

/-- Result of `cast` and `_dtype_convert`: return code, both iterators and both memories.
(bigfile.c:1264-1290, 1333-1417.) -/
structure ConvOut where
  rc : Int
  di : Iter
  si : Iter
  dm : Mem
  sm : Mem

/-- `cast` (bigfile.c:1333-1418). The destination and the source live in different memory
objects (the C code uses `memcpy`, so overlap is excluded there too). -/
def cast (m : Machine) (fo : FloatOps) (di si : Iter) (n : Nat) (dm sm : Mem) : Option ConvOut :=
  if di.arr.dtype.drop 1 = si.arr.dtype.drop 1 then
    if di.contiguous && si.contiguous then
      match di.arr.strides.getLast?, si.arr.strides.getLast? with
      | some ds, some ss =>
        let len := u64 (n * ds)
        some ⟨0, { di with ptr := di.ptr + n * ds }, { si with ptr := si.ptr + n * ss },
          poke dm di.ptr (peek sm si.ptr len), sm⟩
      | _, _ => none
    else
      let el := (itemsize m di.arr.dtype).toNat
      match castLoop ⟨el, el, some⟩ n di si dm sm with
      | some (di', si', dm') => some ⟨0, di', si', dm', sm⟩
      | none => none
  else
    match castTable m fo (di.arr.dtype.drop 1) (si.arr.dtype.drop 1) with
    | none => some ⟨-1, di, si, dm, sm⟩
    | some c =>
      match castLoop c n di si dm sm with
      | some (di', si', dm') => some ⟨0, di', si', dm', sm⟩
      | none => none

/-- The inner loop of `byte_swap` (bigfile.c:1306-1310): exchange bytes `j` and `elsize-j-1` for
`j` from `j0` on, `k` times. -/
def swapBytes (m : Mem) (ptr : Int) (el : Int) : Nat → Nat → Mem
  | _, 0 => m
  | j, k + 1 =>
    let tmp := m (ptr + j)
    let m1 : Mem := fun x => if x = ptr + j then m (ptr + (el - j - 1)) else m x
    let m2 : Mem := fun x => if x = ptr + (el - j - 1) then tmp else m1 x
    swapBytes m2 ptr el (j + 1) k

/-- The outer loop of `byte_swap` (bigfile.c:1303-1312). -/
def byteSwapLoop (el : Int) : Nat → Iter → Mem → Option Mem
  | 0, _, mem => some mem
  | n + 1, it, mem =>
    match iterAdvance it with
    | none => none
    | some it' => byteSwapLoop el n it' (swapBytes mem it.ptr el 0 (el / 2).toNat)

/-- `byte_swap` (bigfile.c:1293-1313). -/
def byteSwap (m : Machine) (it : Iter) (n : Nat) (mem : Mem) : Option Mem :=
  let el := itemsize m it.arr.dtype
  if el = 1 then some mem else byteSwapLoop el n it mem

/-- `_dtype_convert` (bigfile.c:1264-1290). The source is byte-swapped in place when its byte
order is not the machine's, and it is not swapped back. -/
def dtypeConvert (m : Machine) (fo : FloatOps) (di si : Iter) (n : Nat) (dm sm : Mem) :
    Option ConvOut :=
  let sm1? := if charAt si.arr.dtype 0 ≠ m.endian then byteSwap m si n sm else some sm
  match sm1? with
  | none => none
  | some sm1 =>
    match cast m fo di si n dm sm1 with
    | none => none
    | some r =>
      if r.rc ≠ 0 then some ⟨-1, di, si, r.dm, sm1⟩
      else
        let dm2? := if charAt di.arr.dtype 0 ≠ m.endian then byteSwap m di n r.dm else some r.dm
        match dm2? with
        | none => none
        | some dm2 => some ⟨0, r.di, r.si, dm2, sm1⟩

/-- `dtype_convert_simple` (bigfile.c:1250-1260): two one-dimensional contiguous arrays. Result:
return code, destination memory, source memory. -/
def convertSimple (m : Machine) (fo : FloatOps) (dst : Int) (ddt : CStr) (src : Int) (sdt : CStr)
    (n : Nat) (dm sm : Mem) : Option (Int × Mem × Mem) :=
  match arrayInit m dst ddt [n] none, arrayInit m src sdt [n] none with
  | some da, some sa =>
    match dtypeConvert m fo (iterInit m da) (iterInit m sa) n dm sm with
    | some r => some (r.rc, r.dm, r.sm)
    | none => none
  | _, _ => none

/-- `sysvsum` (bigfile.c:1420-1428): add the bytes to a 32-bit sum. -/
def sysvsum (sum : Nat) (bs : List Byte) : Nat :=
  bs.foldl (fun s b => u32 ((s + b.toNat : Nat) : Int)) sum

end Verif
