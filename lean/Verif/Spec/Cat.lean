import Verif.Spec.Copy
import Verif.Spec.Float
/-!
# Specification: printing rows
-/

set_option autoImplicit false

namespace Verif.Spec

open Verif

/-- The text of one element with these stored bytes: its value in machine byte order as `printf` prints it, up to the first NUL. -/
def elemText (env : Env) (dtype : CStr) (bytes : List Byte) : CStr :=
  (formatNative env (dtypeNormalize env.m (61 :: dtype.drop 1)) (toNative env.m dtype bytes)).takeWhile (· ≠ 0)

/-- One line per row: the elements, each followed by a blank. -/
def rowText (env : Env) (K : Kind) (bytes : List Byte) : CStr :=
  flatN (fun j => elemText env K.dtype ((bytes.drop (j * K.w)).take K.w) ++ b!" ") K.nm ++ b!"\n"

/-- Rows `p, ..., p+n-1` of a block, each shown by `render`. -/
def shownRows (render : List Byte → List Byte) (A : Content) (p n : Nat) : List Byte :=
  flatN (fun i => render ((A.rows (p + i)).getD [])) n

/-- The number of rows a user asks for: all from `start` on, or `count`, but no more than there are. -/
def wantedRows (A : Content) (start : Nat) : Option Nat → Nat
  | none => A.size - start
  | some count => min count (A.size - start)

/-- The number of rows shown when whole chunks of rows are printed, `perBuffer` of them at a time but no more than were asked for: the
number asked for, rounded up to chunks, but no more than there are. -/
def printedRows (A : Content) (start : Nat) (count : Option Nat) (perBuffer : Nat) : Nat :=
  min (A.size - start) ((wantedRows A start count + (min perBuffer (wantedRows A start count) - 1)) /
    min perBuffer (wantedRows A start count) * min perBuffer (wantedRows A start count))

/-- `ShownAs env dtype bytes text`: what a user expects to see of an element of this type with these stored bytes. Integers in decimal, characters as
they are, bytes of type `b1` as the number they stand for, floating point numbers as `printf` formats the number with these bits, and complex
numbers in machine byte order as real part, `+`, imaginary part, `I`. -/
inductive ShownAs (env : Env) : CStr → List Byte → CStr → Prop
  | int (t : IntTy) (o : Order) (bs : List Byte) : bs.length = t.width → ShownAs env (t.dtype o) bs (intStr (intVal o t bs))
  | char (o : Order) (c : Byte) : c ≠ 0 → ShownAs env (o.char :: b!"a1") [c] [c]
  | bool (o : Order) (c : Byte) : ShownAs env (o.char :: b!"b1") [c] (intStr (charVal env.m.charSigned c))
  | f4 (o : Order) (bs : List Byte) : bs.length = 4 → ShownAs env (o.char :: b!"f4") bs (env.fmtF4 (orderVal o bs))
  | f8 (o : Order) (bs : List Byte) : bs.length = 8 → ShownAs env (o.char :: b!"f8") bs (env.fmtF8 (orderVal o bs))
  | c8 (o : Order) (re im : List Byte) : o.char = env.m.endian → re.length = 4 → im.length = 4 → ShownAs env (o.char :: b!"c8") (re ++ im)
      (env.fmtF4 (orderVal o re) ++ b!"+" ++ env.fmtF4 (orderVal o im) ++ b!"I")
  | c16 (o : Order) (re im : List Byte) : o.char = env.m.endian → re.length = 8 → im.length = 8 → ShownAs env (o.char :: b!"c16") (re ++ im)
      (env.fmtF8 (orderVal o re) ++ b!"+" ++ env.fmtF8 (orderVal o im) ++ b!"I")

end Verif.Spec
