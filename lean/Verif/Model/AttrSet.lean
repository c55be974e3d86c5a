import Verif.Model.Convert
import Verif.Model.Path
/-!
# Attribute sets

Models `/repo/src/bigfile.c` lines 40-50 and 1430-1792: storage of attributes in one growing
buffer with absolute pointers into it, the sorted list, the two file formats.
-/

set_option autoImplicit false

namespace Verif

/-- Everything the program depends on besides its arguments and the file system: the machine, the
compiler's floating point conversions, libc's `%g`, the size of the transfer buffer
(`CHUNK_BYTES`, bigfile.c:36), the addresses returned by `realloc` and the contents of
freshly allocated memory. -/
structure Env where
  m : Machine
  fo : FloatOps
  fmtF4 : Nat → CStr
  fmtF8 : Nat → CStr
  chunkBytes : Nat
  heap : Nat → Int
  junk : Mem

/-- `struct BigAttr` (bigfile.h:14-20): name and data are pointers. -/
structure Attr where
  nmemb : Int
  dtype : CStr
  name : Int
  data : Int
  deriving DecidableEq, Repr

/-- `struct BigAttrSet` (bigfile.c:40-50). `listused` is the length of `list`; `base` is the
address of `attrbuf`, `buf` the memory it points into. -/
structure AttrSet where
  dirty : Bool
  base : Int
  buf : Mem
  bufused : Nat
  bufsize : Nat
  list : List Attr
  listsize : Nat

/-- `strcmp`: lexicographic order of unsigned bytes. (bigfile.c:1632-1636, `attr_cmp`.) -/
def strcmp : CStr → CStr → Ordering
  | [], [] => .eq
  | [], _ :: _ => .lt
  | _ :: _, [] => .gt
  | a :: as, b :: bs => if a < b then .lt else if b < a then .gt else strcmp as bs

/-- The C string at an address, looking at no more than `fuel` bytes. (bigfile.h:14-20, the member `name`.) -/
def cstrAt (m : Mem) (a : Int) : Nat → CStr
  | 0 => []
  | n + 1 => if m a = 0 then [] else m a :: cstrAt m (a + 1) n

/-- The name of an attribute as a string: the bytes up to the NUL, inside the used buffer.
(bigfile.h:14-20, the member `name`.) -/
def AttrSet.nameOf (s : AttrSet) (a : Attr) : CStr :=
  cstrAt s.buf a.name (s.base + s.bufused - a.name).toNat

/-- `attrset_create` (bigfile.c:1767-1779). -/
def attrsetCreate (env : Env) : AttrSet :=
  { dirty := false, base := env.heap 128, buf := env.junk, bufused := 0, bufsize := 128,
    list := [], listsize := 16 }

/-- Insertion of one attribute into a list sorted by name. (bigfile.c:1681, `qsort`.) -/
def insertAttr (s : AttrSet) (a : Attr) : List Attr → List Attr
  | [] => [a]
  | b :: bs => if strcmp (s.nameOf a) (s.nameOf b) = .gt then b :: insertAttr s a bs else a :: b :: bs

/-- `qsort(attrlist, ..., attr_cmp)` (bigfile.c:1632-1636, 1681). Names are distinct when it is
called, so every correct sort gives this result. -/
def sortAttrs (s : AttrSet) : List Attr → List Attr
  | [] => []
  | a :: as => insertAttr s a (sortAttrs s as)

/-- `bsearch` (glibc) on the attribute list, between `lo` and `hi`; `attr_cmp` compares names. The
first number is fuel; the length of the list is enough (proved in `bsearch_spec`). (bigfile.c:1632-1636, 1685-1692.) -/
def bsearchAttr (s : AttrSet) (key : CStr) : Nat → Nat → Nat → Option Nat
  | 0, _, _ => none
  | fuel + 1, lo, hi =>
    if lo < hi then
      let mid := (lo + hi) / 2
      match s.list[mid]? with
      | none => none
      | some a =>
        match strcmp key (s.nameOf a) with
        | .lt => bsearchAttr s key fuel lo mid
        | .gt => bsearchAttr s key fuel (mid + 1) hi
        | .eq => some mid
    else none

/-- `attrset_lookup_attr` (bigfile.c:1685-1692): index of the attribute, if found. -/
def lookupAttr (s : AttrSet) (name : CStr) : Option Nat :=
  bsearchAttr s name s.list.length 0 s.list.length

/-- `attrset_remove_attr` (bigfile.c:1694-1711): close the gap. The dirty flag is not touched. -/
def removeAttr (s : AttrSet) (name : CStr) : Int × AttrSet :=
  match lookupAttr s name with
  | none => (-1, s)
  | some i => (0, { s with list := s.list.eraseIdx i })

/-- `attrset_append_attr` (bigfile.c:1638-1648), the growth of the list: double until there is
room. -/
def growList (s : AttrSet) : AttrSet :=
  if s.listsize - s.list.length < 1 then { s with listsize := s.listsize * 2 } else s

/-- One round of the buffer growth in `attrset_add_attr` (bigfile.c:1656-1665): pointers are made
relative, the buffer is moved, pointers are made absolute again. -/
def growBufOnce (env : Env) (s : AttrSet) : AttrSet :=
  let rel := s.list.map fun a => { a with data := a.data - s.base, name := a.name - s.base }
  let nb := env.heap (s.bufsize * 2)
  { s with
    base := nb
    buf := fun x => s.buf (x - nb + s.base)
    bufsize := s.bufsize * 2
    list := rel.map fun a => { a with data := a.data + nb, name := a.name + nb } }

/-- The growth loop (bigfile.c:1654-1666). After 64 doublings no allocation can succeed; `none`
is the resulting use of a NULL pointer. -/
def growBuf (env : Env) (size : Nat) : Nat → AttrSet → Option AttrSet
  | 0, s => if s.bufsize - s.bufused < size then none else some s
  | fuel + 1, s =>
    if s.bufsize - s.bufused < size then growBuf env size fuel (growBufOnce env s) else some s

/-- `attrset_add_attr` (bigfile.c:1650-1683). `none`: `int` overflow of the size, or memory
exhausted. -/
def addAttr (env : Env) (s : AttrSet) (name dtype : CStr) (nmemb : Int) : Option AttrSet :=
  let isz := itemsize env.m dtype
  if !fitsInt (isz * nmemb) then none
  else
    let size := u64 (isz * nmemb + name.length + 1)
    match growBuf env size 64 s with
    | none => none
    | some s =>
      let free := s.base + s.bufused
      let s := { s with bufused := s.bufused + size, buf := poke s.buf free (name ++ [0]) }
      let s := growList s
      let n : Attr := { nmemb := nmemb, dtype := dtypeNormalize env.m dtype, name := free,
                        data := free + name.length + 1 }
      let s := { s with list := s.list ++ [n] }
      some { s with list := sortAttrs s s.list }

/-- The characters refused in names (bigfile.c:1726-1729 and 480-482). -/
def hasBlank (s : CStr) : Bool := s.any fun c => c == 32 || c == 9 || c == 10

/-- The removal of an attribute of the same name in `attrset_set_attr` (bigfile.c:1731-1735). -/
def dropOld (s : AttrSet) (name : CStr) : AttrSet :=
  match lookupAttr s name with
  | some _ => (removeAttr s name).2
  | none => s

/-- `attrset_set_attr` (bigfile.c:1720-1752); `src` is the address of the data in the caller's
memory `sm`. Result: return code, attribute set, caller's memory. -/
def setAttr (env : Env) (s : AttrSet) (name : CStr) (src : Int) (dtype : CStr) (nmemb : Int)
    (sm : Mem) : Option (Int × AttrSet × Mem) :=
  let s := { s with dirty := true }
  if hasBlank name then some (-1, s, sm)
  else
    match addAttr env (dropOld s name) name dtype nmemb with
    | none => none
    | some s =>
      match lookupAttr s name with
      | none => none
      | some i =>
        match s.list[i]? with
        | none => none
        | some a =>
          if a.nmemb ≠ nmemb then some (-1, s, sm)
          else if a.nmemb < 0 then none
          else
            match convertSimple env.m env.fo a.data a.dtype src dtype a.nmemb.toNat s.buf sm with
            | none => none
            | some (rc, buf, sm) => some (rc, { s with buf := buf }, sm)

/-- `attrset_get_attr` (bigfile.c:1754-1765); `dst` is an address in the caller's memory `dm`.
The stored data is the *source* of the conversion, so the attribute set is part of the result. -/
def getAttr (env : Env) (s : AttrSet) (name : CStr) (dst : Int) (dtype : CStr) (nmemb : Int)
    (dm : Mem) : Option (Int × AttrSet × Mem) :=
  match lookupAttr s name with
  | none => some (-1, s, dm)
  | some i =>
    match s.list[i]? with
    | none => none
    | some a =>
      if a.nmemb ≠ nmemb then some (-1, s, dm)
      else if a.nmemb < 0 then none
      else
        match convertSimple env.m env.fo dst dtype a.data a.dtype a.nmemb.toNat dm s.buf with
        | none => none
        | some (rc, dm, buf) => some (rc, { s with buf := buf }, dm)

/-- `attrset_list_attrs` (bigfile.c:1713-1718): the entries, in order. -/
def listAttrs (s : AttrSet) : List Attr := s.list

/-! ## The v2 text format -/

/-- Two hexadecimal digits per byte (bigfile.c:1580-1584). -/
def hexBytes : List Byte → CStr
  | [] => []
  | b :: bs => digitChar (b.toNat / 16) :: digitChar (b.toNat % 16) :: hexBytes bs

/-- `_isblank` (bigfile.c:1481-1483). -/
def isBlank (b : Byte) : Bool := b == 32 || b == 9

/-- The text that `big_file_dtype_format` (bigfile.c:1182-1205) prints for one native element with
type name `ty` (`ndtype + 1`). -/
def formatNative (env : Env) (ndtype : CStr) (bs : List Byte) : CStr :=
  let ty := ndtype.drop 1
  let n := natDec env.m bs
  if ty = b!"a1" then bs
  else if ty = b!"b1" then intStr (if env.m.charSigned && decide (128 ≤ n) then (n : Int) - 256 else n)
  else if ty = b!"i8" then intStr (i64 n)
  else if ty = b!"i4" then intStr (i32 n)
  else if ty = b!"u8" then decStr n
  else if ty = b!"u4" then decStr n
  else if ty = b!"f8" then env.fmtF8 n
  else if ty = b!"f4" then env.fmtF4 n
  else if ty = b!"c8" then
    env.fmtF4 (natDec env.m (bs.take 4)) ++ b!"+" ++ env.fmtF4 (natDec env.m (bs.drop 4)) ++ b!"I"
  else if ty = b!"c16" then
    env.fmtF8 (natDec env.m (bs.take 8)) ++ b!"+" ++ env.fmtF8 (natDec env.m (bs.drop 8)) ++ b!"I"
  else b!"<" ++ ndtype ++ b!">"

/-- `big_file_dtype_format` (bigfile.c:1165-1206) with the default format: text, and the memory of
the data, which the conversion byte-swaps in place when the byte order is foreign. -/
def dtypeFormat (env : Env) (dtype : CStr) (data : Int) (mem : Mem) : Option (CStr × Mem) :=
  let ndtype2 := dtypeNormalize env.m dtype
  let ndtype := dtypeNormalize env.m (61 :: ndtype2.drop 1)
  match convertSimple env.m env.fo 0 ndtype data dtype 1 env.junk mem with
  | none => none
  | some (_, conv, mem) =>
    some (formatNative env ndtype (peek conv 0 (itemsize env.m ndtype).toNat), mem)

/-- The loop that builds the human-readable part (bigfile.c:1593-1613), element `j` of `nmemb`. -/
def textualLoop (env : Env) (a : Attr) (isz : Int) : Nat → Nat → CStr → Mem → Option (CStr × Mem)
  | 0, _, acc, mem => some (acc, mem)
  | k + 1, j, acc, mem =>
    if charAt a.dtype 1 ≠ 97 ∧ ¬ (charAt a.dtype 1 = 83 ∧ isz = 1) then
      match dtypeFormat env a.dtype (a.data + j * isz) mem with
      | none => none
      | some (t, mem) =>
        let acc := acc ++ t.takeWhile (· ≠ 0) ++ (if (j : Int) ≠ a.nmemb - 1 then b!" " else [])
        textualLoop env a isz k (j + 1) acc mem
    else
      let c := mem (a.data + j)
      if c = 10 then some (acc ++ b!"...", mem)
      else if c = 0 then some (acc, mem)
      else textualLoop env a isz k (j + 1) (acc ++ [c]) mem

/-- The line written for one attribute (bigfile.c:1573-1617), and the attribute buffer after
printing it. `none`: `int` overflow, or the human-readable part (which only grows, so its final length counts) is longer than its buffer
of `nmemb * 32 + 1` bytes (bigfile.c:1591). The text of a single element goes through a buffer of 128 bytes (bigfile.c:1597); that
it fits is `C106_format`. -/
def attrLine (env : Env) (s : AttrSet) (a : Attr) : Option (CStr × Mem) :=
  let isz := itemsize env.m a.dtype
  let ldata := isz * a.nmemb
  if !fitsInt (ldata * 2 + 1) || decide (ldata < 0) then none
  else
    let raw := hexBytes (peek s.buf a.data ldata.toNat)
    let textual? := if ldata > 128 then some (b!"... (Too Long) ", s.buf)
      else if !fitsInt (a.nmemb * 32 + 1) then none
      else (textualLoop env a isz a.nmemb.toNat 0 [] s.buf).filter fun r => decide ((r.1.length : Int) < a.nmemb * 32 + 1)
    match textual? with
    | none => none
    | some (textual, buf) =>
      some (s.nameOf a ++ b!" " ++ a.dtype ++ b!" " ++ intStr a.nmemb ++ b!" " ++ raw ++
        b!" #HUMANE [ " ++ textual ++ b!" ]\n", buf)

/-- All lines of `attrset_write_attr_set_v2` (bigfile.c:1572-1623). -/
def attrLines (env : Env) : List Attr → AttrSet → Option (CStr × AttrSet)
  | [], s => some ([], s)
  | a :: as, s =>
    (attrLine env s a).bind fun p =>
      (attrLines env as { s with buf := p.2 }).map fun q => (p.1 ++ q.1, q.2)

/-- `attrset_write_attr_set_v2` (bigfile.c:1560-1630). The lines are produced one `fprintf` at a
time into a buffered stream; `writeText` covers the ways this can fail. -/
def writeAttrsV2 (env : Env) (s : AttrSet) (basename : CStr) : M (Int × AttrSet) := do
  let s := { s with dirty := false }
  if ← openAFile basename .attrV2 .w then
    let (txt, s) ← M.lift (attrLines env s.list s)
    if ← writeText (filePath basename .attrV2) txt then pure (0, s) else pure (-1, s)
  else pure (-1, s)

/-- `ATTRV2_EXPECT` (bigfile.c:1510-1512) on the unread part of the buffer: skip blanks, take
everything up to the next blank (also newlines and NULs), drop that blank. `none`: there is no
blank left, the scan runs past the end of the buffer. The token ends at its first NUL. -/
def expectTok (s : CStr) : Option (CStr × CStr) :=
  let s := s.dropWhile isBlank
  let tok := s.takeWhile (fun c => !isBlank c)
  match s.dropWhile (fun c => !isBlank c) with
  | [] => none
  | _ :: rest => some (tok.takeWhile (· ≠ 0), rest)

/-- Skip the rest of the line (bigfile.c:1519-1520). -/
def skipLine (s : CStr) : CStr :=
  match s.dropWhile (fun c => c ≠ 10 && c ≠ 0) with
  | 10 :: rest => rest
  | rest => rest

/-- `strtoll(buf, NULL, 16)` for a short string, as an `unsigned char` (bigfile.c:1536-1537). -/
def strtoll16 (s : CStr) : Byte :=
  let s := s.takeWhile (· ≠ 0)
  let s := s.dropWhile isSpace
  let (neg, _, s) := takeSign s
  let s := match s with
    | 48 :: 120 :: d :: t => if (digitVal d).isSome then d :: t else s
    | 48 :: 88 :: d :: t => if (digitVal d).isSome then d :: t else s
    | _ => s
  let (v, _) := takeDigits 16 s.length 0 s
  UInt8.ofNat ((if neg then -(v : Int) else v) % 256).toNat

/-- Decoding of `rawdata` (bigfile.c:1531-1538). -/
def unhex : CStr → List Byte
  | a :: b :: t => strtoll16 [a, b] :: unhex t
  | _ => []

/-- The four tokens of a line and the text after the line (bigfile.c:1514-1520). -/
def parseFields (txt : CStr) : Option (CStr × CStr × CStr × CStr × CStr) :=
  match expectTok txt with
  | none => none
  | some (name, t) =>
    match expectTok t with
    | none => none
    | some (dtype, t) =>
      match expectTok t with
      | none => none
      | some (rawlength, t) =>
        match expectTok t with
        | none => none
        | some (rawdata, t) => some (name, dtype, rawlength, rawdata, skipLine t)

/-- The parse loop of `attrset_read_attr_set_v2` (bigfile.c:1513-1542). `fuel` bounds the number of
lines; each round consumes at least one byte. -/
def parseV2 (env : Env) : Nat → CStr → AttrSet → Option (Int × AttrSet)
  | 0, _, s => some (0, s)
  | fuel + 1, txt, s =>
    if txt.headD 0 = 0 then some (0, s)
    else
      match parseFields txt with
      | none => none
      | some (name, dtype, rawlength, rawdata, t) =>
        let nmemb := atoi rawlength
        let isz := itemsize env.m dtype
        if !fitsInt (nmemb * isz) || !fitsInt (nmemb * isz * 2) then none
        else if u64 (nmemb * isz * 2) ≠ rawdata.length then some (-1, s)
        else
          match setAttr env s name 0 dtype nmemb (poke env.junk 0 (unhex rawdata)) with
          | none => none
          | some (rc, s, _) => if rc ≠ 0 then some (-1, s) else parseV2 env fuel t s

/-- `attrset_read_attr_set_v2` (bigfile.c:1485-1559). -/
def readAttrsV2 (env : Env) (s : AttrSet) (basename : CStr) : M (Int × AttrSet) := do
  let s := { s with dirty := false }
  if ← openAFile basename .attrV2 .r then
    let fs ← getFS
    let size := (fs.bytes (resolve (filePath basename .attrV2))).length
    let txt ← freadAt (filePath basename .attrV2) 0 size
    if txt.length ≠ size then pure (-1, s)
    else
      let (rc, s) ← M.lift (parseV2 env (txt.length + 1) txt s)
      pure (rc, { s with dirty := false })
  else pure (0, s)

/-! ## The v1 binary format -/

/-- One record (bigfile.c:1449-1466): name, dtype, number of elements, data, unread bytes. `none`:
undefined behaviour; `some none`: an error is raised. -/
def recV1 (env : Env) (bs : List Byte) : Option (Option (CStr × CStr × Int × List Byte × List Byte)) :=
  let nmemb := i32 (natDec env.m (bs.take 4))
  let bs := bs.drop 4
  if bs.length < 12 then some none
  else
    let lname := i32 (natDec env.m (bs.take 4))
    let dtype := ((bs.drop 4).take 8).takeWhile (· ≠ 0)
    let bs := bs.drop 12
    if !dtypeIsValid dtype then some none
    else
      let ldata := itemsize env.m dtype * nmemb
      if !fitsInt ldata || decide (ldata < 0) || decide (lname < 0) then none
      else
        let ln := lname.toNat
        let ld := ldata.toNat
        if ln = 0 || bs.length < ln then some none
        else if ld = 0 || bs.length - ln < ld then some none
        else some (some ((bs.take ln).takeWhile (· ≠ 0), dtype, nmemb, (bs.drop ln).take ld,
          (bs.drop ln).drop ld))

/-- The loop of `attrset_read_attr_set_v1` (bigfile.c:1448-1470) on the unread bytes. -/
def parseV1 (env : Env) : Nat → List Byte → AttrSet → Option (Int × AttrSet)
  | 0, _, s => some (0, s)
  | fuel + 1, bs, s =>
    if bs.length < 4 then some (0, s)
    else
      match recV1 env bs with
      | none => none
      | some none => some (-1, s)
      | some (some (name, dtype, nmemb, data, rest)) =>
        match setAttr env s name 0 dtype nmemb (poke env.junk 0 data) with
        | none => none
        | some (rc, s, _) => if rc ≠ 0 then some (-1, s) else parseV1 env fuel rest s

/-- `attrset_read_attr_set_v1` (bigfile.c:1434-1479). The file is read in one step. -/
def readAttrsV1 (env : Env) (s : AttrSet) (basename : CStr) : M (Int × AttrSet) := do
  let s := { s with dirty := false }
  if ← openAFile basename .attr .r then
    let fs ← getFS
    let size := (fs.bytes (resolve (filePath basename .attr))).length
    let bs ← freadAt (filePath basename .attr) 0 size
    let (rc, s) ← M.lift (parseV1 env (bs.length + 1) bs s)
    pure (rc, { s with dirty := false })
  else pure (0, s)

end Verif
