import Verif.Model.Copy
/-!
# `bigfile-set-attr` and `bigfile-get-attr`

Models `/repo/utils/bigfile-set-attr.c` and `/repo/utils/bigfile-get-attr.c` after the options have been read, and
`big_file_dtype_parse`.
-/

set_option autoImplicit false

namespace Verif

/-- `sscanf` with `%f` and `%lf`: bit pattern and unread text. Uninterpreted: nothing is assumed. (bigfile.c:1240-1241.) -/
structure FloatScan where
  f4 : CStr → Option (Nat × CStr)
  f8 : CStr → Option (Nat × CStr)

/-- `%lu` into an `unsigned long`: `strtoul`. (bigfile.c:1234-1243.) -/
def scanULong (s : CStr) : Option (Nat × CStr) :=
  match scanNum 10 (s.length + 1) s with
  | some (neg, v, rest) =>
    some (if 18446744073709551615 < v then 18446744073709551615 else if neg then u64 (-(v : Int)) else v, rest)
  | none => none

/-- What `sscanf` stores for a complex number (bigfile.c:1241-1242): `%f + %f I`; nothing, the real part, or both. -/
def scanComplex (m : Machine) (scan : CStr → Option (Nat × CStr)) (w : Nat) (s : CStr) : List Byte :=
  match scan s with
  | none => []
  | some (re, s) =>
    natEnc m w re ++
      match scanLit b!" + " s with
      | none => []
      | some s =>
        match scan s with
        | none => []
        | some (im, _) => natEnc m w im

/-- The `sscanf` of `big_file_dtype_parse` (bigfile.c:1234-1243) for a type name `ndtype + 1`: the bytes stored in `converted`, none if
the text is no number. `none`: the type is not known (`b1` and strings are not). -/
def parseNative (env : Env) (sc : FloatScan) (ndtype text : CStr) : Option (List Byte) :=
  let ty := ndtype.drop 1
  if ty = b!"a1" then some (text.take 1)
  else if ty = b!"i8" then
    some (match scanNum 10 (text.length + 1) text with
      | some (neg, v, _) => natEnc env.m 8 (u64 (clampLong (if neg then -(v : Int) else v)))
      | none => [])
  else if ty = b!"i4" then some (match scanInt text with | some (x, _) => natEnc env.m 4 (u32 x) | none => [])
  else if ty = b!"u8" then some (match scanULong text with | some (x, _) => natEnc env.m 8 x | none => [])
  else if ty = b!"u4" then some (match scanUInt text with | some (x, _) => natEnc env.m 4 x | none => [])
  else if ty = b!"f8" then some (match sc.f8 text with | some (x, _) => natEnc env.m 8 x | none => [])
  else if ty = b!"f4" then some (match sc.f4 text with | some (x, _) => natEnc env.m 4 x | none => [])
  else if ty = b!"c8" then some (scanComplex env.m sc.f4 4 text)
  else if ty = b!"c16" then some (scanComplex env.m sc.f8 8 text)
  else none

/-- `big_file_dtype_parse` (bigfile.c:1208-1248) with the default format: return code and memory. Text that is no number
stores what happens to be in the local buffer; this is not reported. -/
def dtypeParse (env : Env) (sc : FloatScan) (text dtype : CStr) (data : Int) (mem : Mem) : Option (Int × Mem) :=
  let ndtype2 := dtypeNormalize env.m dtype
  let ndtype := dtypeNormalize env.m (61 :: ndtype2.drop 1)
  match parseNative env sc ndtype text with
  | none => some (-1, mem)
  | some bs =>
    match convertSimple env.m env.fo data dtype 0 ndtype 1 mem (poke env.junk 0 bs) with
    | none => none
    | some (_, mem, _) => some (0, mem)

/-- The loop over the values (bigfile-set-attr.c:86-92), from value `i` on. `cap` bytes are allocated at `buf`; writing beyond is
undefined, and so is printing a text from beyond. `some none`: `exit(1)`. -/
def parseArgs (env : Env) (sc : FloatScan) (dtype : CStr) (cap : Int) (buf : Int) : Nat → List CStr → Mem → Option (Option Mem)
  | _, [], mem => some (some mem)
  | i, a :: as, mem =>
    let isz := itemsize env.m dtype
    match dtypeParse env sc a dtype (buf + i * isz) mem with
    | none => none
    | some (rc, mem) =>
      if rc ≠ 0 then if i * isz < cap then some none else none
      else if cap < (i + 1) * isz then none
      else parseArgs env sc dtype cap buf (i + 1) as mem

/-- The value (bigfile-set-attr.c:69-93): number of elements and memory. The buffer is allocated before the number of elements is known:
with `nmemb` 0 it has no bytes. `none`: undefined; `some none`: `exit(1)`. -/
def setValue (env : Env) (sc : FloatScan) (dtype : CStr) (nmemb : Int) (args : List CStr) (buf : Int) (mem : Mem) :
    Option (Option (Int × Mem)) :=
  let cap := itemsize env.m dtype * nmemb
  if !fitsInt cap || decide (cap < 0) then none
  else
    let mem := poke mem buf (List.replicate cap.toNat 0)
    if dtypeKind env.m dtype = 83 then
      let n := (args.headD []).length + 1
      let nmemb := if nmemb = 0 then i32 n else nmemb
      if u64 nmemb ≠ n then some none
      else if cap < n then none
      else some (some (nmemb, poke mem buf (args.headD [] ++ [0])))
    else
      let nmemb := if nmemb = 0 then (args.length : Int) else nmemb
      if nmemb ≠ args.length then some none
      else (parseArgs env sc dtype cap buf 0 args mem).map fun r => r.map fun mem => (nmemb, mem)

/-- `big_block_set_attr` with the dtype of the attribute itself, passed as a pointer into the list of attributes
(bigfile-set-attr.c:60-64, 95; bigfile.c:1720-1748): removing the old entry moves the next one to its place, so this one's dtype is
used; behind the last entry, the new entry is made in the same place and its dtype is copied onto itself, which is undefined. `cap` bytes
may be read at `src`. -/
def setAttrAliased (env : Env) (s : AttrSet) (name : CStr) (src : Int) (cap : Int) (nmemb : Int) (sm : Mem) :
    Option (Int × AttrSet × Mem) :=
  match lookupAttr s name with
  | none => none
  | some i =>
    match s.list[i + 1]? with
    | none => none
    | some next =>
      if cap < itemsize env.m next.dtype * nmemb then none
      else setAttr env s name src next.dtype nmemb sm

/-- `main` of bigfile-set-attr (bigfile-set-attr.c:17-101): `force` is `-f`, `dtype` is `-t`, `nmemb` is `-n` (0 if not given), `args` are the
values (at least one). `buf` is the address of the buffer allocated. -/
def setAttrMain (env : Env) (sc : FloatScan) (file block name : CStr) (force : Bool) (dtype : Option CStr) (nmemb : Int)
    (args : List CStr) (buf : Int) (mem : Mem) : M Exit := do
  let (rc, bf) ← bigFileOpen file
  if rc ≠ 0 then pure .failed
  else
    match (← openBlock env bf block).2 with
    | none => pure .failed
    | some bb =>
      let s := if force then (removeAttr bb.attrset name).2 else bb.attrset
      let attr := (lookupAttr s name).bind fun i => s.list[i]?
      let dt ← M.lift (match dtype with
        | some t => some t
        | none => attr.map Attr.dtype)
      let nmemb := if nmemb = 0 then (attr.map Attr.nmemb).getD 0 else nmemb
      match ← M.lift (setValue env sc dt nmemb args buf mem) with
      | none => pure .failed
      | some (n, mem) =>
        let (_, s, _) ← M.lift (match dtype with
          | some t => setAttr env s name buf t n mem
          | none => setAttrAliased env s name buf (itemsize env.m dt * nmemb) n mem)
        let _ ← blockClose env { bb with attrset := s }
        pure .done

/-- `%-20s`. (utils/bigfile-get-attr.c:22.) -/
def padRight (n : Nat) (s : CStr) : CStr := s ++ List.replicate (n - s.length) 32

/-- `%3d`. (utils/bigfile-get-attr.c:22.) -/
def padLeft (n : Nat) (s : CStr) : CStr := List.replicate (n - s.length) 32 ++ s

/-- The loop over the elements in `print_attr` (bigfile-get-attr.c:25-35): element `j`, with `k` to come. Elements of more than
128 bytes overflow a buffer. -/
def printElems (env : Env) (a : Attr) : Nat → Nat → Mem → Option (CStr × Mem)
  | 0, _, mem => some ([], mem)
  | k + 1, j, mem =>
    let isz := itemsize env.m a.dtype
    if 128 < isz then none
    else
      match dtypeFormat env a.dtype (a.data + j * isz) mem with
      | none => none
      | some (t, mem) =>
        let sep := if (j : Int) ≠ a.nmemb - 1 ∧ charAt a.dtype 1 ≠ 83 then b!" " else []
        (printElems env a k (j + 1) mem).map fun r => (t.takeWhile (· ≠ 0) ++ sep ++ r.1, r.2)

/-- `print_attr` (bigfile-get-attr.c:17-40). -/
def printAttr (env : Env) (long : Bool) (s : AttrSet) (a : Attr) (brief : Bool) : Option (CStr × AttrSet) :=
  let full := !brief || long
  (printElems env a a.nmemb.toNat 0 s.buf).map fun r =>
    ((if full then padRight 20 (s.nameOf a) ++ b!" " ++ a.dtype ++ b!" " ++ padLeft 3 (intStr a.nmemb) ++ b!"  [ " else []) ++ r.1 ++
      (if full then b!" ]" else []) ++ b!"\n", { s with buf := r.2 })

/-- The attributes one after another (bigfile-get-attr.c:69-76). -/
def printAll (env : Env) (long : Bool) : List Attr → AttrSet → Option (CStr × AttrSet)
  | [], s => some ([], s)
  | a :: as, s =>
    (printAttr env long s a false).bind fun r => (printAll env long as r.2).map fun q => (r.1 ++ q.1, q.2)

/-- The attributes named (bigfile-get-attr.c:77-84). -/
def printNamed (env : Env) (long brief : Bool) : List CStr → AttrSet → Option (CStr × AttrSet)
  | [], s => some ([], s)
  | n :: ns, s =>
    match (lookupAttr s n).bind fun i => s.list[i]? with
    | some a =>
      (printAttr env long s a brief).bind fun r => (printNamed env long brief ns r.2).map fun q => (r.1 ++ q.1, q.2)
    | none => (printNamed env long brief ns s).map fun q => (n ++ b!", not attr:\n" ++ q.1, q.2)

/-- `main` of bigfile-get-attr (bigfile-get-attr.c:41-88): `long` is `-l`. -/
def getAttrMain (env : Env) (file block : CStr) (long : Bool) (names : List CStr) : M (Exit × CStr) := do
  let (rc, bf) ← bigFileOpen file
  if rc ≠ 0 then pure (.failed, [])
  else
    match (← openBlock env bf block).2 with
    | none => pure (.failed, [])
    | some bb =>
      let (out, s) ← M.lift (if names.isEmpty then printAll env long bb.attrset.list bb.attrset
        else printNamed env long (names.length == 1) names bb.attrset)
      let _ ← blockClose env { bb with attrset := s }
      pure (.done, out)

end Verif
