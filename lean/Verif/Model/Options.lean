import Verif.Model.Cat
import Verif.Model.CreateTool
import Verif.Model.LsTool
import Verif.Model.Tools
/-!
# The command lines of the programs

Models the beginnings of `main` in `/repo/utils/bigfile-*.c`, where `getopt` reads the options. `getopt` is the C library's; a version that
permutes the words, as that of GNU does unless `POSIXLY_CORRECT` is set, and one that stops at the first operand are both modelled.
-/

set_option autoImplicit false

namespace Verif

/-- The third argument of `getopt`: does a letter stand for an option, and does it take a value? (bigfile-copy.c:24, bigfile-cat.c:42,
bigfile-create.c:36, bigfile-set-attr.c:26, bigfile-get-attr.c:46, bigfile-ls.c:99.) -/
def takesOf : CStr → Byte → Option Bool
  | [], _ => none
  | [c], x => if c = x then some false else none
  | c :: d :: s, x =>
    if d = 58 then if c = x then some true else takesOf s x
    else if c = x then some false else takesOf (d :: s) x

/-- A word of options, after its `-`: the options in it, and the letter of one whose value is the next word. `none`: a letter that is no
option. (`getopt`, called in bigfile-copy.c:24.) -/
def optWord (takes : Byte → Option Bool) : CStr → Option (List (Byte × Option CStr) × Option Byte)
  | [] => some ([], none)
  | c :: cs =>
    match takes c with
    | none => none
    | some false => (optWord takes cs).map fun r => ((c, none) :: r.1, r.2)
    | some true => if cs = [] then some ([], some c) else some ([(c, some cs)], none)

/-- All calls of `getopt` together (bigfile-copy.c:24-41): the options in order, and the operands, which are the words from `optind` on after
the last call. `none`: `?` is returned, upon which all programs call `usage` and so `exit(1)`. `permute`: operands may come before
options, as with GNU. -/
def getopt (permute : Bool) (takes : Byte → Option Bool) : List CStr → Option (List (Byte × Option CStr) × List CStr)
  | [] => some ([], [])
  | w :: ws =>
    if w = b!"--" then some ([], ws)
    else
      match w with
      | 45 :: c :: cs =>
        match optWord takes (c :: cs) with
        | none => none
        | some (os, none) => (getopt permute takes ws).map fun r => (os ++ r.1, r.2)
        | some (os, some c) =>
          match ws with
          | [] => none
          | a :: ws => (getopt permute takes ws).map fun r => (os ++ (c, some a) :: r.1, r.2)
      | _ => if permute then (getopt permute takes ws).map fun r => (r.1, w :: r.2) else some ([], w :: ws)

/-- The variables of bigfile-copy (bigfile-copy.c:21-23). `-v` has no effect but on messages. -/
structure CopyOpts where
  nfile : Int
  buffersize : Nat
  newfile : Option CStr

/-- The switch (bigfile-copy.c:25-40). `sscanf` leaves the variable alone if there is no number. -/
def copyOpt (o : CopyOpts) : Byte × Option CStr → CopyOpts
  | (102, some v) => { o with newfile := some v }
  | (110, some v) => { o with nfile := atoi v }
  | (66, some v) => { o with buffersize := ((scanPtrdiff v).map Prod.fst).getD o.buffersize }
  | _ => o

/-- bigfile-copy (bigfile-copy.c:14-127), `args` are the words after the name of the program. Simplified: `-n` with a number below -1 is
`M.ub`. -/
def bigfileCopy (env : Env) (permute : Bool) (args : List CStr) (buf : Int) (mem : Mem) : M Exit :=
  match getopt permute (takesOf b!"n:vB:f:") args with
  | some (os, [file, block, newblock]) =>
    let o := os.foldl copyOpt ⟨-1, 268435456, none⟩
    if o.nfile < -1 then M.ub
    else copyMain env file block (o.newfile.getD file) newblock (if o.nfile = -1 then none else some o.nfile.toNat) o.buffersize buf mem
  | _ => pure .failed

/-- The variables of bigfile-cat (bigfile-cat.c:34-40). -/
structure CatOpts where
  binary : Bool
  start : Int
  size : Int
  buffersize : Nat
  fmt : Option CStr

/-- The switch (bigfile-cat.c:43-61). -/
def catOpt (o : CatOpts) : Byte × Option CStr → CatOpts
  | (102, some v) => { o with fmt := some v }
  | (98, _) => { o with binary := true }
  | (111, some v) => { o with start := ((scanPtrdiff v).map fun r => i64 r.1).getD o.start }
  | (99, some v) => { o with size := ((scanPtrdiff v).map fun r => i64 r.1).getD o.size }
  | (66, some v) => { o with buffersize := ((scanPtrdiff v).map Prod.fst).getD o.buffersize }
  | _ => o

/-- bigfile-cat (bigfile-cat.c:29-122). Simplified: the option `-f` is `M.ub` (its value is a format for `printf`). -/
def bigfileCat (env : Env) (permute : Bool) (args : List CStr) (buf : Int) (mem : Mem) : M (Exit × List Byte) :=
  match getopt permute (takesOf b!"bo:c:B:f:") args with
  | some (os, [file, block]) =>
    let o := os.foldl catOpt ⟨false, 0, -1, 268435456, none⟩
    if o.fmt.isSome then M.ub else catMain env file block o.binary o.start o.size o.buffersize buf mem
  | _ => pure (.failed, [])

/-- The switch of bigfile-create (bigfile-create.c:37-46): `buffersize` and `nmemb`. -/
def createOpt (o : Nat × Int) : Byte × Option CStr → Nat × Int
  | (66, some v) => (((scanPtrdiff v).map Prod.fst).getD o.1, o.2)
  | (110, some v) => (o.1, ((scanInt v).map Prod.fst).getD o.2)
  | _ => o

/-- bigfile-create (bigfile-create.c:25-86). -/
def bigfileCreate (env : Env) (permute : Bool) (args : List CStr) (buf : Int) (input : List Byte) (mem : Mem) : M Exit :=
  match getopt permute (takesOf b!"B:n:") args with
  | some (os, [file, block, dtype]) =>
    let o := os.foldl createOpt (268435456, 1)
    createMain env file block dtype o.2 o.1 buf input mem
  | _ => pure .failed

/-- The variables of bigfile-set-attr (bigfile-set-attr.c:22-25). -/
structure SetOpts where
  force : Bool
  dtype : Option CStr
  nmemb : Int

/-- The switch (bigfile-set-attr.c:27-39). -/
def setOpt (o : SetOpts) : Byte × Option CStr → SetOpts
  | (102, _) => { o with force := true }
  | (116, some v) => { o with dtype := some v }
  | (110, some v) => { o with nmemb := atoi v }
  | _ => o

/-- bigfile-set-attr (bigfile-set-attr.c:17-101): at least four operands. -/
def bigfileSetAttr (env : Env) (sc : FloatScan) (permute : Bool) (args : List CStr) (buf : Int) (mem : Mem) : M Exit :=
  match getopt permute (takesOf b!"ft:n:") args with
  | some (os, file :: block :: name :: v :: vs) =>
    let o := os.foldl setOpt ⟨false, none, 0⟩
    setAttrMain env sc file block name o.force o.dtype o.nmemb (v :: vs) buf mem
  | _ => pure .failed

/-- bigfile-get-attr (bigfile-get-attr.c:41-88): at least two operands. -/
def bigfileGetAttr (env : Env) (permute : Bool) (args : List CStr) : M (Exit × CStr) :=
  match getopt permute (takesOf b!"l") args with
  | some (os, file :: block :: names) => getAttrMain env file block (!os.isEmpty) names
  | _ => pure (.failed, [])

/-- bigfile-ls (bigfile-ls.c:97-127): at least one operand; those after the second are ignored. -/
def bigfileLs (env : Env) (sort : List CStr → List CStr) (permute : Bool) (args : List CStr) : M (Exit × CStr) :=
  match getopt permute (takesOf b!"l") args with
  | some (os, [file]) => lsMain env sort (!os.isEmpty) file none
  | some (os, file :: block :: _) => lsMain env sort (!os.isEmpty) file (some block)
  | _ => pure (.failed, [])

end Verif
