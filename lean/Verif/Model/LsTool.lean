import Verif.Model.List
import Verif.Model.Tools
import Verif.Model.Cat
/-!
# `bigfile-ls` and `bigfile-check`

Models `/repo/utils/bigfile-ls.c` and `/repo/utils/bigfile-check`, after the options have been read. Only the standard output is modelled;
failures of writing to it are not.
-/

set_option autoImplicit false

namespace Verif

/-- `stat` followed by `S_ISDIR` (bigfile-ls.c:48-49). The result of `stat` is not looked at: when it fails, an uninitialised structure is
used. -/
def statDir (path : CStr) : M Bool := do
  match ← tick with
  | .crash _ => die
  | .fail => M.ub
  | _ =>
    let fs ← getFS
    match (if path = [] then none else fs.node (resolve path)) with
    | none => M.ub
    | some .dir => pure true
    | some (.file _) => pure false

/-- `sprintf(buf, "%s/%s", a, b)`, or only one of them if there is nothing to join (bigfile-ls.c:44-47, 57-60). -/
def slashed (a b : CStr) : CStr := a ++ 47 :: b

/-- `%05u`. (bigfile-ls.c:85.) -/
def padZero (n : Nat) (s : CStr) : CStr := List.replicate (n - s.length) 48 ++ s

/-- The line of the long format (bigfile-ls.c:74-89). The sum of the checksums is unsigned. -/
def lsLong (blockname : CStr) (bb : Block) : CStr :=
  let sum := (bb.fchecksum.take bb.nfile).sum % 4294967296
  padRight 28 blockname ++ b!" " ++ bb.dtype ++ b!" " ++ intStr bb.nmemb ++ b!" " ++ padLeft 12 (intStr (i64 bb.size)) ++ b!" " ++
    padZero 5 (decStr (sysvReduce sum)) ++ b!" " ++ intStr (i32 bb.nfile) ++ b!" " ++ bb.basename ++ b!"\n"

/-- `listbigblock` (bigfile-ls.c:68-93): return code and output. -/
def lsBlock (env : Env) (long : Bool) (bf blockname : CStr) : M (Int × CStr) := do
  match (← openBlock env bf blockname).2 with
  | none => pure (-1, [])
  | some bb =>
    let out := if long then lsLong blockname bb else blockname ++ b!"\n"
    let _ ← blockClose env bb
    pure (0, out)

/-- The loop over directory entries (bigfile-ls.c:55-64); `visit` is its body. -/
def lsEntries (visit : CStr → M CStr) (path : CStr) : List CStr → CStr → M CStr
  | [], out => pure out
  | e :: es, out => do
    let o ← visit (if path = [] then e else slashed path e)
    lsEntries visit path es (out ++ o)

/-- `listbigfile_r` (bigfile-ls.c:40-67), to depth `fuel`. `sort` is the order of the locale. -/
def lsR (env : Env) (sort : List CStr → List CStr) (long : Bool) (bf : CStr) : Nat → CStr → M CStr
  | 0, _ => M.hang
  | fuel + 1, path => do
    let buf := if path = [] then bf else slashed bf path
    if ← statDir buf then
      match ← scandir sort buf with
      | none => pure []
      | some names =>
        lsEntries (fun blockname => do
          let (_, o) ← lsBlock env long bf blockname
          let o' ← lsR env sort long bf fuel blockname
          pure (o ++ o')) path names []
    else pure []

/-- `main` of bigfile-ls (bigfile-ls.c:23-31, 95-127): `long` is `-l`. A block that cannot be opened is reported to the standard
error, and the program ends normally. -/
def lsMain (env : Env) (sort : List CStr → List CStr) (long : Bool) (file : CStr) (block : Option CStr) : M (Exit × CStr) := do
  let (rc, bf) ← bigFileOpen file
  if rc ≠ 0 then pure (.failed, [])
  else
    match block with
    | none => do
      let fs ← getFS
      let out ← lsR env sort long bf fs.depth []
      pure (.done, out)
    | some name => do
      let (_, out) ← lsBlock env long bf name
      pure (.done, out)

/-- Words between blanks, tabs and newlines: the fields of awk, the words of the shell. (bigfile-check:45, 50, 60, 65.) `cur` is the word
being read, in reverse. -/
def wordsAux : CStr → CStr → List CStr
  | cur, [] => if cur = [] then [] else [cur.reverse]
  | cur, c :: s =>
    if c = 32 ∨ c = 9 ∨ c = 10 then (if cur = [] then [] else [cur.reverse]) ++ wordsAux [] s
    else wordsAux (c :: cur) s

/-- The words of a text. (bigfile-check:45, 50, 60, 65.) -/
def words (s : CStr) : List CStr := wordsAux [] s

/-- The lines of a text; a last line without newline counts unless it is empty. (bigfile-check:45, 50.) -/
def linesOf : CStr → CStr → List CStr
  | cur, [] => if cur = [] then [] else [cur.reverse]
  | cur, c :: s => if c = 10 then cur.reverse :: linesOf [] s else linesOf (c :: cur) s

/-- `awk '{print $k}'` in backquotes, split into words by the shell (bigfile-check:45, 50, 55): field `k` of every line. -/
def awkWords (k : Nat) (s : CStr) : List CStr := (linesOf [] s).flatMap fun l => words ((words l).getD (k - 1) [])

/-- `sum -s` of GNU coreutils, a System V checksum and the number of blocks of 512 bytes. (bigfile-check:45.) -/
def sumTool (data : List Byte) : CStr :=
  decStr (sysvReduce (data.foldl (fun s b => (s + b.toNat) % 4294967296) 0)) ++ b!" " ++ decStr ((data.length + 511) / 512) ++ b!"\n"

/-- The value of a word of decimal digits. (bigfile-check:55.) -/
def decVal (s : CStr) : Option Nat :=
  if s ≠ [] ∧ s.all (fun c => 48 ≤ c && c ≤ 57) then some (s.foldl (fun n c => n * 10 + (c.toNat - 48)) 0) else none

/-- `[ $sum -ne $expectedsum ]` (bigfile-check:55). Anything but two numbers is an error of the test, which counts as false. Negative
numbers are not modelled: the programs print none. -/
def testNe (sum expected : List CStr) : Bool :=
  match sum, expected with
  | [a], [b] =>
    match decVal a, decVal b with
    | some x, some y => decide (x ≠ y)
    | _, _ => false
  | _, _ => false

/-- `check` (bigfile-check:35-59) of one block: the output. The statuses tested in lines 46 and 51 are those of awk, which are 0.
`bigfile-cat` uses its default buffer of 256 MB. -/
def checkBlock (env : Env) (sort : List CStr → List CStr) (file block : CStr) (buf : Int) (mem : Mem) : M CStr := do
  let (_, data) ← catMain env file block true 0 (-1) 268435456 buf mem
  let (_, line) ← lsMain env sort true file (some block)
  let sum := awkWords 1 (sumTool data)
  let expected := awkWords 5 line
  if testNe sum expected then
    pure ((b!" ").intercalate ([b!"check", b!"sum", b!"failed"] ++ [block] ++ sum ++ expected) ++ b!"\n")
  else pure []

/-- The loop over the blocks (bigfile-check:67-76). Simplified: the background jobs only read, and are run one after another. -/
def checkBlocks (env : Env) (sort : List CStr → List CStr) (file : CStr) (buf : Int) (mem : Mem) : List CStr → M CStr
  | [] => pure []
  | b :: bs => do
    let o ← checkBlock env sort file b buf mem
    let o' ← checkBlocks env sort file buf mem bs
    pure (o ++ o')

/-- bigfile-check (bigfile-check:24-76) of the blocks given, or of all: the output. The exit status is 0 whatever happens: `fail` exits
with the status of `echo`. -/
def checkMain (env : Env) (sort : List CStr → List CStr) (file : CStr) (blocks : List CStr) (buf : Int) (mem : Mem) : M CStr := do
  if blocks.isEmpty then
    let (_, out) ← lsMain env sort false file none
    checkBlocks env sort file buf mem (words out)
  else checkBlocks env sort file buf mem blocks

end Verif
