import Verif.Model.Options
import Verif.Model.Scripts
/-!
# The command lines of the shell scripts

Models `/repo/utils/bigfile-check`, `/repo/utils/bigfile-repartition`, `/repo/utils/bigfile-rename` and `/repo/utils/bigfile-rm` from their
arguments on, with the command lines they make for other programs. `getopts` of the shell stops at the first operand. Variables are
not quoted in the scripts, so that their values are split into words; that they are also expanded as patterns (`*`, `?`, `[`) is not modelled.
`gnu` says which version of `getopt` the programs use.
-/

set_option autoImplicit false

namespace Verif

/-- The loop of `getopts ":v"` and `shift` (bigfile-check:13-24, bigfile-repartition:13-24): whether there is a `-v`, and the words that
remain. `none`: a letter that is no option, upon which the scripts print their usage and exit. -/
def scriptOpts (args : List CStr) : Option (Bool × List CStr) :=
  (getopt false (takesOf b!"v") args).map fun r => (!r.1.isEmpty, r.2)

/-- `check` (bigfile-check:35-59) with the command lines of bigfile-cat and bigfile-ls. -/
def checkJob (env : Env) (sort : List CStr → List CStr) (gnu : Bool) (file block : CStr) (buf : Int) (mem : Mem) : M CStr := do
  let (_, data) ← bigfileCat env gnu ([b!"-b"] ++ words file ++ words block) buf mem
  let (_, line) ← bigfileLs env sort gnu ([b!"-l"] ++ words file ++ words block)
  let sum := awkWords 1 (sumTool data)
  let expected := awkWords 5 line
  if testNe sum expected then
    pure ((b!" ").intercalate ([b!"check", b!"sum", b!"failed"] ++ words block ++ sum ++ expected) ++ b!"\n")
  else pure []

/-- The loop over the blocks (bigfile-check:67-76). Simplified: the background jobs only read, and are run one after another. -/
def checkJobs (env : Env) (sort : List CStr → List CStr) (gnu : Bool) (file : CStr) (buf : Int) (mem : Mem) : List CStr → M CStr
  | [] => pure []
  | b :: bs => do
    let o ← checkJob env sort gnu file b buf mem
    let o' ← checkJobs env sort gnu file buf mem bs
    pure (o ++ o')

/-- bigfile-check (bigfile-check:13-76): the standard output. The exit status is 0 whatever happens. Lines 29 and 60: no file, an empty
first block. `"$*"` joins the blocks, which are then split into words (62, 67). -/
def bigfileCheck (env : Env) (sort : List CStr → List CStr) (gnu : Bool) (args : List CStr) (buf : Int) (mem : Mem) : M CStr :=
  match scriptOpts args with
  | none => pure []
  | some (_, ops) =>
    let file := ops.headD []
    if file = [] then pure []
    else if ops.tail.headD [] = [] then do
      let (_, out) ← bigfileLs env sort gnu (words file)
      checkJobs env sort gnu file buf mem (words out)
    else checkJobs env sort gnu file buf mem (ops.tail.flatMap words)

/-- bigfile-rename (bigfile-rename:7-14), whether it succeeds: arguments that are missing are empty, those after the third are ignored.
Simplified: arguments are single words, and the names made of them do not begin with `-`. -/
def bigfileRename (args : List CStr) : M Bool :=
  if args.headD [] = b!"-h" then pure true
  else renameTool (args.headD []) (args.getD 1 []) (args.getD 2 [])

/-- bigfile-rm (bigfile-rm:7-16), whether it succeeds. Simplified as bigfile-rename. -/
def bigfileRm (order : List Key → List Key) (args : List CStr) : M Bool :=
  if args.headD [] = b!"-h" then pure true
  else rmTool order (args.headD []) (args.tail.flatMap words)

/-- `repart` (bigfile-repartition:31-43) with the command lines of the other programs. Without `-v` the variable `VERBOSE` is `0` (12). -/
def repartJob (env : Env) (order : List Key → List Key) (gnu verbose : Bool) (file nfile block : CStr) (buf : Int) (mem : Mem) : M Exit := do
  if !(← bigfileRename (words file ++ words block ++ words (backup block))) then pure .failed
  else
    match ← bigfileCopy env gnu ([if verbose then b!"-v" else b!"0", b!"-n"] ++ words nfile ++ words file ++ words (backup block) ++ words block)
      buf mem with
    | .done => if ← bigfileRm order (words file ++ words (backup block)) then pure .done else pure .failed
    | e => pure e

/-- The loop over the blocks (bigfile-repartition:50-53). Simplified: the jobs run one after another. A job that fails does not stop the
others; one that does not end keeps the script from ending. -/
def repartJobs (env : Env) (order : List Key → List Key) (gnu verbose : Bool) (file nfile : CStr) (buf : Int) (mem : Mem) : List CStr → M Unit
  | [] => pure ()
  | b :: bs => do
    let _ ← repartJob env order gnu verbose file nfile b buf mem
    repartJobs env order gnu verbose file nfile buf mem bs

/-- bigfile-repartition (bigfile-repartition:13-53). The exit status is 0 whatever happens. -/
def bigfileRepartition (env : Env) (sort : List CStr → List CStr) (order : List Key → List Key) (gnu : Bool) (args : List CStr) (buf : Int)
    (mem : Mem) : M Unit :=
  match scriptOpts args with
  | none => pure ()
  | some (v, ops) =>
    let file := ops.headD []
    let nfile := ops.getD 1 []
    if (ops.drop 2).headD [] = [] then do
      let (_, out) ← bigfileLs env sort gnu (words file)
      repartJobs env order gnu v file nfile buf mem (words out)
    else repartJobs env order gnu v file nfile buf mem ((ops.drop 2).flatMap words)

end Verif
