import Verif.Model.MpiPhases
import Verif.Model.Mpiu
import Verif.Model.Copy
/-!
# bigfile-iosim

Models `/repo/utils/bigfile-iosim.c`: the adjustment of the options in `main` (lines 364-373) and `iosim` (lines 58-277).

Simplifications: the options have been read (`Model/OptionsMpi.lean` has the rest of `main`), and a negative number of files is not
representable. The program ignores the codes of most
calls and goes on with a handle that was not filled when creating or opening the block has failed; here that is `ub`. Messages, times and
the log of times (lines 252-276) are left out. `malloc` does not fail. Writing and reading begin
with the seek that the program does before it makes its data.
-/

set_option autoImplicit false

namespace Verif

/-- The command (bigfile-iosim.c:37-41). -/
inductive SimMode where
  | create
  | update
  | read
  | grow
  deriving DecidableEq

/-- The options (bigfile-iosim.c:50-56): `-w`, `-n`, `-f`, `-s`, `-A`. -/
structure SimOpts where
  nmemb : Int
  nwriter : Int
  nfile : Nat
  size : Nat
  aggregated : Bool

/-- The number of writers (bigfile-iosim.c:364-370). -/
def simWriters (n : Nat) (o : SimOpts) : Int := if o.nwriter > n ∨ o.nwriter = 0 then n else o.nwriter

/-- The number of files (bigfile-iosim.c:371-373). -/
def simFiles (n : Nat) (o : SimOpts) : Nat := if o.nfile = 0 then (simWriters n o).toNat else o.nfile

/-- The threshold of aggregation (bigfile-iosim.c:65-71), from the options. -/
def simThreshold (o : SimOpts) : Nat := if o.aggregated then u64 (o.size * o.nmemb * 8) else 0

/-- First row of a process (bigfile-iosim.c:157-166). -/
def simStart (size n r : Nat) : Nat :=
  if r % 2 = 0 then u64 ((size * r : Nat) : Int) / n else u64 ((size * (r - 1) : Nat) : Int) / n

/-- Number of rows of a process (bigfile-iosim.c:157-166): every other process has the rows of two. -/
def simLocal (size n r : Nat) : Nat :=
  if r % 2 = 0 then
    u64 (((u64 ((size * (if r + 2 > n then n else r + 2) : Nat) : Int) / n : Nat) : Int) - (simStart size n r : Int))
  else 0

/-- The inner loop that makes a row (bigfile-iosim.c:191-194). -/
def simFillRow (m : Machine) (buf : Int) (start : Nat) (nmemb : Int) (i : Nat) (mem : Mem) : Mem :=
  (List.range nmemb.toNat).foldl (fun mem (j : Nat) => poke mem (buf + 8 * (i * nmemb + j)) (natEnc m 8 (u64 ((start + i : Nat) : Int)))) mem

/-- The loop that makes the data (bigfile-iosim.c:190-195). -/
def simFill (m : Machine) (buf : Int) (start rows : Nat) (nmemb : Int) (mem : Mem) : Mem :=
  (List.range rows).foldl (fun mem i => simFillRow m buf start nmemb i mem) mem

/-- The loop that checks the data (bigfile-iosim.c:218-229): no number is wrong. -/
def simRight (m : Machine) (buf : Int) (start rows : Nat) (nmemb : Int) (mem : Mem) : Bool :=
  (List.range rows).all fun i => (List.range nmemb.toNat).all fun j =>
    natDec m (peek mem (buf + 8 * (i * nmemb + j)) 8) == u64 ((start + i : Nat) : Int)

/-- Creating or opening the block (bigfile-iosim.c:91-155): the number of rows to transfer, the number of members, the first row and the
handles. `none`: the file could not be opened, and `iosim` returns. -/
def simOpen (env : Env) (n : Nat) (o : SimOpts) (file : CStr) : SimMode → Phases (Option (Nat × Int × Nat × (Nat → Block)))
  | .create => do
    let bf ← mpiFileCreate n file
    together0 n (fun r => (bf r).1) (do
      match ← mpiCreateBlock env n (bf 0).2 b!"TestBlock" (some b!"i8") o.nmemb (evenSplit o.size (simFiles n o)) with
      | (c, some H) => together0 n c (pure (some (o.size, o.nmemb, 0, H))) .ub
      | _ => .ub) .ub
  | .grow => do
    let bf ← mpiFileOpen n file
    together0 n (fun r => (bf r).1) (do
      match ← Phases.alone (mpiOpenBlock env (bf 0).2 b!"TestBlock") with
      | (0, some H) => do
        let (c, H') ← mpiGrow env n H (evenSplit o.size (simFiles n o))
        together0 n c (pure (some (o.size, (H' 0).nmemb, (H 0).size, H'))) .ub
      | _ => .ub) (pure none)
  | _ => do
    let bf ← mpiFileOpen n file
    together0 n (fun r => (bf r).1) (do
      match ← Phases.alone (mpiOpenBlock env (bf 0).2 b!"TestBlock") with
      | (0, some H) => pure (some ((H 0).size, (H 0).nmemb, 0, H))
      | _ => .ub) (pure none)

/-- The transfer and the close (bigfile-iosim.c:157-247). Process `r` gets from `malloc` the address `buf r` in its memory `mem r`. The codes
of writing, reading and closing are ignored. `abort` on any process ends the program. -/
def simTransfer (env : Env) (n : Nat) (mode : SimMode) (o : SimOpts) (size : Nat) (nmemb : Int) (row : Nat) (H : Nat → Block)
    (buf : Nat → Int) (mem : Nat → Mem) : Phases Exit := do
  let arr ← Phases.together n fun r => Prog.lift (arrayInit env.m (buf r) b!"i8" [simLocal size n r, u64 nmemb] none)
  match mode with
  | .read => do
    let out ← Phases.together n fun r => xferP env false n (simWriters n o) (simThreshold o) r row (H r) (arr r) (mem r)
    if (List.range n).all fun r => simRight env.m (buf r) (simStart size n r) (simLocal size n r) nmemb (out r).2.mem then do
      let _ ← Phases.alone (mpiClose env n fun r => (out r).2.bb)
      pure .done
    else pure .aborted
  | _ => do
    let out ← Phases.together n fun r => xferP env true n (simWriters n o) (simThreshold o) r row (H r) (arr r)
      (simFill env.m (buf r) (simStart size n r) (simLocal size n r) nmemb (mem r))
    let _ ← Phases.alone (mpiClose env n fun r => (out r).2.bb)
    pure .done

/-- `iosim` on `n` processes (bigfile-iosim.c:58-247) for the file `file`. -/
def ioSim (env : Env) (n : Nat) (mode : SimMode) (o : SimOpts) (file : CStr) (buf : Nat → Int) (mem : Nat → Mem) : Phases Exit := do
  match ← simOpen env n o file mode with
  | none => pure .done
  | some (size, nmemb, row, H) => simTransfer env n mode o size nmemb row H buf mem

end Verif
