import Verif.Model.IoSim
import Verif.Spec.Shared
/-!
# Specification of bigfile-iosim
-/

set_option autoImplicit false

namespace Verif.Spec

open Verif

/-- The kind of the block `TestBlock`: rows of `nm` integers of 8 bytes, in the byte order of the machine. -/
def simKind (m : Machine) (nm : Nat) : Kind := ⟨dtypeNormalize m b!"i8", 8, nm⟩

/-- The row that is `nm` times the number `q`. -/
def simRow (m : Machine) (nm q : Nat) : List Byte := (List.replicate nm (natEnc m 8 q)).flatten

/-- The content `A` with row numbers in the rows `from, from + 1, ...`: row `from + q` holds the number `q`, for `q < count`. -/
def Content.numbered (m : Machine) (nm : Nat) (A : Content) (start count : Nat) : Content :=
  { A with rows := fun q => if start ≤ q ∧ q < start + count then some (simRow m nm (q - start)) else A.rows q }

/-- The number of files that `create` makes and `grow` adds: as many as asked for with `-f`; without it, one for each writer, and there is
a writer for each process unless fewer are asked for with `-n`. -/
def simFileCount (n : Nat) (o : SimOpts) : Nat :=
  if o.nfile = 0 then (if o.nwriter = 0 then n else min n o.nwriter.toNat) else o.nfile

/-- A run of the program on `n` processes: the command, the options, and what `malloc` gives. -/
structure SimRun where
  n : Nat
  mode : SimMode
  opts : SimOpts
  buf : Nat → Int
  mem : Nat → Mem

/-- What the block holds after a run. `grow` numbers the new rows from 0. -/
def Content.afterSim (m : Machine) (nm : Nat) (A : Content) (s : SimRun) : Content :=
  match s.mode with
  | .update => A.numbered m nm 0 A.size
  | .grow => { A with size := A.size + s.opts.size, nfile := A.nfile + simFileCount s.n s.opts }.numbered m nm A.size s.opts.size
  | _ => A

/-- How a run must end: `read` aborts if a row does not hold its number. -/
def Content.simExit (m : Machine) (nm : Nat) (A : Content) (s : SimRun) : Exit :=
  if s.mode = .read ∧ ¬ ∀ q, q < A.size → A.rows q = some (simRow m nm q) then .aborted else .done

/-- What the users must observe: the block exists, so it is not created; it is smaller than `2^31` rows, also after `grow`, and has not too many
files. -/
def Content.simLegal (nm : Nat) (A : Content) (s : SimRun) : Prop :=
  0 < s.n ∧ s.n < 2147483648 ∧ s.mode ≠ .create ∧
    (s.mode = .grow → 0 ≤ s.opts.nwriter ∧ A.nfile + simFileCount s.n s.opts ≤ 16777216 ∧ A.size + s.opts.size < 2147483648 ∧
      (A.size + s.opts.size) * (8 * nm) < 9223372036854775808)

/-- Runs one after another: how each ends. -/
def runSims (env : Env) (file : CStr) : List SimRun → Phases (List Exit)
  | [] => pure []
  | s :: ss => do
    let e ← ioSim env s.n s.mode s.opts file s.buf s.mem
    let es ← runSims env file ss
    pure (e :: es)

/-- What the block holds after the runs. -/
def Content.afterSims (m : Machine) (nm : Nat) : Content → List SimRun → Content
  | A, [] => A
  | A, s :: ss => (A.afterSim m nm s).afterSims m nm ss

/-- How the runs must end. -/
def Content.simExits (m : Machine) (nm : Nat) : Content → List SimRun → List Exit
  | _, [] => []
  | A, s :: ss => A.simExit m nm s :: (A.afterSim m nm s).simExits m nm ss

/-- Every run is legal when it happens. -/
def Content.simsLegal (m : Machine) (nm : Nat) : Content → List SimRun → Prop
  | _, [] => True
  | A, s :: ss => A.simLegal nm s ∧ (A.afterSim m nm s).simsLegal m nm ss

end Verif.Spec
