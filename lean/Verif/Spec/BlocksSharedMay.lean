import Verif.Spec.BlocksMay
import Verif.Spec.BlocksShared
import Verif.Spec.SharedMay
/-!
# Specification: a file of several blocks, shared by several processes, with failures and kills

The processes of a communicator make blocks in a file and use them together. Any file operation of any process may fail, and
they may all be killed at any moment. The processes see the answers and may go on after failures.
-/

set_option autoImplicit false

namespace Verif.Spec

open Verif

/-- A collective program: it stops, makes a block or uses one, and goes on depending on the answers that the processes got. -/
inductive CommSession where
  | stop
  | create (name dt : CStr) (nmemb : Nat) (sizes : List Nat) (next : (Nat → Int) → CommSession)
  | use (name : CStr) (op : MOp) (next : (Nat → BAns) → CommSession)

/-- Run it on `n` processes. -/
def runCommSession (env : Env) (n : Nat) (bf : CStr) : SharedHandles → CommSession → Phases SharedHandles
  | hs, .stop => pure hs
  | hs, .create name dt nmemb sizes k => do
    let (c, o) ← mpiCreateBlock env n bf name (some dt) nmemb sizes
    runCommSession env n bf (fun m => if m = name then o else hs m) (k c)
  | hs, .use name op k =>
    match hs name with
    | none => Phases.hang
    | some H => do
      let (x, H') ← runMOp env n H op
      runCommSession env n bf (fun m => if m = name then some H' else hs m) (k x)

/-- A block that the processes have just made, and that is stored. -/
def sharedMade (m : Machine) (dt : CStr) (nmemb : Nat) (sizes : List Nat) : Kind × Durable :=
  (⟨dtypeNormalize m dt, (itemsize m dt).toNat, nmemb⟩, Durable.opened (Content.fresh sizes))

/-- Making the block worked: every process got 0. -/
def AllMade (n : Nat) (c : Nat → Int) : Prop := ∀ r, r < n → c r = 0

/-- Making the block failed: all processes got the same code, and it is not 0. -/
def NoneMade (n : Nat) (c : Nat → Int) : Prop := ∃ e : Int, e ≠ 0 ∧ ∀ r, r < n → c r = e

/-- The program does what it may, whatever fails: it makes blocks with names out of `N`, and uses those it has. -/
def CommSession.Safe (env : Env) (n : Nat) (bf : CStr) (N : CStr → Prop) : CommSession → DBlocks → Prop
  | .stop, _ => True
  | .create name dt nmemb sizes k, D => N name ∧ MakeableAll env bf name dt nmemb sizes ∧ ∀ c,
    (AllMade n c → (k c).Safe env n bf N (D.put name (some (sharedMade env.m dt nmemb sizes)))) ∧
    (NoneMade n c → (k c).Safe env n bf N (D.put name none))
  | .use name op k, D => ∃ K S, D name = some (K, S) ∧ S.legalAll env K n op ∧
    ∀ x S', S.OutcomeAll env K n op x S' → (k x).Safe env n bf N (D.put name (some (K, S')))

/-- Running the program from `D`, with any failures and kills, may leave `D'` behind: every operation has one of the outcomes of
`Spec/SharedMay.lean` for its own block, and **changes no other block**. If making a block fails or is interrupted, nothing is
known of that block. -/
inductive CommLeaves (env : Env) (n : Nat) : DBlocks → CommSession → DBlocks → Prop
  | stop (D : DBlocks) : CommLeaves env n D .stop D
  | made (D D' : DBlocks) (name dt : CStr) (nmemb : Nat) (sizes : List Nat) (k : (Nat → Int) → CommSession) (c : Nat → Int) : AllMade n c →
      CommLeaves env n (D.put name (some (sharedMade env.m dt nmemb sizes))) (k c) D' → CommLeaves env n D (.create name dt nmemb sizes k) D'
  | notMade (D D' : DBlocks) (name dt : CStr) (nmemb : Nat) (sizes : List Nat) (k : (Nat → Int) → CommSession) (c : Nat → Int) : NoneMade n c →
      CommLeaves env n (D.put name none) (k c) D' → CommLeaves env n D (.create name dt nmemb sizes k) D'
  | killedMaking (D : DBlocks) (name dt : CStr) (nmemb : Nat) (sizes : List Nat) (k : (Nat → Int) → CommSession) :
      CommLeaves env n D (.create name dt nmemb sizes k) (D.put name none)
  | step (D D' : DBlocks) (name : CStr) (op : MOp) (k : (Nat → BAns) → CommSession) (K : Kind) (S S1 : Durable) (x : Nat → BAns) : D name = some (K, S) →
      S.OutcomeAll env K n op x S1 → CommLeaves env n (D.put name (some (K, S1))) (k x) D' → CommLeaves env n D (.use name op k) D'
  | killed (D : DBlocks) (name : CStr) (op : MOp) (k : (Nat → BAns) → CommSession) (K : Kind) (S S1 : Durable) : D name = some (K, S) →
      S.KilledAll K n op S1 → CommLeaves env n D (.use name op k) (D.put name (some (K, S1)))

/-- The program does nothing with this block. -/
def CommSession.Ignores (name : CStr) : CommSession → Prop
  | .stop => True
  | .create m _ _ _ k => m ≠ name ∧ ∀ x, (k x).Ignores name
  | .use m _ k => m ≠ name ∧ ∀ x, (k x).Ignores name

/-- The handles of the `n` processes and the files of the blocks are in the state `D`. -/
def CommHold (env : Env) (n : Nat) (bf : CStr) (N : CStr → Prop) (hs : SharedHandles) (fs : FS) (D : DBlocks) : Prop :=
  ∀ m K S, D m = some (K, S) → N m ∧ ∃ H, hs m = some H ∧ (H 0).basename = mpiPath bf m ∧ HoldsAllD env K n H fs S

/-- The files of the blocks are in the state `D`. -/
def FilesHold (env : Env) (bf : CStr) (N : CStr → Prop) (fs : FS) (D : DBlocks) : Prop :=
  ∀ m K S, D m = some (K, S) → N m ∧ ∃ b, b.basename = mpiPath bf m ∧ (0 : Byte) ∉ b.basename ∧ HoldsD env K b fs S

/-- The files are in a state that the program may leave behind; and every block whose header file (in this state) records `m` rows
in `k` files, and whose attribute file is not damaged, can be opened by any number of processes, which find the first `m` rows
as they were written and the stored attributes. -/
def BlocksFound (env : Env) (n : Nat) (bf : CStr) (D : DBlocks) (p : CommSession) (fs : FS) : Prop :=
  ∃ D', CommLeaves env n D p D' ∧ ∀ name K S m k, D' name = some (K, S) → S.stored = some (m, k) → S.attrsKnown = true →
    ∀ c n', 0 < n' ∧ n' < 2147483648 → ∃ H' w', mpiOpenBlock env bf name ⟨fs, noFaults, c⟩ = .ok (0, some H') w' ∧ w'.fs = fs ∧
      HoldsAllD env K n' H' fs ⟨S.recovered m k, some (m, k), true, S.whole⟩ ∧
      (S.whole = true → HoldsAll env K n' H' fs (S.recovered m k))

end Verif.Spec
