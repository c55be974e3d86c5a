import Verif.Spec.FileLife
import Verif.C.Ends
/-!
# Specification: the life of a file of many blocks that is used by one group of processes after another

One group of processes after another, of any size, opens some of the blocks of a file, makes more, uses them, and stops or is killed.
While it works, any file operation of any process may fail, and its processes take their steps in any order. (Nothing fails while it
opens the blocks.) What the next group does may depend on how the earlier ones ended.
-/

set_option autoImplicit false

namespace Verif.Spec

open Verif

/-- How a visit ended: all processes were killed, or they came to their end and got these answers. -/
inductive CommEnd where
  | killed
  | ended (xs : List CommAns)

/-- A history: `n` processes open the blocks `opens` and run a program; then others follow, depending on how it ended. -/
inductive CommLife where
  | rest
  | visit (n : Nat) (opens : CStr → Bool) (p : CommSession) (next : CommEnd → CommLife)

/-- The disk `fs'` may be left by `n` processes that find the disk `fs`, open the blocks `opens` and run `p` while file operations fail. -/
def CommVisitLeft (env : Env) (bf : CStr) (fs : FS) (n : Nat) (opens : CStr → Bool) (p : CommSession) (e : CommEnd) (fs' : FS) : Prop :=
  ∃ hs faults clock, (∀ m, opens m = false → hs m = none) ∧
    (∀ m, opens m = true → ∃ c H w', mpiOpenBlock env bf m ⟨fs, noFaults, c⟩ = .ok (0, some H) w' ∧ hs m = some H) ∧ NoSilent faults ∧
    ((∃ xs hs', e = .ended xs ∧ (runCommNoted env n bf hs p).Ends ⟨fs, faults, clock⟩ (some (xs, hs')) fs') ∨
     (e = .killed ∧ (runCommNoted env n bf hs p).Ends ⟨fs, faults, clock⟩ none fs'))

/-- A history may lead from one disk to another, the visits ending like this. -/
inductive CommDiskLife (env : Env) (bf : CStr) : FS → CommLife → List CommEnd → FS → Prop
  | rest (fs : FS) : CommDiskLife env bf fs .rest [] fs
  | visit (fs fs1 fs' : FS) (n : Nat) (opens : CStr → Bool) (p : CommSession) (next : CommEnd → CommLife) (e : CommEnd) (es : List CommEnd) :
      CommVisitLeft env bf fs n opens p e fs1 → CommDiskLife env bf fs1 (next e) es fs' →
      CommDiskLife env bf fs (.visit n opens p next) (e :: es) fs'

/-- The processes came to their end with these answers, or were killed, and this may lead from `D` to `D'`. Each operation has an effect
on its own block only. -/
def CommLeads (env : Env) (n : Nat) (D D' : DBlocks) (p : CommSession) : CommEnd → Prop
  | .ended xs => CommWent env n D p xs D'
  | .killed => CommLeaves env n D p D'

/-- What a history leads to. -/
inductive CommLifeLeads (env : Env) : DBlocks → CommLife → List CommEnd → DBlocks → Prop
  | rest (D : DBlocks) : CommLifeLeads env D .rest [] D
  | visit (D D1 D' : DBlocks) (n : Nat) (opens : CStr → Bool) (p : CommSession) (next : CommEnd → CommLife) (e : CommEnd) (es : List CommEnd) :
      (∀ m, opens m = true → ∃ K S, D m = some (K, S) ∧ S.Intact) →
      CommLeads env n (D.reopen opens) D1 p e → CommLifeLeads env D1 (next e) es D' → CommLifeLeads env D (.visit n opens p next) (e :: es) D'

/-- Every group opens only blocks whose header file and attribute file no earlier one can have damaged, and uses the blocks it
has opened or made as it should; whatever fails and whenever processes are killed. -/
def CommLife.Safe (env : Env) (bf : CStr) (N : CStr → Prop) : CommLife → DBlocks → Prop
  | .rest, _ => True
  | .visit n opens p next, D => (0 < n ∧ n < 2147483648) ∧ (∀ m, opens m = true → ∃ K S, D m = some (K, S) ∧ S.Intact) ∧
    p.Safe env n bf N ((D.reopen opens).only opens) ∧
    ∀ e D1, CommLeads env n (D.reopen opens) D1 p e → (next e).Safe env bf N D1

/-- The files of the blocks `D` are in this state, and blocks with names out of `N` can be made. -/
structure CommAtRest (env : Env) (bf : CStr) (N : CStr → Prop) (fs : FS) (D : DBlocks) : Prop where
  names : Names bf N fs
  blocks : FilesHold env bf N fs D

/-- The program does not make this block, and does nothing to it but operations `P`. -/
def CommSession.OnlyDoes (name : CStr) (P : MOp → Prop) : CommSession → Prop
  | .stop => True
  | .create m _ _ _ k => m ≠ name ∧ ∀ c, (k c).OnlyDoes name P
  | .use m op k => (m = name → P op) ∧ ∀ x, (k x).OnlyDoes name P

/-- No group of the history makes this block or does anything to it but operations `P` (it may open it). -/
def CommLife.OnlyDoes (name : CStr) (P : Nat → MOp → Prop) : CommLife → Prop
  | .rest => True
  | .visit n _ p next => p.OnlyDoes name (P n) ∧ ∀ e, (next e).OnlyDoes name P

/-- The operation of `n` processes does not write to row `q`. -/
def SparesRowAll (K : Kind) (q n : Nat) : MOp → Prop
  | .write row arr _ _ _ _ => ¬ (row ≤ q ∧ q < row + rowsBefore (rowsOf K arr) n)
  | .reopen _ => False
  | _ => True

/-- The operation is not a flush. -/
def NotFlushAll : MOp → Prop
  | .flush => False
  | .reopen _ => False
  | _ => True

/-- Of the visits that ended like this, every one either does not make or flush the block (it may then fail and be killed as it
likes), or came to its end, and one of its processes saw no error code. -/
def CommLife.SoundFor (name : CStr) : CommLife → List CommEnd → Prop
  | .visit n _ p next, e :: es => (p.OnlyDoes name NotFlushAll ∨ ∃ xs r, e = .ended xs ∧ r < n ∧ p.NoError r xs) ∧ (next e).SoundFor name es
  | _, _ => True

end Verif.Spec
