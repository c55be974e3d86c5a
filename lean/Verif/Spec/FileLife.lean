import Verif.Spec.BlocksWent
import Verif.Spec.Life
/-!
# Specification: the life of a file of many blocks through sessions that fail and are killed

One process after another opens some of the blocks of a file, makes more, uses them, and stops or is killed. While it works, any
file operation may fail. (Nothing fails while it opens the blocks.) What the next process does may depend on how the earlier
ones ended.
-/

set_option autoImplicit false

namespace Verif.Spec

open Verif

/-- How a visit ended: it was killed, or it came to its end and got these answers. -/
inductive FileEnd where
  | killed
  | ended (xs : List FileAns)

/-- A history: a process opens the blocks `opens` and runs a program; then others follow, depending on how it ended. -/
inductive FileLife where
  | rest
  | visit (opens : CStr → Bool) (p : FileSession) (next : FileEnd → FileLife)

/-- The disk `fs'` may be left by a process that finds the disk `fs`, opens the blocks `opens` and runs `p` while file operations fail. -/
def FileVisitLeft (env : Env) (bf : CStr) (fs : FS) (opens : CStr → Bool) (p : FileSession) (e : FileEnd) (fs' : FS) : Prop :=
  ∃ hs faults clock, (∀ n, opens n = false → hs n = none) ∧
    (∀ n, opens n = true → ∃ c b w', openBlock env bf n ⟨fs, noFaults, c⟩ = .ok (0, some b) w' ∧ hs n = some b) ∧ NoSilent faults ∧
    ((∃ xs hs' w', e = .ended xs ∧ runFileNoted env bf hs p ⟨fs, faults, clock⟩ = .ok (xs, hs') w' ∧ w'.fs = fs') ∨
     (∃ w', e = .killed ∧ runFileNoted env bf hs p ⟨fs, faults, clock⟩ = .crash w' ∧ w'.fs = fs'))

/-- A history may lead from one disk to another, the visits ending like this. -/
inductive FileDiskLife (env : Env) (bf : CStr) : FS → FileLife → List FileEnd → FS → Prop
  | rest (fs : FS) : FileDiskLife env bf fs .rest [] fs
  | visit (fs fs1 fs' : FS) (opens : CStr → Bool) (p : FileSession) (next : FileEnd → FileLife) (e : FileEnd) (es : List FileEnd) :
      FileVisitLeft env bf fs opens p e fs1 → FileDiskLife env bf fs1 (next e) es fs' → FileDiskLife env bf fs (.visit opens p next) (e :: es) fs'

/-- A block that is opened starts with what is stored of it. -/
def Durable.again (S : Durable) : Durable :=
  match S.stored with
  | some (m, k) => S.reopened m k
  | none => S

/-- The blocks after some of them have been opened. -/
def DBlocks.reopen (D : DBlocks) (opens : CStr → Bool) : DBlocks := fun n =>
  (D n).map fun KS => (KS.1, if opens n then KS.2.again else KS.2)

/-- The blocks that are open. -/
def DBlocks.only (D : DBlocks) (opens : CStr → Bool) : DBlocks := fun n => if opens n then D n else none

/-- The process came to its end with these answers, or was killed, and this may lead from `D` to `D'`. Each operation has an effect
on its own block only. -/
def FileLeads (env : Env) (D D' : DBlocks) (p : FileSession) : FileEnd → Prop
  | .ended xs => FileWent env D p xs D'
  | .killed => FileLeaves env D p D'

/-- What a history leads to. -/
inductive FileLifeLeads (env : Env) : DBlocks → FileLife → List FileEnd → DBlocks → Prop
  | rest (D : DBlocks) : FileLifeLeads env D .rest [] D
  | visit (D D1 D' : DBlocks) (opens : CStr → Bool) (p : FileSession) (next : FileEnd → FileLife) (e : FileEnd) (es : List FileEnd) :
      (∀ n, opens n = true → ∃ K S, D n = some (K, S) ∧ S.Intact) →
      FileLeads env (D.reopen opens) D1 p e → FileLifeLeads env D1 (next e) es D' → FileLifeLeads env D (.visit opens p next) (e :: es) D'

/-- Every process opens only blocks whose header file and attribute file no earlier process can have damaged, and uses the blocks it
has opened or made as it should; whatever fails and whenever processes are killed. -/
def FileLife.Safe (env : Env) (bf : CStr) (N : CStr → Prop) : FileLife → DBlocks → Prop
  | .rest, _ => True
  | .visit opens p next, D => (∀ n, opens n = true → ∃ K S, D n = some (K, S) ∧ S.Intact) ∧
    p.Safe env bf N ((D.reopen opens).only opens) ∧
    ∀ e D1, FileLeads env (D.reopen opens) D1 p e → (next e).Safe env bf N D1

/-- The files of the blocks `D` are in this state, and blocks with names out of `N` can be made. -/
structure FileAtRest (env : Env) (bf : CStr) (N : CStr → Prop) (fs : FS) (D : DBlocks) : Prop where
  tree : TreeOk fs
  names : Names bf N fs
  blocks : ∀ n K S, D n = some (K, S) → N n ∧ AtRest env K (pathJoin bf n) fs S

/-- The program does not make this block, and does nothing to it but operations `P`. -/
def FileSession.OnlyDoes (name : CStr) (P : BOp → Prop) : FileSession → Prop
  | .stop => True
  | .create n _ _ _ k => n ≠ name ∧ ∀ x, (k x).OnlyDoes name P
  | .use n op k => (n = name → P op) ∧ ∀ x, (k x).OnlyDoes name P

/-- No process of the history makes this block or does anything to it but operations `P` (it may open it). -/
def FileLife.OnlyDoes (name : CStr) (P : BOp → Prop) : FileLife → Prop
  | .rest => True
  | .visit _ p next => p.OnlyDoes name P ∧ ∀ e, (next e).OnlyDoes name P

/-- The operation does not write to row `q`. -/
def SparesRow (K : Kind) (q : Nat) : BOp → Prop
  | .write p a _ _ => ¬ (p ≤ q ∧ q < p + a.size / K.nm)
  | .reopen => False
  | _ => True

/-- The operation is not a flush. -/
def NotFlush : BOp → Prop
  | .flush => False
  | .reopen => False
  | _ => True

/-- Of the visits that ended like this, every one either does not make or flush the block (it may then fail and be killed as it
likes), or came to its end without an error code. -/
def FileLife.SoundFor (name : CStr) : FileLife → List FileEnd → Prop
  | .visit _ p next, e :: es => (p.OnlyDoes name NotFlush ∨ ∃ xs, e = .ended xs ∧ p.NoError xs) ∧ (next e).SoundFor name es
  | _, _ => True

end Verif.Spec
