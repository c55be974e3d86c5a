import Verif.Spec.CommLife
/-!
# Specification: the life of a file of many blocks that is used by single processes and by groups of processes

One visitor after another — a single process, or a group of processes of any size — opens some of the blocks of a file, makes more, uses
them, and stops or is killed; see `Verif/Spec/FileLife.lean` and `Verif/Spec/CommLife.lean`. What the next visitor does may depend on
how the earlier ones ended.
-/

set_option autoImplicit false

namespace Verif.Spec

open Verif

/-- A visitor opens the blocks `opens` and runs a program: one process, or `n` processes. -/
inductive MixedVisit where
  | alone (opens : CStr → Bool) (p : FileSession)
  | group (n : Nat) (opens : CStr → Bool) (p : CommSession)

/-- How a visit ended: killed, or with these answers to the process or to the processes. -/
inductive MixedEnd where
  | killed
  | one (xs : List FileAns)
  | all (xs : List CommAns)

/-- The end of the visit of a single process. -/
def FileEnd.mixed : FileEnd → MixedEnd
  | .killed => .killed
  | .ended xs => .one xs

/-- The end of the visit of a group. -/
def CommEnd.mixed : CommEnd → MixedEnd
  | .killed => .killed
  | .ended xs => .all xs

/-- A history of visits, each depending on how the earlier ones ended. -/
inductive MixedLife where
  | rest
  | visit (v : MixedVisit) (next : MixedEnd → MixedLife)

/-- The blocks that the visitor opens. -/
def MixedVisit.opens : MixedVisit → CStr → Bool
  | .alone o _ => o
  | .group _ o _ => o

/-- The disk `fs'` may be left by a visitor that finds the disk `fs`. -/
inductive MixedVisitLeft (env : Env) (bf : CStr) (fs fs' : FS) : MixedVisit → MixedEnd → Prop
  | alone (opens : CStr → Bool) (p : FileSession) (e : FileEnd) : FileVisitLeft env bf fs opens p e fs' →
      MixedVisitLeft env bf fs fs' (.alone opens p) e.mixed
  | group (n : Nat) (opens : CStr → Bool) (p : CommSession) (e : CommEnd) : CommVisitLeft env bf fs n opens p e fs' →
      MixedVisitLeft env bf fs fs' (.group n opens p) e.mixed

/-- A history may lead from one disk to another, the visits ending like this. -/
inductive MixedDiskLife (env : Env) (bf : CStr) : FS → MixedLife → List MixedEnd → FS → Prop
  | rest (fs : FS) : MixedDiskLife env bf fs .rest [] fs
  | visit (fs fs1 fs' : FS) (v : MixedVisit) (next : MixedEnd → MixedLife) (e : MixedEnd) (es : List MixedEnd) :
      MixedVisitLeft env bf fs fs1 v e → MixedDiskLife env bf fs1 (next e) es fs' → MixedDiskLife env bf fs (.visit v next) (e :: es) fs'

/-- The visit, which ends like this, may lead from `D` to `D'`. Each operation has an effect on its own block only. -/
inductive MixedLeads (env : Env) (D D' : DBlocks) : MixedVisit → MixedEnd → Prop
  | alone (opens : CStr → Bool) (p : FileSession) (e : FileEnd) : FileLeads env D D' p e → MixedLeads env D D' (.alone opens p) e.mixed
  | group (n : Nat) (opens : CStr → Bool) (p : CommSession) (e : CommEnd) : CommLeads env n D D' p e → MixedLeads env D D' (.group n opens p) e.mixed

/-- What a history leads to. -/
inductive MixedLifeLeads (env : Env) : DBlocks → MixedLife → List MixedEnd → DBlocks → Prop
  | rest (D : DBlocks) : MixedLifeLeads env D .rest [] D
  | visit (D D1 D' : DBlocks) (v : MixedVisit) (next : MixedEnd → MixedLife) (e : MixedEnd) (es : List MixedEnd) :
      (∀ m, v.opens m = true → ∃ K S, D m = some (K, S) ∧ S.Intact) →
      MixedLeads env (D.reopen v.opens) D1 v e → MixedLifeLeads env D1 (next e) es D' → MixedLifeLeads env D (.visit v next) (e :: es) D'

/-- The program of the visitor uses the blocks that are open as it should. -/
def MixedVisit.Safe (env : Env) (bf : CStr) (N : CStr → Prop) (D : DBlocks) : MixedVisit → Prop
  | .alone _ p => p.Safe env bf N D
  | .group n _ p => (0 < n ∧ n < 2147483648) ∧ p.Safe env n bf N D

/-- Every visitor opens only blocks whose header file and attribute file no earlier one can have damaged, and uses the blocks it
has opened or made as it should; whatever fails and whenever processes are killed. -/
def MixedLife.Safe (env : Env) (bf : CStr) (N : CStr → Prop) : MixedLife → DBlocks → Prop
  | .rest, _ => True
  | .visit v next, D => (∀ m, v.opens m = true → ∃ K S, D m = some (K, S) ∧ S.Intact) ∧
    v.Safe env bf N ((D.reopen v.opens).only v.opens) ∧
    ∀ e D1, MixedLeads env (D.reopen v.opens) D1 v e → (next e).Safe env bf N D1

/-- The name can be used by single processes and by groups: the path is not too long, it has no zero byte, and the block is not the one that
holds the attributes of the file. -/
structure Handy (bf name : CStr) : Prop where
  length : (mpiPath bf name).length ≤ 8192
  noZero : (0 : Byte) ∉ mpiPath bf name
  notMeta : isMeta (pathJoin bf name) = false

/-- The visitor does not make this block, and does nothing to it but operations `P` (alone) or `Q` (in a group). -/
def MixedVisit.OnlyDoes (name : CStr) (P : BOp → Prop) (Q : Nat → MOp → Prop) : MixedVisit → Prop
  | .alone _ p => p.OnlyDoes name P
  | .group n _ p => p.OnlyDoes name (Q n)

/-- The same for all visitors of a history. -/
def MixedLife.OnlyDoes (name : CStr) (P : BOp → Prop) (Q : Nat → MOp → Prop) : MixedLife → Prop
  | .rest => True
  | .visit v next => v.OnlyDoes name P Q ∧ ∀ e, (next e).OnlyDoes name P Q

/-- The visit came to its end, and the process, or one of the processes, saw no error code. -/
def MixedVisit.Well : MixedVisit → MixedEnd → Prop
  | .alone _ p, .one xs => p.NoError xs
  | .group n _ p, .all xs => ∃ r, r < n ∧ p.NoError r xs
  | _, _ => False

/-- Of the visits that ended like this, every one either does not make or flush the block (it may then fail and be killed as it
likes), or came to its end without an error code. -/
def MixedLife.SoundFor (name : CStr) : MixedLife → List MixedEnd → Prop
  | .visit v next, e :: es => (v.OnlyDoes name NotFlush (fun _ => NotFlushAll) ∨ v.Well e) ∧ (next e).SoundFor name es
  | _, _ => True

end Verif.Spec
