import Verif.Spec.Went
import Verif.C.Ends
/-!
# Specification: the life of a block through sessions that fail and are killed

One after another, processes or groups of processes open a block, work on it, and stop or are killed. While they work, any
file operation may fail. (Nothing fails while they open the block.)
-/

set_option autoImplicit false

namespace Verif.Spec

open Verif

/-- One visit: a process alone, or `n` processes together, open the block and run a program. -/
inductive LifeVisit where
  | alone (p : Session)
  | shared (n : Nat) (p : MSession)

/-- How a visit ended: it was killed, or it came to its end and got these answers. -/
inductive VisitEnd where
  | killed
  | ended (xs : List BAns)
  | endedAll (xs : List (Nat → BAns))

/-- What the next visit starts with if the header file records `m` rows in `k` files and the attribute file is not damaged. -/
def Durable.reopened (S : Durable) (m k : Nat) : Durable := ⟨S.recovered m k, some (m, k), true, S.whole⟩

/-- The disk `fs'` may be left by a visit that finds the disk `fs`: the block is opened, and the program runs while file operations
fail. -/
def VisitLeft (env : Env) (base : CStr) (fs : FS) : LifeVisit → VisitEnd → FS → Prop
  | .alone p, e, fs' => ∃ c b w' faults clock, blockOpen env base ⟨fs, noFaults, c⟩ = .ok (0, some b) w' ∧ NoSilent faults ∧
    ((∃ xs b' w2, e = .ended xs ∧ runNoted env b p ⟨w'.fs, faults, clock⟩ = .ok (xs, b') w2 ∧ w2.fs = fs') ∨
     (∃ w2, e = .killed ∧ runNoted env b p ⟨w'.fs, faults, clock⟩ = .crash w2 ∧ w2.fs = fs'))
  | .shared n p, e, fs' => ∃ c H w' faults clock, mpiOpen env base ⟨fs, noFaults, c⟩ = .ok (0, some H) w' ∧ NoSilent faults ∧
    ((∃ xs H', e = .endedAll xs ∧ (runMNoted env n H p).Ends ⟨w'.fs, faults, clock⟩ (some (xs, H')) fs') ∨
     (e = .killed ∧ (runMNoted env n H p).Ends ⟨w'.fs, faults, clock⟩ none fs'))

/-- The program uses the block as it should. -/
def LifeVisit.Safe (env : Env) (K : Kind) (S : Durable) : LifeVisit → Prop
  | .alone p => p.Safe env K S
  | .shared n p => 0 < n ∧ n < 2147483648 ∧ p.Safe env K n S

/-- The visit, which ends like this, may lead from `S` to `S'`: if it came to its end, every operation had an outcome that its
answer allows. -/
def LifeVisit.Leads (env : Env) (K : Kind) (S S' : Durable) : LifeVisit → VisitEnd → Prop
  | .alone p, .ended xs => Went env K S p xs S'
  | .alone p, .killed => Leaves env K S p S'
  | .shared n p, .endedAll xs => WentAll env K n S p xs S'
  | .shared n p, .killed => LeavesAll env K n S p S'
  | _, _ => False

/-- The files of the block are in the state `S`. -/
def AtRest (env : Env) (K : Kind) (base : CStr) (fs : FS) (S : Durable) : Prop := ∃ b, b.basename = base ∧ HoldsD env K b fs S

/-- The block can be opened: neither the header file nor the attribute file is damaged. -/
def Durable.Intact (S : Durable) : Prop := S.stored.isSome = true ∧ S.attrsKnown = true

/-- A history of visits, with how each of them ended, may lead from one disk to another. -/
inductive DiskLife (env : Env) (base : CStr) : FS → List (LifeVisit × VisitEnd) → FS → Prop
  | nil (fs : FS) : DiskLife env base fs [] fs
  | cons (fs fs1 fs' : FS) (v : LifeVisit) (e : VisitEnd) (vs : List (LifeVisit × VisitEnd)) : VisitLeft env base fs v e fs1 →
      DiskLife env base fs1 vs fs' → DiskLife env base fs ((v, e) :: vs) fs'

/-- What a history of visits leads to; `none`: the header file or the attribute file was damaged on the way, when a flush was
interrupted or failed, and nothing more is claimed. -/
inductive LifeLeads (env : Env) (K : Kind) : Durable → List (LifeVisit × VisitEnd) → Option Durable → Prop
  | nil (S : Durable) : LifeLeads env K S [] (some S)
  | damaged (S : Durable) (vs : List (LifeVisit × VisitEnd)) : ¬ S.Intact → LifeLeads env K S vs none
  | cons (S S1 : Durable) (m k : Nat) (v : LifeVisit) (e : VisitEnd) (vs : List (LifeVisit × VisitEnd)) (o : Option Durable) :
      S.stored = some (m, k) → S.attrsKnown = true → v.Leads env K (S.reopened m k) S1 e → LifeLeads env K S1 vs o →
      LifeLeads env K S ((v, e) :: vs) o

/-- Every visit uses the block as it should, whatever the earlier ones left. -/
def LifeSafe (env : Env) (K : Kind) : List (LifeVisit × VisitEnd) → Durable → Prop
  | [], _ => True
  | (v, e) :: vs, S => ∀ m k, S.stored = some (m, k) → S.attrsKnown = true → v.Safe env K (S.reopened m k) ∧
    ∀ S1, v.Leads env K (S.reopened m k) S1 e → LifeSafe env K vs S1

/-- The visit never writes to row `q`. -/
def LifeVisit.Spares (K : Kind) (q : Nat) : LifeVisit → Prop
  | .alone p => p.Spares K q
  | .shared n p => p.Spares K n q

/-- The visit never flushes, or it came to its end and no operation answered with an error code (as one of the processes saw it). -/
def LifeVisit.Sound : LifeVisit → VisitEnd → Prop
  | .alone p, e => p.NoFlush ∨ ∃ xs, e = .ended xs ∧ p.NoError xs
  | .shared n p, e => p.NoFlush ∨ ∃ xs r, e = .endedAll xs ∧ r < n ∧ p.NoError r xs

/-- Row `q` is there and the header file, if it is not damaged, records it. -/
def RowIn (q : Nat) (S : Durable) : Prop := q < S.now.size ∧ ∀ m k, S.stored = some (m, k) → q < m

end Verif.Spec
