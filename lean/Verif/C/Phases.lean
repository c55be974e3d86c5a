import Verif.C.Proc
/-!
# Collective computations in phases

A collective function of `/repo/src/bigfile-mpi.c` is a sequence of phases. In some of them rank 0 works with the
files while all other processes wait for it in the exchange of errors and in the broadcast that follow; in the others
all processes work at the same time, and they end with an exchange of errors in which every process takes part.
No process enters a phase before all have left the one before it.

This file is about the composition of such phases and is not part of `/repo`. Simplification: that the processes
wait for each other between two phases is part of the model, it is not derived from the collective calls between them.
-/

set_option autoImplicit false

namespace Verif

/-- A collective computation: rank 0 alone, whose result all processes then know, or programs of all `n` processes. -/
inductive Phases (α : Type) : Type 1 where
  | ret (a : α)
  | ub
  | hang
  | root {β : Type} (m : M β) (k : β → Phases α)
  | all {β : Type} (n : Nat) (P : Nat → Prog β) (k : (Nat → β) → Phases α)

namespace Phases

/-- Sequencing. -/
def bind {α β : Type} : Phases α → (α → Phases β) → Phases β
  | .ret a, f => f a
  | .ub, _ => .ub
  | .hang, _ => .hang
  | .root m k, f => .root m (fun b => (k b).bind f)
  | .all n P k, f => .all n P (fun o => (k o).bind f)

instance : Monad Phases where
  pure := Phases.ret
  bind := Phases.bind

/-- Rank 0 works alone. -/
def alone {α : Type} (m : M α) : Phases α := .root m .ret
/-- All processes work, each on its own program. -/
def together {α : Type} (n : Nat) (P : Nat → Prog α) : Phases (Nat → α) := .all n P .ret
/-- A partial pure computation; `none` is undefined behaviour. -/
def lift {α : Type} : Option α → Phases α
  | some a => .ret a
  | none => .ub

end Phases

/-- The keys that the processes have tried to open. -/
def opened (es : List Event) : List Key := es.filterMap fun
  | .file _ (.fopen path _) _ => some (resolve path)
  | _ => none

/-- The list of keys after these events, when the nodes are `nd`. -/
def domAfter (nd : Nodes) (es : List Event) (dom : List Key) : List Key :=
  (opened es).foldl (fun d k => if (nd k).isSome = true ∧ k ∉ d then k :: d else d) dom

/-- All processes before their first step. -/
def startAll {α : Type} (P : Nat → Prog α) (nd : Nodes) : Conf α := ⟨fun r => ⟨P r, 0⟩, nd⟩

/-- **Every execution of a collective computation returns, and returns something that satisfies `Q`.** When rank 0
works alone, there is one execution. When all processes work, an execution is a run: no run is longer than a
fixed number of steps, and in every run that cannot go on all processes have returned. `F` are the faults of the
processes when all of them work. -/
def Phases.Ensures {α : Type} (F : Nat → Nat → Fault) : Phases α → World → (α → World → Prop) → Prop
  | .ret a, w, Q => Q a w
  | .ub, _, _ => False
  | .hang, _, _ => False
  | .root m k, w, Q =>
    match m w with
    | .ok b w' => (k b).Ensures F w' Q
    | _ => False
  | .all n P k, w, Q => ∃ B, ∀ es s, Run F n (startAll P w.fs.node) es s → es.length ≤ B ∧
      (s.Stuck F n → s.Finished n ∧ ∀ out, (∀ r, r < n → (s.thr r).prog = .ret (out r)) →
        (k out).Ensures F ⟨⟨s.nodes, domAfter s.nodes es w.fs.dom⟩, w.faults, w.clock⟩ Q)

end Verif
