import Verif.C.Phases
/-!
# Collective computations under failures

This file is about executions and is not part of `/repo`.
-/

set_option autoImplicit false

namespace Verif

/-- **Whatever fails, every execution of a collective computation returns something that satisfies `Q`, and whenever
everything is killed the files satisfy `R`.** When rank 0 works alone, it meets the faults of its world, which may kill it.
When all processes work, the operations of each of them may fail or be cut short in any pattern, and another one in each
phase; the files satisfy `R` after each step of each run. (An operation of a process that is killed in the middle is an operation
that is cut short, and after which the process does nothing any more.) -/
def Phases.Withstands {α : Type} : Phases α → World → (α → World → Prop) → (FS → Prop) → Prop
  | .ret a, w, Q, _ => Q a w
  | .ub, _, _, _ => False
  | .hang, _, _, _ => False
  | .root m k, w, Q, R =>
    match m w with
    | .ok b w' => (k b).Withstands w' Q R
    | .crash w' => R w'.fs
    | _ => False
  | .all n P k, w, Q, R => ∀ F : Nat → Nat → Fault, (∀ r t m, F r t ≠ .crash m) →
      ∃ B, ∀ es s, Run F n (startAll P w.fs.node) es s → es.length ≤ B ∧ R ⟨s.nodes, domAfter s.nodes es w.fs.dom⟩ ∧
        (s.Stuck F n → s.Finished n ∧ ∀ out, (∀ r, r < n → (s.thr r).prog = .ret (out r)) →
          (k out).Withstands ⟨⟨s.nodes, domAfter s.nodes es w.fs.dom⟩, w.faults, w.clock⟩ Q R)

end Verif
