import Verif.Model.CopyMpi
/-!
# What the work queue must do
-/

set_option autoImplicit false

namespace Verif.Spec

open Verif

/-- The ranges (first row, number of rows) that some process has copied. -/
def copiedRanges (es : List CopyEvent) : List (Nat × Nat) :=
  es.filterMap fun e => match e with | .copied _ o l => some (o, l) | _ => none

/-- The ranges that could not be copied. -/
def failedRanges (es : List CopyEvent) : List (Nat × Nat) :=
  es.filterMap fun e => match e with | .failed _ o l => some (o, l) | _ => none

/-- How often a row is in one of the ranges. -/
def timesIn (row : Nat) (l : List (Nat × Nat)) : Nat := l.countP fun x => decide (x.1 ≤ row ∧ row < x.1 + x.2)

/-- Every process has left its function. -/
def AllLeft (n : Nat) (s : CopyConf) : Prop := s.server = .left ∧ ∀ r, 1 ≤ r → r < n → s.worker r = .left

/-- No process can go on. -/
def CopyStuck (n size : Nat) (s : CopyConf) : Prop := ∀ e s', ¬ CopyStep n size s e s'

/-- Number of messages to process 0 that were not received. -/
def unreceived (n : Nat) (s : CopyConf) : Nat := ((List.range n).map fun r => (s.toServer r).length).sum

end Verif.Spec
