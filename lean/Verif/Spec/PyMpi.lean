import Verif.Spec.Python
import Verif.Spec.MpiBlock
import Verif.Model.PyMpi
/-!
# Specification: arrays that are distributed over processes
-/

set_option autoImplicit false

namespace Verif.Spec

open Verif

/-- The rows of the arrays of `n` processes, in rank order. -/
def joinedRows (n : Nat) (src : Nat → PySource) : List (List Byte) :=
  (List.range n).flatMap fun r => (List.range (src r).size).map (src r).row

/-- The distributed array as one array. -/
def joined (n : Nat) (src : Nat → PySource) : PySource :=
  ⟨(src 0).dtype, (src 0).inner, (joinedRows n src).length, fun i => (joinedRows n src).getD i []⟩

end Verif.Spec
