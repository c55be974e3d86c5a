import Verif.Spec.Copy
import Verif.Model.Sample
/-!
# Specification: a sample of rows
-/

set_option autoImplicit false

namespace Verif.Spec

open Verif

/-- `sel` is a choice of `n` different rows among the first `size`, in order. -/
structure Choice (sel : List Nat) (n size : Nat) : Prop where
  count : sel.length = n
  increasing : sel.Pairwise (· < ·)
  inside : ∀ r ∈ sel, r < size

/-- What GSL promises: `gsl_rng_uniform_int(rng, n)` is below `n`. -/
def FairDraw (draw : Nat → Nat → Nat) : Prop := ∀ i n, 0 < n → draw i n < n

end Verif.Spec
