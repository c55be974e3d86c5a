import Verif.Spec.Mpi
/-!
# Specification: collective transfers that do not fit the block
-/

set_option autoImplicit false

namespace Verif.Spec

/-- What every process has when it takes part in a collective transfer that begins at row `p` of the block
`bb` and runs past its end: as in `Collective`, but the rows of all processes together are more than those
left in the block. -/
structure Overrun (env : Env) (bb : Block) (w nm n : Nat) (R : Nat → Rank) (p : Nat) (rows : Nat → Nat)
    (sw : Nat → Nat) : Prop where
  procs : 0 < n ∧ n < 2147483648
  block : ∀ r, r < n → BlockOk env (R r).bb w nm
  shape : ∀ r, r < n → SameShape bb (R r).bb
  points : ∀ r, r < n → PointsTo bb (R r).ptr p
  dims : ∀ r, r < n → (R r).arr.dims.head? = some (rows r)
  size : ∀ r, r < n → (R r).arr.size = rows r * nm
  strides : ∀ r, r < n → (R r).arr.strides ≠ []
  arr : ∀ r, r < n → 0 < rows r → XferOk env (R r).bb (R r).arr w (sw r) nm
  inside : p ≤ bb.size
  over : bb.size < p + rowsBefore rows n
  small : p + rowsBefore rows n < 9223372036854775808
  count : rowsBefore rows n < 2147483648
  bytes : rowsBefore rows n * nm * w < 9223372036854775808

/-- For a write: element `e` of the array of process `r` converts to the bytes `stored r e` of the block's
dtype. -/
structure OverrunWrite (env : Env) (bb : Block) (w nm n : Nat) (R : Nat → Rank) (p : Nat) (rows : Nat → Nat)
    (sw : Nat → Nat) (stored : Nat → Nat → List Byte) : Prop extends Overrun env bb w nm n R p rows sw where
  dis : ∀ r, r < n → foreign env.m (R r).arr.dtype = true → Disjoint (R r).arr (sw r)
  conv : ∀ r, r < n → ∀ e, e < rows r * nm →
    convElem env.m env.fo (dtypeNormalize env.m bb.dtype) (R r).arr.dtype
      (peek (R r).mem (elemAddr (R r).arr e) (sw r)) = some (stored r e)

/-- For a read: the array of every process has a dtype to which every element of the block converts. -/
structure OverrunRead (env : Env) (bb : Block) (w nm n : Nat) (R : Nat → Rank) (p : Nat) (rows : Nat → Nat)
    (sw : Nat → Nat) : Prop extends Overrun env bb w nm n R p rows sw where
  sup : ∀ r, r < n → 0 < rows r → convertible env.m env.fo (R r).arr.dtype (dtypeNormalize env.m bb.dtype) = true
  any : ConvertsAny env bb w n R rows

/-- All processes have returned the same code, which is not 0, and have the message of one of them. -/
def AllRefused (n : Nat) (R : Nat → Rank) (s : Conf (Int × Rank)) : Prop :=
  ∃ (rc : Int) (r0 : Nat), rc ≠ 0 ∧ r0 < n ∧ ∀ r, r < n → ∃ st, (s.thr r).prog = .ret (rc, st) ∧ st.err = some (R r0).fail

end Verif.Spec
