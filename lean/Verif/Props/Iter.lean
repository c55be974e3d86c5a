import Verif.Proof.Iter
/-!
# C20: traversal order of strided arrays
-/

set_option autoImplicit false

namespace Verif

open Spec

/-- **C20.** In every array with at least one dimension and any strides, advancing the iterator as
often as the row-major rank of a multi-index reaches the address `data + Σ index_i * stride_i`. The
statement does not distinguish the contiguous fast path: it holds on both. -/
theorem C20_row_major (m : Machine) (a : Arr) (ha : ArrOk a) (idx : List Nat)
    (hv : Valid idx a.dims) :
    ∃ it, iterAdvanceN (iterInit m a) (rank idx a.dims) = some it ∧
      it.ptr = a.data + dot idx a.strides := by
  rw [iterInit_eq, iterAdvanceN_iterAt m a 0 _ ha]
  refine ⟨_, rfl, ?_⟩
  rw [Nat.zero_add, iterAt_ptr m a _ ha (by rw [ha.size]; exact rank_lt _ _ hv)]
  unfold elemAddr
  rw [unravel_rank _ _ hv]

/-- **C20, every position is reached.** After `k` steps (`k` below the size) the iterator is at the
element whose multi-index is `unravel dims k`, and that multi-index is valid and has rank `k`. -/
theorem C20_every_step (m : Machine) (a : Arr) (ha : ArrOk a) (k : Nat) (hk : k < a.size) :
    Valid (unravel a.dims k) a.dims ∧ rank (unravel a.dims k) a.dims = k ∧
    ∃ it, iterAdvanceN (iterInit m a) k = some it ∧
      it.ptr = a.data + dot (unravel a.dims k) a.strides := by
  have hpos : ∀ d ∈ a.dims, 0 < d := pos_of_prodN (by rw [← ha.size]; exact ha.pos)
  have hgen : ∀ (dims : List Nat) (k : Nat), (∀ d ∈ dims, 0 < d) →
      Valid (unravel dims k) dims ∧ rank (unravel dims k) dims = k % prodN dims := by
    intro dims
    induction dims with
    | nil => intro k _; simp [unravel, Valid, rank, prodN, Nat.mod_one]
    | cons d ds ih =>
      intro k hp
      obtain ⟨h1, h2⟩ := ih k (fun x hx => hp x (by simp [hx]))
      have hd := hp d (by simp)
      refine ⟨⟨Nat.mod_lt _ hd, h1⟩, ?_⟩
      simp only [unravel, rank, prodN, h2]
      rw [Nat.mul_comm d, Nat.mod_mul, Nat.mul_comm]
      omega
  obtain ⟨h1, h2⟩ := hgen a.dims k hpos
  refine ⟨h1, ?_, ?_⟩
  · rw [h2]; exact Nat.mod_eq_of_lt (by rw [← ha.size]; exact hk)
  · rw [iterInit_eq, iterAdvanceN_iterAt m a 0 _ ha]
    refine ⟨_, rfl, ?_⟩
    rw [Nat.zero_add, iterAt_ptr m a k ha hk]
    rfl

/-- A 2x3 array of `f4` in Fortran order with a negative outer stride. -/
def exArr : Arr :=
  { dtype := b!"<f4", dims := [2, 3], strides := [-4, 8], size := 6, data := 100 }

example : ArrOk exArr := ⟨by decide, rfl, by decide, rfl, by decide⟩
example : Valid [1, 2] exArr.dims ∧ rank [1, 2] exArr.dims = 5 := by simp [Valid, rank, prodN, exArr]
example : (iterAdvanceN (iterInit ⟨true, true⟩ exArr) 5).map (·.ptr) = some 112 := by decide

end Verif
