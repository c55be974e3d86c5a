import Verif.Model.Array
/-!
# Specification: which memory belongs to an array

Independent of the iterators: an n-dimensional array with strides, in row-major (C) order.
-/

set_option autoImplicit false

namespace Verif.Spec

open Verif

/-- Number of elements. -/
def prodN : List Nat → Nat
  | [] => 1
  | d :: ds => d * prodN ds

/-- The multi-index of the `k`-th element in row-major order (numpy's `unravel_index`): the index in
a dimension is `k` divided by the number of elements of the inner dimensions, modulo the
dimension. -/
def unravel : List Nat → Nat → List Nat
  | [], _ => []
  | d :: ds, k => (k / prodN ds) % d :: unravel ds k

/-- Address offset of a multi-index: sum of index times stride. -/
def dot : List Nat → List Int → Int
  | i :: is, s :: ss => i * s + dot is ss
  | _, _ => 0

/-- Address of the `k`-th element in row-major order. -/
def elemAddr (a : Arr) (k : Nat) : Int := a.data + dot (unravel a.dims k) a.strides

/-- A usable array: at least one dimension, one stride per dimension, at most 32 dimensions, and the
recorded size is the true number of elements, which is positive. -/
structure ArrOk (a : Arr) : Prop where
  ne : a.dims ≠ []
  len : a.strides.length = a.dims.length
  le32 : a.dims.length ≤ 32
  size : a.size = prodN a.dims
  pos : 0 < a.size

/-- No two elements (of width `w`) of the array overlap in memory. -/
def Disjoint (a : Arr) (w : Nat) : Prop :=
  ∀ i j, i < a.size → j < a.size → i ≠ j →
    elemAddr a i + w ≤ elemAddr a j ∨ elemAddr a j + w ≤ elemAddr a i

/-- Address `x` lies in one of the elements `k, ..., k+n-1` of the array. -/
def InElems (a : Arr) (w k n : Nat) (x : Int) : Prop :=
  ∃ i, i < n ∧ elemAddr a (k + i) ≤ x ∧ x < elemAddr a (k + i) + w

/-- The elements `k, ..., k+n-1` of an array, as byte strings. -/
def elems (m : Mem) (a : Arr) (w k n : Nat) : List (List Byte) :=
  (List.range n).map fun i => peek m (elemAddr a (k + i)) w

/-- A multi-index inside the bounds. -/
def Valid : List Nat → List Nat → Prop
  | [], [] => True
  | i :: is, d :: ds => i < d ∧ Valid is ds
  | _, _ => False

/-- Row-major rank of a multi-index: the last index varies fastest. -/
def rank : List Nat → List Nat → Nat
  | i :: is, _ :: ds => i * prodN ds + rank is ds
  | _, _ => 0

end Verif.Spec
