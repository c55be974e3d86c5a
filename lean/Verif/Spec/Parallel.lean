import Verif.C.Mem
/-!
# What parallel runs should do

Specifications for the parallel helpers, independent of how they are computed.
-/

set_option autoImplicit false

namespace Verif.Spec

/-- `l` splits `size` completely into parts that differ by at most one. -/
def EvenlySplits (size : Nat) (l : List Nat) : Prop :=
  l.sum = size ∧ ∀ a ∈ l, ∀ b ∈ l, a ≤ b + 1

/-- Number of rows held by segment `c`, where `P` lists size and segment of each process in rank
order. -/
def segTotal : List (Nat × Int) → Int → Nat
  | [], _ => 0
  | (s, d) :: t, c => (if d = c then s else 0) + segTotal t c

/-- `P` lists number of rows and segment (`-1`: none) of each process in rank order. The processes
with data are divided into `nseg` segments of consecutive processes, numbered in rank order; all
segments but the last hold more than `target` rows, and what a segment holds before its last
member is at most `target`. -/
structure GoodSegments (target nseg : Nat) (P : List (Nat × Int)) : Prop where
  range : ∀ x ∈ P, (x.1 = 0 ∧ x.2 = -1) ∨ (0 < x.1 ∧ 0 ≤ x.2 ∧ x.2 < nseg)
  order : P.Pairwise (fun a b => 0 < a.1 → 0 < b.1 → a.2 ≤ b.2)
  full : ∀ c : Nat, c + 1 < nseg → target < segTotal P c
  bounded : ∀ pre x post, P = pre ++ x :: post → 0 < x.1 → segTotal pre x.2 ≤ target

/-- Rank `r` is the lowest one whose value is an extremum of `vals` for the order `le`. -/
def LowestExtremum (le : Int → Int → Prop) (vals : List Int) (r : Nat) : Prop :=
  ∃ v, vals[r]? = some v ∧ (∀ v' ∈ vals, le v' v) ∧ ∀ r' < r, vals[r']? ≠ some v

/-- The `el` bytes of element number `i` of a buffer. -/
def elemAt (el : Nat) (buf : Mem) (i : Nat) : List Byte := peek buf ((el * i : Nat) : Int) el

/-- What an all-to-all exchange must deliver to rank `d`: in the receive buffer the elements sent by
rank 0 come first, then those sent by rank 1, and so on, each rank's in the order it has them in
its send buffer, where the elements for rank 0 come first, and so on. Nothing else is changed. -/
structure Delivered (el ntask : Nat) (sendbuf : Nat → Mem) (cnt : Nat → Nat → Nat) (recvbuf : Mem) (d : Nat)
    (result : Mem) : Prop where
  got : ∀ s < ntask, ∀ i < cnt s d,
    elemAt el result (((List.range s).map (fun r => cnt r d)).sum + i) =
      elemAt el (sendbuf s) (((List.range d).map (cnt s)).sum + i)
  frame : ∀ x : Int, x < 0 ∨ ((el * ((List.range ntask).map (fun r => cnt r d)).sum : Nat) : Int) ≤ x →
    result x = recvbuf x

end Verif.Spec
