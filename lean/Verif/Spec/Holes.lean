import Verif.Spec.Object
/-!
# Specification: rows that were never written

A data file ends after the last of its rows that was ever written. Rows before that one which were never written
read as zeros; rows after it cannot be read.
-/

set_option autoImplicit false

namespace Verif.Spec

open Verif

/-- What a block holds, and how many rows each of its files holds. -/
structure Holey where
  content : Content
  sizes : List Nat

/-- A new block with files of these sizes. -/
def Holey.fresh (sizes : List Nat) : Holey := ⟨Content.fresh sizes, sizes⟩

/-- Row `r`, or a later row of the same file, was written. -/
def Holey.reached (H : Holey) (r : Nat) : Prop :=
  ∃ r', r ≤ r' ∧ (locate H.sizes r').1 = (locate H.sizes r).1 ∧ (H.content.rows r').isSome = true

/-- What row `r` reads as: what was last written to it, or zeros. -/
def Holey.shown (K : Kind) (H : Holey) (r : Nat) : List Byte :=
  (H.content.rows r).getD (List.replicate (K.w * K.nm) 0)

/-- After an operation; growing adds files at the end. -/
def Holey.next (env : Env) (K : Kind) (H : Holey) (op : BOp) : Holey :=
  ⟨H.content.next env K op, match op with
    | .grow new => H.sizes ++ new
    | _ => H.sizes⟩

/-- As `Content.legal`, but any rows may be read: what they read as must be convertible. -/
def Holey.legal (env : Env) (K : Kind) (H : Holey) : BOp → Prop
  | .read row a _ sw => row < 9223372036854775808 ∧ ArrayOk env a sw ∧ Disjoint a sw ∧
    convertible env.m env.fo a.dtype K.dtype = true ∧
    (row + a.size / K.nm ≤ H.content.size → ∀ i, i < a.size / K.nm → H.reached (row + i) →
      ∀ j, j < K.nm → (fromBlock env K a (H.shown K (row + i)) j).isSome = true)
  | op => H.content.legal env K op

/-- As `Content.answers`, but for reads: a read of rows inside the block succeeds exactly if each of its rows, or a later
row of the same file, was written; it then gives what was written, and zeros for rows that were not. A
read that fails changes nothing outside the elements of the array. -/
def Holey.answers (env : Env) (K : Kind) (H : Holey) : BOp → BAns → Prop
  | .read row a mem sw, ans =>
    if row + a.size / K.nm ≤ H.content.size then
      ((∀ i, i < a.size / K.nm → H.reached (row + i)) → ans.rc = 0 ∧
        ∀ i, i < a.size / K.nm → ∀ j, j < K.nm →
          fromBlock env K a (H.shown K (row + i)) j = some (peek ans.mem (elemAddr a (i * K.nm + j)) sw)) ∧
      (¬ (∀ i, i < a.size / K.nm → H.reached (row + i)) → ans.rc = -1) ∧
      ∀ y, ¬ InElems a sw 0 (a.size / K.nm * K.nm) y → ans.mem y = mem y
    else ans.rc = -1 ∧ ans.mem = mem
  | op, ans => H.content.answers env K op ans

/-- The history of contents. -/
def Holey.after (env : Env) (K : Kind) : Holey → List BOp → Holey
  | H, [] => H
  | H, op :: ops => (H.next env K op).after env K ops

/-- Every operation of a history is legal when it happens. -/
def Holey.allLegal (env : Env) (K : Kind) : Holey → List BOp → Prop
  | _, [] => True
  | H, op :: ops => H.legal env K op ∧ (H.next env K op).allLegal env K ops

/-- Every operation of a history was answered as it should. -/
def Holey.allAnswered (env : Env) (K : Kind) : Holey → List BOp → List BAns → Prop
  | _, [], [] => True
  | H, op :: ops, x :: xs => H.answers env K op x ∧ (H.next env K op).allAnswered env K ops xs
  | _, _, _ => False

end Verif.Spec
