import Verif.Spec.Copy
import Verif.Model.Python
/-!
# Specification: what NumPy does
-/

set_option autoImplicit false

namespace Verif.Spec

open Verif

/-- A bound of a slice of a sequence: missing, counted from the end, or counted from the beginning. -/
def npBound (size : Nat) (missing : Int) : Option Int → Int
  | none => missing
  | some x => if x < 0 then x + size else x

/-- The rows that NumPy gives for `full[start:stop]`, where `full` has `size` rows: those from `start` on and before `stop`. -/
def npRows (size : Nat) (start stop : Option Int) : List Nat :=
  (List.range size).filter fun i => decide (npBound size 0 start ≤ (i : Int) ∧ (i : Int) < npBound size size stop)

/-- A bound moved into the range of rows. -/
def clipTo (size : Nat) (x : Int) : Int := max 0 (min x size)

/-- The rows of an array in memory, `nm` elements of `w` bytes each. -/
def arrRows (a : Arr) (mem : Mem) (w nm : Nat) : List (List Byte) :=
  (List.range (a.dims.headD 0)).map fun i => rowOfElems (fun e => peek mem (elemAddr a e) w) nm i

/-- The condition under which an array-like object matches a block. -/
structure SourceOk (env : Env) (K : Kind) (src : PySource) : Prop where
  dtype : dtypeNormalize env.m src.dtype = K.dtype
  item : itemsize env.m src.dtype = K.w
  inner : (src.inner = [] ∧ K.nm = 1) ∨ src.inner = [K.nm]
  rows : ∀ i, i < src.size → (src.row i).length = K.nm * K.w

/-- Some of the rows of an array-like object are in the block. -/
def Content.upTo (A : Content) (src : PySource) (k : Nat) : Content :=
  { A with rows := fun r => if r < k then some (src.row r) else A.rows r }

/-- The content of a block created from an array-like object in `nfile` files: its rows and nothing else. -/
def ofSource (src : PySource) (nfile : Nat) : Content :=
  ⟨src.size, nfile, fun r => if r < src.size then some (src.row r) else none, AttrMap.empty, AttrMap.empty, false⟩

end Verif.Spec
