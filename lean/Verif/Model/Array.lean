import Verif.C.Mem
import Verif.Model.Dtype
/-!
# BigArray and BigArrayIter

Models `/repo/src/bigfile.c` lines 1068-1148 and the structs of `/repo/src/bigfile.h` lines 52-70.
Pointers are integer addresses; `none` stands for undefined behaviour.
-/

set_option autoImplicit false

namespace Verif

/-- `struct BigArray` (bigfile.h:52-60). `ndim` is the length of `dims` and of `strides`.
Simplified: dims are natural numbers (the C field is `ptrdiff_t`, filled from `size_t`). -/
structure Arr where
  dtype : CStr
  dims : List Nat
  strides : List Int
  size : Nat
  data : Int
  deriving DecidableEq, Repr

/-- `struct BigArrayIter` (bigfile.h:62-68). -/
structure Iter where
  arr : Arr
  pos : List Nat
  contiguous : Bool
  ptr : Int

/-- Default strides (bigfile.c:1090-1093): the last is the item size, each other is the next
stride times the next dimension. -/
def defaultStrides (el : Int) : List Nat → List Int
  | [] => []
  | [_] => [el]
  | _ :: d :: ds =>
    match defaultStrides el (d :: ds) with
    | s :: ss => s * d :: s :: ss
    | [] => []

/-- `array->size` (bigfile.c:1080-1084), a `size_t` product. -/
def dimsProd (dims : List Nat) : Nat := dims.foldl (fun s d => u64 ((s * d : Nat) : Int)) 1

/-- `big_array_init` (bigfile.c:1068-1096). `none`: undefined behaviour, because more than 32
dimensions overflow the struct, or `strides[-1]` is written when `ndim = 0` and no strides are
given. -/
def arrayInit (m : Machine) (buf : Int) (dtype : CStr) (dims : List Nat)
    (strides : Option (List Int)) : Option Arr :=
  if 32 < dims.length then none
  else
    let mk (ss : List Int) : Arr :=
      { dtype := dtypeNormalize m dtype, dims := dims, strides := ss, size := dimsProd dims,
        data := buf }
    match strides with
    | some ss => some (mk ss)
    | none => if dims.isEmpty then none else some (mk (defaultStrides (itemsize m dtype) dims))

/-- The contiguity test of `big_array_iter_init` (bigfile.c:1109-1120). The loop runs from the
last dimension to the first and stops at the first mismatch; here it is a recursion that returns
the verdict for the inner dimensions together with the running stride. -/
def contigCheck (el : Int) : List Nat → List Int → Bool × Int
  | d :: ds, s :: ss =>
    match contigCheck el ds ss with
    | (true, run) => if s = run then (true, run * d) else (false, run)
    | (false, run) => (false, run)
  | _, _ => (true, el)

/-- `big_array_iter_init` (bigfile.c:1098-1122). -/
def iterInit (m : Machine) (a : Arr) : Iter :=
  { arr := a
    pos := List.replicate a.dims.length 0
    contiguous := (contigCheck (itemsize m a.dtype) a.dims a.strides).1
    ptr := a.data }

/-- The carry loop of `big_array_iter_advance` (bigfile.c:1133-1147), from the innermost
dimension outwards. Result: new positions, change of the data pointer, and whether dimension
`k` overflowed (so that the loop goes on with `k-1`). -/
def carry : List Nat → List Int → List Nat → List Nat × Int × Bool
  | [d], [s], [p] =>
    if p + 1 = d then ([0], s - s * (p + 1 : Nat), true) else ([p + 1], s, false)
  | d :: ds, s :: ss, p :: ps =>
    match carry ds ss ps with
    | (ps', delta, true) =>
      if p + 1 = d then (0 :: ps', delta + s - s * (p + 1 : Nat), true)
      else ((p + 1) :: ps', delta + s, false)
    | (ps', delta, false) => (p :: ps', delta, false)
  | _, _, ps => (ps, 0, false)

/-- `big_array_iter_advance` (bigfile.c:1124-1148). `none`: `ndim = 0`, which reads
`strides[-1]`. -/
def iterAdvance (it : Iter) : Option Iter :=
  match it.arr.strides.getLast? with
  | none => none
  | some s =>
    if it.contiguous then some { it with ptr := it.ptr + s }
    else
      let (ps, delta, _) := carry it.arr.dims it.arr.strides it.pos
      some { it with pos := ps, ptr := it.ptr + delta }

/-- `n` calls of `big_array_iter_advance`. (bigfile.c:1124-1147.) -/
def iterAdvanceN (it : Iter) : Nat → Option Iter
  | 0 => some it
  | n + 1 => match iterAdvance it with
    | none => none
    | some it' => iterAdvanceN it' n

example : (arrayInit ⟨true, true⟩ 100 b!"f8" [2, 3] none).map (·.strides) = some [24, 8] := by decide
example : (do
    let a ← arrayInit ⟨true, true⟩ 100 b!"f4" [2, 3] (some [4, 8])
    let it ← iterAdvanceN (iterInit ⟨true, true⟩ a) 4
    pure it.ptr) = some 112 := by decide

end Verif
