import Verif.Props.Seek
import Verif.Spec.Transfer
/-!
# Concrete worlds used by the examples beside the theorems
-/

set_option autoImplicit false

namespace Verif

open Spec

/-- Floating point conversions of the examples (never used by them). -/
def exFo : FloatOps := ⟨fun _ => 0, fun _ => 0, fun x => x, fun x => x, fun _ => none, fun _ => none⟩

/-- A little-endian machine with a transfer buffer of 8 bytes. -/
def exEnv : Env :=
  { m := ⟨true, true⟩, fo := exFo, fmtF4 := fun _ => b!"1.5", fmtF8 := fun _ => b!"2.5",
    chunkBytes := 8, heap := fun n => (1000 * n : Nat), junk := fun _ => 7 }

/-- The data files of `exBlock`, holding rows 0 to 4 (four bytes each), a header and another file. -/
def exFS : FS :=
  { node := fun k =>
      if k = [] ∨ k = [b!"d"] ∨ k = [b!"d", b!"x"] then some .dir
      else if k = fileKey b!"d/x" (.data 0) then some (.file [1, 1, 1, 1, 2, 2, 2, 2])
      else if k = fileKey b!"d/x" (.data 1) then some (.file [])
      else if k = fileKey b!"d/x" (.data 2) then some (.file [3, 3, 3, 3, 4, 4, 4, 4, 5, 5, 5, 5])
      else if k = [b!"other"] then some (.file [9])
      else none
    dom := [[], [b!"d"], [b!"d", b!"x"], fileKey b!"d/x" (.data 0), fileKey b!"d/x" (.data 1),
      fileKey b!"d/x" (.data 2), [b!"other"]] }

def exWorld : World := ⟨exFS, noFaults, 0⟩

/-- Three elements of type `<i8` with a stride of 16 bytes. -/
def exSrc : Arr := { dtype := b!"<i8", dims := [3], strides := [16], size := 3, data := 100 }

/-- Three elements of type `>i4`, in reverse order. -/
def exDst : Arr := { dtype := b!">i4", dims := [3], strides := [-4], size := 3, data := 8 }

/-- Memory in which element `e` of `exSrc` is the number `e + 10`. -/
def exMem : Mem := fun x => if x = 100 then 10 else if x = 116 then 11 else if x = 132 then 12 else 0

theorem exSrc_ok : XferOk exEnv exBlock exSrc 4 8 1 :=
  { layout := exBlock_layout, item := by decide, item0 := by decide, memb := rfl, memb0 := by decide,
    felInt := by decide, buf := by decide, bufMax := by decide, offs := by decide,
    arr := ⟨by decide, rfl, by decide, by decide, by decide⟩, asize := by decide, anorm := by decide,
    aitem := by decide, aitem0 := by decide, abytes := by decide }

theorem exDst_ok : XferOk exEnv exBlock exDst 4 4 1 :=
  { layout := exBlock_layout, item := by decide, item0 := by decide, memb := rfl, memb0 := by decide,
    felInt := by decide, buf := by decide, bufMax := by decide, offs := by decide,
    arr := ⟨by decide, rfl, by decide, by decide, by decide⟩, asize := by decide, anorm := by decide,
    aitem := by decide, aitem0 := by decide, abytes := by decide }

theorem exDst_disjoint : Disjoint exDst 4 := by
  intro i j hi hj hij
  have : ∀ i < 3, ∀ j < 3, i ≠ j →
    elemAddr exDst i + 4 ≤ elemAddr exDst j ∨ elemAddr exDst j + 4 ≤ elemAddr exDst i := by decide
  exact this i hi j hj hij

/-- A pointer to row 1. -/
def exPtr : Ptr := ⟨0, 1, 1⟩

theorem exPtr_points : PointsTo exBlock exPtr 1 :=
  ⟨Or.inl (by decide), by decide, by decide, by decide⟩

/-- The return code of a transfer, if it returned. -/
def rcOf (r : Res Xfer) : Option Int := match r with
  | .ok x _ => some x.rc
  | _ => none

/-- The file system when a process has returned or was killed. -/
def Res.fs? {α : Type} (r : Res α) : Option FS := match r with
  | .ok _ w => some w.fs
  | .crash w => some w.fs
  | _ => none

/-- The result of a run, if it returned. -/
def Res.val? {α : Type} : Res α → Option α
  | .ok a _ => some a
  | _ => none

/-- The world after a run. -/
def Res.world {α : Type} (r : Res α) (d : World) : World := match r with
  | .ok _ w => w
  | .crash w => w
  | _ => d

/-- Was the process killed? -/
def Res.crashed {α : Type} : Res α → Bool
  | .crash _ => true
  | _ => false

/-- Was there undefined behaviour? -/
def Res.isUb {α : Type} : Res α → Bool
  | .ub => true
  | _ => false

example : rcOf (blockWrite exEnv exBlock exPtr exSrc exMem exWorld) = some 0 := by decide +kernel
example : ((blockWrite exEnv exBlock exPtr exSrc exMem exWorld).fs?.map
    fun fs => fs.bytes (fileKey b!"d/x" (.data 2))) =
    some [11, 0, 0, 0, 12, 0, 0, 0, 5, 5, 5, 5] := by decide +kernel

end Verif
