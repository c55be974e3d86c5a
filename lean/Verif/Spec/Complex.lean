import Verif.Spec.Float
/-!
# Specification: complex numbers
-/

set_option autoImplicit false

namespace Verif.Spec

open Verif

/-- The complex types. -/
inductive CplxTy where
  | c8 | c16
  deriving DecidableEq, Repr

def CplxTy.name : CplxTy → CStr
  | .c8 => b!"c8"
  | .c16 => b!"c16"

/-- The type of the real and of the imaginary part. -/
def CplxTy.part : CplxTy → NumTy
  | .c8 => .f4
  | .c16 => .f8

def CplxTy.width (t : CplxTy) : Nat := 2 * t.part.width

/-- The dtype string. -/
def CplxTy.dtype (t : CplxTy) (o : Order) : CStr := o.char :: t.name

/-- The number that bytes of a complex type stand for: the real part, then the imaginary part, each in the byte order of the dtype (as in
C and numpy). -/
def cplxVal (o : Order) (t : CplxTy) (bs : List Byte) : Option (Rat × Rat) :=
  match numVal o t.part (bs.take t.part.width), numVal o t.part (bs.drop t.part.width) with
  | some re, some im => some (re, im)
  | _, _ => none

/-- The numbers a complex type can represent. -/
def CplxTy.holds (t : CplxTy) (v : Rat × Rat) : Prop := t.part.holds v.1 ∧ t.part.holds v.2

/-- The real and the imaginary part exchanged if `c`. -/
def exchanged (c : Prop) [Decidable c] (v : Rat × Rat) : Rat × Rat := if c then (v.2, v.1) else v

end Verif.Spec
