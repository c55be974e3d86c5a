import Verif.Spec.Value
import Verif.Model.Convert
/-!
# Specification: the number that bytes of a floating point type stand for

IEEE 754 binary interchange formats, and what the C standard says of conversions between arithmetic types.
-/

set_option autoImplicit false

namespace Verif.Spec

open Verif

/-- The number of a bit pattern of the format with `p` fraction bits and `x` exponent bits; `none` for infinities and NaN. -/
def ieeeValue (p x bits : Nat) : Option Rat :=
  let frac := bits % 2 ^ p
  let expo := bits / 2 ^ p % 2 ^ x
  let sign : Int := if bits / 2 ^ (p + x) % 2 = 1 then -1 else 1
  let bias : Int := 2 ^ (x - 1) - 1
  if expo = 2 ^ x - 1 then none
  else if expo = 0 then some ((sign * frac : Int) * (2 : Rat) ^ (1 - bias - p))
  else some ((sign * (2 ^ p + frac : Nat) : Int) * (2 : Rat) ^ ((expo : Int) - bias - p))

/-- `float`. -/
def f4Value (bits : Nat) : Option Rat := ieeeValue 23 8 bits

/-- `double`. -/
def f8Value (bits : Nat) : Option Rat := ieeeValue 52 11 bits

/-- Rounding toward zero. -/
def toward0 (v : Rat) : Int := if 0 ≤ v then v.floor else v.ceil

/-- What C11 says of the conversions: a value that is representable in the new type is unchanged (6.3.1.4p2, 6.3.1.5p1), a
conversion to an integer type discards the fractional part (6.3.1.4p1). The formats are those of IEEE 754 (Annex F). -/
structure CFloat (fo : FloatOps) : Prop where
  f8OfF4 : ∀ b c v, f4Value b = some v → f8Value c = some v → f8Value (fo.f8OfF4 b) = some v
  f4OfF8 : ∀ b c v, f8Value b = some v → f4Value c = some v → f4Value (fo.f4OfF8 b) = some v
  f4OfInt : ∀ (x : Int) c, f4Value c = some (x : Rat) → f4Value (fo.f4OfInt x) = some (x : Rat)
  f8OfInt : ∀ (x : Int) c, f8Value c = some (x : Rat) → f8Value (fo.f8OfInt x) = some (x : Rat)
  intOfF4 : ∀ b v, f4Value b = some v → fo.intOfF4 b = some (toward0 v)
  intOfF8 : ∀ b v, f8Value b = some v → fo.intOfF8 b = some (toward0 v)

/-- The numeric types. -/
inductive NumTy where
  | int (t : IntTy)
  | f4 | f8
  deriving DecidableEq, Repr

def NumTy.name : NumTy → CStr
  | .int t => t.name
  | .f4 => b!"f4"
  | .f8 => b!"f8"

def NumTy.width : NumTy → Nat
  | .int t => t.width
  | .f4 => 4
  | .f8 => 8

/-- The dtype string. -/
def NumTy.dtype (t : NumTy) (o : Order) : CStr := o.char :: t.name

/-- The number that bytes of a numeric type stand for. -/
def numVal (o : Order) : NumTy → List Byte → Option Rat
  | .int t, bs => some (intVal o t bs : Int)
  | .f4, bs => f4Value (orderVal o bs)
  | .f8, bs => f8Value (orderVal o bs)

/-- The numbers a type can represent. -/
def NumTy.holds (t : NumTy) (v : Rat) : Prop := ∃ bs : List Byte, bs.length = t.width ∧ numVal .little t bs = some v

/-- The number that a byte stands for as a C `char`, which may be signed or unsigned: truth values are 0 and 1 on every machine. -/
def charVal (signed : Bool) (c : Byte) : Int := if signed ∧ 128 ≤ c.toNat then (c.toNat : Int) - 256 else c.toNat

end Verif.Spec
