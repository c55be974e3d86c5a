import Verif.C.Basic
/-!
# Specification: the number that bytes stand for

NumPy's type strings: a byte order (`<` least significant byte first, `>` most significant byte
first), a kind and a width in bytes.
-/

set_option autoImplicit false

namespace Verif.Spec

open Verif

/-- The four integer types. -/
inductive IntTy where
  | i4 | u4 | i8 | u8
  deriving DecidableEq, Repr

/-- Name without byte order. -/
def IntTy.name : IntTy → CStr
  | .i4 => b!"i4" | .u4 => b!"u4" | .i8 => b!"i8" | .u8 => b!"u8"

def IntTy.width : IntTy → Nat
  | .i4 => 4 | .u4 => 4 | .i8 => 8 | .u8 => 8

def IntTy.signed : IntTy → Bool
  | .i4 => true | .u4 => false | .i8 => true | .u8 => false

/-- The byte orders. -/
inductive Order where
  | little | big
  deriving DecidableEq, Repr

def Order.char : Order → Byte
  | .little => 60
  | .big => 62

/-- Positional value, least significant byte first. -/
def posVal : List Byte → Nat
  | [] => 0
  | b :: bs => b.toNat + 256 * posVal bs

/-- Positional value in the given byte order. -/
def orderVal : Order → List Byte → Nat
  | .little, bs => posVal bs
  | .big, bs => posVal bs.reverse

/-- The integer that bytes of an integer type stand for (two's complement if signed). -/
def intVal (o : Order) (t : IntTy) (bs : List Byte) : Int :=
  let n : Int := orderVal o bs
  if t.signed ∧ 2 ^ (8 * t.width - 1) ≤ n then n - 2 ^ (8 * t.width) else n

/-- The integers a type can represent. -/
def IntTy.holds (t : IntTy) (x : Int) : Prop :=
  if t.signed then -2 ^ (8 * t.width - 1) ≤ x ∧ x < 2 ^ (8 * t.width - 1)
  else 0 ≤ x ∧ x < 2 ^ (8 * t.width)

/-- The dtype string of an integer type. -/
def IntTy.dtype (t : IntTy) (o : Order) : CStr := o.char :: t.name

end Verif.Spec
