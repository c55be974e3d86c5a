import Verif.Model.Convert
import Verif.Spec.Array
/-!
# Specification: conversion of one element
-/

set_option autoImplicit false

namespace Verif.Spec

open Verif

/-- Is the byte order of the (normalised) dtype different from the machine's? -/
def foreign (m : Machine) (dtype : CStr) : Bool := charAt dtype 0 != m.endian

/-- Reverse the bytes if the byte order is foreign. -/
def toNative (m : Machine) (dtype : CStr) (bs : List Byte) : List Byte :=
  if foreign m dtype then bs.reverse else bs

/-- Is there a conversion from source dtype to destination dtype? -/
def convertible (m : Machine) (fo : FloatOps) (ddt sdt : CStr) : Bool :=
  ddt.drop 1 == sdt.drop 1 || (castTable m fo (ddt.drop 1) (sdt.drop 1)).isSome

/-- Conversion of one element: to native order, convert the value, to the destination's order.
`none`: the conversion does not exist or is undefined for this value. -/
def convElem (m : Machine) (fo : FloatOps) (ddt sdt : CStr) (bs : List Byte) : Option (List Byte) :=
  let v := toNative m sdt bs
  let r := if ddt.drop 1 = sdt.drop 1 then some v
    else (castTable m fo (ddt.drop 1) (sdt.drop 1)).bind fun c => c.f v
  r.map (toNative m ddt)

end Verif.Spec
