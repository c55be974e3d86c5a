import Verif.C.Text
/-!
# Dtype strings

Models `/repo/src/bigfile.c` lines 977-1066.
-/

set_option autoImplicit false

namespace Verif

/-- What is fixed by the machine: byte order (`MACHINE_ENDIAN_F`, bigfile.c:981-987) and
signedness of plain `char` (used by the `b1` conversions). -/
structure Machine where
  le : Bool
  charSigned : Bool

/-- `MACHINE_ENDIANNESS` (bigfile.c:981-987): `'<'` or `'>'`. -/
def Machine.endian (m : Machine) : Byte := if m.le then 60 else 62

/-- `_dtype_normalize` (bigfile.c:989-1017). The result is the string left in the 8-byte
destination, i.e. at most seven characters. `strncpy(dst, src, 8); dst[7]=0` keeps seven
characters; with an added `=` it keeps six of the source. -/
def dtypeNormalize (m : Machine) (src : CStr) : CStr :=
  let dst : CStr :=
    match src with
    | 60 :: _ => src.take 7                 -- '<'
    | 62 :: _ => src.take 7                 -- '>'
    | 124 :: _ => src.take 7                -- '|'
    | 61 :: _ => src.take 7                 -- '='
    | _ => (61 :: src.take 7).take 7
  match dst with
  | 61 :: t => m.endian :: t
  | 124 :: t => m.endian :: t
  | t => t

/-- Character `i` of a NUL-terminated string held in a zero-filled buffer (0 past the end).
(bigfile.c:1021-1065: `dtype[i]`.) -/
def charAt (s : CStr) (i : Nat) : Byte := s.getD i 0

/-- `dtype_isvalid` (bigfile.c:1019-1050), for a non-NULL argument. -/
def dtypeIsValid (dtype : CStr) : Bool :=
  let c0 := charAt dtype 0
  let c1 := charAt dtype 1
  (c0 == 60 || c0 == 62 || c0 == 124 || c0 == 61) &&
  (c1 == 83 || c1 == 98 || c1 == 105 || c1 == 102 || c1 == 117 || c1 == 99) &&
  (let width := atoi (dtype.drop 2)
   !(decide (width > 16) || decide (width ≤ 0)))

/-- `big_file_dtype_itemsize` (bigfile.c:1052-1058). -/
def itemsize (m : Machine) (dtype : CStr) : Int := atoi ((dtypeNormalize m dtype).drop 2)

/-- `big_file_dtype_kind` (bigfile.c:1060-1066). -/
def dtypeKind (m : Machine) (dtype : CStr) : Byte := charAt (dtypeNormalize m dtype) 1

example : dtypeNormalize ⟨true, true⟩ b!"f8" = b!"<f8" := by decide
example : dtypeNormalize ⟨true, true⟩ b!"|S16" = b!"<S16" := by decide
example : itemsize ⟨true, true⟩ b!">i4" = 4 := by decide
example : dtypeIsValid b!"<S32" = false := by decide

end Verif
