/-!
# C integers, strings and outcomes

The parts of C that the model of bigfile needs: conversions between signed and unsigned
integers, NUL-free strings as byte lists.
-/

set_option autoImplicit false

namespace Verif

/-- One byte (`unsigned char`). -/
abbrev Byte := UInt8

/-- The characters of a C string, without the terminating NUL. -/
abbrev CStr := List UInt8

open Lean in
/-- `b!"abc"` is the list of the bytes of the literal, as numerals. -/
macro:max "b!" s:str : term => do
  let bytes := s.getString.toUTF8.toList
  let elems : Array (TSyntax `term) :=
    bytes.toArray.map fun b => ⟨(Syntax.mkNumLit (toString b.toNat))⟩
  `(([$elems,*] : List UInt8))

/-- Conversion of any integer to `size_t` / `uint64_t`. -/
def u64 (x : Int) : Nat := (x % 18446744073709551616).toNat

/-- Conversion of any integer to `ptrdiff_t` / `int64_t` (two's complement). -/
def i64 (x : Int) : Int :=
  let r := x % 18446744073709551616
  if r < 9223372036854775808 then r else r - 18446744073709551616

/-- Conversion of any integer to `unsigned int` / `uint32_t`. -/
def u32 (x : Int) : Nat := (x % 4294967296).toNat

/-- Conversion of any integer to `int` / `int32_t` (two's complement). -/
def i32 (x : Int) : Int :=
  let r := x % 4294967296
  if r < 2147483648 then r else r - 4294967296

/-- The value fits in an `int`. -/
def fitsInt (x : Int) : Bool := decide (-2147483648 ≤ x) && decide (x ≤ 2147483647)

theorem u64_of_nat {x : Nat} (h : x < 18446744073709551616) : u64 (x : Int) = x := by
  unfold u64; omega

theorem u64_nonneg {x : Int} (h0 : 0 ≤ x) (h : x < 18446744073709551616) : u64 x = x.toNat := by
  unfold u64; omega

theorem u64_neg {x : Int} (h0 : x < 0) (h : -18446744073709551616 ≤ x) :
    u64 x = (x + 18446744073709551616).toNat := by
  unfold u64; omega

theorem u64_lt (x : Int) : u64 x < 18446744073709551616 := by
  unfold u64; omega

theorem i64_of_range {x : Int} (h0 : -9223372036854775808 ≤ x) (h : x < 9223372036854775808) :
    i64 x = x := by
  unfold i64; simp only; split <;> omega

theorem u64_i64 (x : Int) : u64 (i64 x) = u64 x := by
  unfold i64 u64; simp only; split <;> omega

theorem i64_range (x : Int) : -9223372036854775808 ≤ i64 x ∧ i64 x < 9223372036854775808 := by
  unfold i64; simp only; split <;> omega

theorem i32_of_range {x : Int} (h0 : -2147483648 ≤ x) (h : x < 2147483648) : i32 x = x := by
  unfold i32; simp only; split <;> omega

theorem u32_of_nat {x : Nat} (h : x < 4294967296) : u32 (x : Int) = x := by
  unfold u32; omega

theorem u32_nat (x : Nat) : u32 (x : Int) = x % 4294967296 := by
  unfold u32; omega

theorem u32_lt (x : Int) : u32 x < 4294967296 := by
  unfold u32; omega

example : b!"header" = [104, 101, 97, 100, 101, 114] := rfl
example : u64 (-1) = 18446744073709551615 := by decide
example : i64 18446744073709551615 = -1 := by decide

end Verif
