import Verif.C.Basic
/-!
# printf / scanf / atoi conversions used by bigfile

Numbers are printed and scanned the way the C library does it. Only the directives that
bigfile uses are here. The C library itself is not part of `/repo`; this file states what the
model assumes about it.
-/

set_option autoImplicit false

namespace Verif

/-- `isspace` in the C locale. -/
def isSpace (b : Byte) : Bool := b == 32 || (9 ≤ b && b ≤ 13)

/-- Value of a digit character in bases up to 16 (upper or lower case). -/
def digitVal (b : Byte) : Option Nat :=
  if 48 ≤ b && b ≤ 57 then some (b.toNat - 48)
  else if 65 ≤ b && b ≤ 70 then some (b.toNat - 55)
  else if 97 ≤ b && b ≤ 102 then some (b.toNat - 87)
  else none

/-- Digit character of a value below 16, upper case (`%X`, `%d`). -/
def digitChar (d : Nat) : Byte := if d < 10 then UInt8.ofNat (48 + d) else UInt8.ofNat (55 + d)

/-- Digits of `n` in base `b`, most significant first. `fuel` bounds the number of digits. -/
def digitsAux (b : Nat) : Nat → Nat → CStr
  | 0, n => [digitChar (n % b)]
  | fuel + 1, n => if n < b then [digitChar n] else digitsAux b fuel (n / b) ++ [digitChar (n % b)]

/-- `%u`: decimal digits, no padding. -/
def decStr (n : Nat) : CStr := digitsAux 10 n n

/-- `%d` / `%td`. -/
def intStr (x : Int) : CStr := if x < 0 then 45 :: decStr x.natAbs else decStr x.natAbs

/-- `%06X`: upper-case hexadecimal, padded with zeros to at least six digits. -/
def hex6Str (n : Nat) : CStr :=
  let d := digitsAux 16 n n
  List.replicate (6 - d.length) 48 ++ d

/-- Longest prefix of digits in base `b`, at most `w` of them; value accumulated in `acc`. -/
def takeDigits (b : Nat) : Nat → Nat → CStr → Nat × CStr
  | 0, acc, s => (acc, s)
  | _ + 1, acc, [] => (acc, [])
  | w + 1, acc, c :: s =>
    match digitVal c with
    | some d => if d < b then takeDigits b w (acc * b + d) s else (acc, c :: s)
    | none => (acc, c :: s)

/-- Does the string start with a digit of base `b`? -/
def startsDigit (b : Nat) : CStr → Bool
  | [] => false
  | c :: _ => match digitVal c with
    | some d => decide (d < b)
    | none => false

/-- Optional sign; returns (negative?, number of characters used, rest). -/
def takeSign : CStr → Bool × Nat × CStr
  | 45 :: s => (true, 1, s)
  | 43 :: s => (false, 1, s)
  | s => (false, 0, s)

/-- Clamp to the range of `long`, as `strtol` does. -/
def clampLong (x : Int) : Int :=
  if x < -9223372036854775808 then -9223372036854775808
  else if 9223372036854775807 < x then 9223372036854775807 else x

/-- `strtol(s, NULL, 10)`. -/
def strtol10 (s : CStr) : Int :=
  let s := s.dropWhile isSpace
  let (neg, _, s) := takeSign s
  let (v, _) := takeDigits 10 s.length 0 s
  clampLong (if neg then -(v : Int) else v)

/-- `atoi`. -/
def atoi (s : CStr) : Int := i32 (strtol10 s)

/-- A whitespace directive of `fscanf`. -/
def scanWs (s : CStr) : CStr := s.dropWhile isSpace

/-- Literal characters of an `fscanf` format; blanks in the format match any white space. -/
def scanLit : CStr → CStr → Option CStr
  | [], s => some s
  | f :: fs, s =>
    if isSpace f then scanLit fs (scanWs s)
    else match s with
      | [] => none
      | c :: s' => if c = f then scanLit fs s' else none

/-- `%s`: skip white space, take the longest non-empty run of non-white-space bytes. -/
def scanStr (s : CStr) : Option (CStr × CStr) :=
  let s := scanWs s
  let tok := s.takeWhile (fun c => !isSpace c)
  if tok.isEmpty then none else some (tok, s.dropWhile (fun c => !isSpace c))

/-- Does the string start with `0x` or `0X`? -/
def hasHexPrefix : CStr → Bool
  | 48 :: 120 :: _ => true
  | 48 :: 88 :: _ => true
  | _ => false

/-- Integer directive with base `b` (10 or 16) and maximal field width `w`: skip white space,
optional sign, (base 16) optional `0x`, at least one digit. -/
def scanNum (b w : Nat) (s : CStr) : Option (Bool × Nat × CStr) :=
  let s := scanWs s
  let (neg, k, s) := takeSign s
  let w := w - k
  let hexPrefix : Bool := b == 16 && decide (2 ≤ w) && hasHexPrefix s
  let (w, s) := if hexPrefix then (w - 2, s.drop 2) else (w, s)
  if w == 0 || !startsDigit b s then none
  else
    let (v, rest) := takeDigits b w 0 s
    some (neg, v, rest)

/-- `%d` into an `int`: `strtol` then conversion to `int`. -/
def scanInt (s : CStr) : Option (Int × CStr) :=
  match scanNum 10 (s.length + 1) s with
  | some (neg, v, rest) => some (i32 (clampLong (if neg then -(v : Int) else v)), rest)
  | none => none

/-- `%td` into a `size_t` object: `strtoll`, stored as 64 bits. -/
def scanPtrdiff (s : CStr) : Option (Nat × CStr) :=
  match scanNum 10 (s.length + 1) s with
  | some (neg, v, rest) => some (u64 (clampLong (if neg then -(v : Int) else v)), rest)
  | none => none

/-- `%u` into an `unsigned int`: `strtoul` (clamped to `ULONG_MAX`, negated if signed) then
conversion to `unsigned int`. -/
def scanUInt (s : CStr) : Option (Nat × CStr) :=
  match scanNum 10 (s.length + 1) s with
  | some (neg, v, rest) =>
    let m : Nat := if 18446744073709551615 < v then 18446744073709551615
      else if neg then u64 (-(v : Int)) else v
    some (u32 m, rest)
  | none => none

/-- `%06X` into an `int`: at most six characters. -/
def scanHex6 (s : CStr) : Option (Int × CStr) :=
  match scanNum 16 6 s with
  | some (neg, v, rest) => some (i32 (if neg then -(v : Int) else v), rest)
  | none => none

example : decStr 1203 = b!"1203" := by decide
example : intStr (-7) = b!"-7" := by decide
example : hex6Str 255 = b!"0000FF" := by decide
example : scanHex6 b!" 0000FF: 12" = some (255, b!": 12") := by decide
example : scanPtrdiff b!" -1 :" = some (18446744073709551615, b!" :") := by decide
example : atoi b!"16x" = 16 := by decide

end Verif
