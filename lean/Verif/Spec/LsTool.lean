import Verif.Model.LsTool
import Verif.Spec.Tree
import Verif.Spec.Cat
import Verif.Spec.History
import Verif.Spec.Tools
/-!
# Specification: listing blocks and checking checksums
-/

set_option autoImplicit false

namespace Verif.Spec

open Verif

/-- A path below a directory, of names none of which starts with a dot. -/
structure Visible (ds : List CStr) : Prop where
  ne : ds ≠ []
  names : ∀ c ∈ ds, IsName c
  nodots : ∀ c ∈ ds, c.head? ≠ some 46

/-- What a header says. -/
structure Header where
  dtype : CStr
  nmemb : Int
  fsize : List Nat
  cks : List Nat

/-- The header of the block directory `path`, if there is one and it is complete. -/
def headerOf (fs : FS) (path : CStr) : Option Header :=
  if (fs.node (fileKey path .header)).isSome then
    match parseHeader (fs.bytes (fileKey path .header)) with
    | .ok dtype nmemb _ fsize cks => some ⟨dtype, nmemb, fsize, cks⟩
    | _ => none
  else none

/-- The attribute files of a directory, if any, can be read, and a header, if any, is not malicious (reading it is defined). -/
def Readable (env : Env) (fs : FS) (path : CStr) : Prop :=
  (∃ s1 s2, readsV1 env fs path (attrsetCreate env) = some (0, s1) ∧ readsV2 env fs path s1 = some (0, s2)) ∧
  ((fs.node (fileKey path .header)).isSome = true → parseHeader (fs.bytes (fileKey path .header)) ≠ .ub)

/-- Whatever is visible below `base` is readable, and its path is not too long. -/
def AllReadable (env : Env) (fs : FS) (base : CStr) : Prop := ∀ ds, Visible ds → (fs.node (resolve base ++ ds)).isSome = true →
  Readable env fs (pathJoin base (joinNames ds)) ∧ (pathJoin base (joinNames ds)).length ≤ 8192

/-- A block: a visible directory with a complete header. -/
def IsBlock (fs : FS) (base : CStr) (ds : List CStr) : Prop :=
  Visible ds ∧ (headerOf fs (pathJoin base (joinNames ds))).isSome = true

/-- The sum of a list of bytes or checksums, as `sum -s` prints it: modulo 2^32, folded twice to 16 bits. -/
def folded (s : Nat) : Nat :=
  let s := s % 4294967296
  let r := s % 65536 + s / 65536
  r % 65536 + r / 65536

/-- A number in a field of at least `n` digits. -/
def fieldZero (n : Nat) (s : CStr) : CStr := List.replicate (n - s.length) 48 ++ s

/-- The line for a block with this header in the long format: name, dtype, elements per row, rows, checksum, number of files, path. -/
def longLine (base name : CStr) (h : Header) : CStr :=
  fieldLeft 28 name ++ b!" " ++ h.dtype ++ b!" " ++ intStr h.nmemb ++ b!" " ++ fieldRight 12 (decStr h.fsize.sum) ++ b!" " ++
    fieldZero 5 (decStr (folded h.cks.sum)) ++ b!" " ++ decStr h.fsize.length ++ b!" " ++ pathJoin base name ++ b!"\n"

/-- What is shown for a block. -/
def shownBlock (long : Bool) (fs : FS) (base : CStr) (ds : List CStr) : CStr :=
  if long then
    match headerOf fs (pathJoin base (joinNames ds)) with
    | some h => longLine base (joinNames ds) h
    | none => []
  else joinNames ds ++ b!"\n"

/-- All bytes of a block, row after row. -/
def Content.data (A : Content) : List Byte := flatN (fun r => (A.rows r).getD []) A.size

/-- What bigfile-check prints for a block, when the sum of the data is `sum` and the stored checksums add up to `expected`. -/
def checkReport (block : CStr) (sum expected : Nat) : CStr :=
  if sum = expected then []
  else b!"check sum failed " ++ block ++ b!" " ++ decStr sum ++ b!" " ++ fieldZero 5 (decStr expected) ++ b!"\n"

/-- A block that can be checked: it is stored completely, one row fits into the default buffer, and the name is one word. -/
structure Checkable (env : Env) (K : Kind) (fs : FS) (file block : CStr) (A : Content) : Prop where
  disk : OnDisk env K fs (pathJoin file block) A
  full : A.full
  row : K.w * K.nm ≤ 268435456
  size : A.size + A.size < 9223372036854775808
  name : Clean block
  ne : block ≠ []

end Verif.Spec
