import Verif.Spec.Holes
/-!
# Specification: the files of a block, as documented for other programs

`README.rst` documents a block as a directory with a text file `header` and binary files `000000`, `000001`, ..., and
a text file with the attributes (called `attrs-v2` there, `attr-v2` in the code). Other
programs read these files without the library (`example/ftn.f03`). This file says what they find there.
-/

set_option autoImplicit false

namespace Verif.Spec

open Verif

/-- A hexadecimal digit in upper case. -/
def hexChar (d : Nat) : Byte := UInt8.ofNat (if d < 10 then 48 + d else 55 + d)

/-- The name of data file `f`: six hexadecimal digits (`Z0.6` in Fortran). -/
def sixHex (f : Nat) : CStr :=
  [f / 1048576 % 16, f / 65536 % 16, f / 4096 % 16, f / 256 % 16, f / 16 % 16, f % 16].map hexChar

/-- The checksum in the last column: the sum folded to 16 bits twice. -/
def foldSum (s : Nat) : Nat := (s % 65536 + s / 65536) % 65536 + (s % 65536 + s / 65536) / 65536

/-- The line of data file `f` in the header: its name, its rows, its checksum and the folded checksum. -/
def fileLine (f rows ck : Nat) : CStr :=
  sixHex f ++ b!": " ++ decStr rows ++ b!" : " ++ decStr ck ++ b!" : " ++ decStr (foldSum ck) ++ b!"\n"

/-- The text of the file `header`. -/
def headerFile (dtype : CStr) (nmemb : Nat) (sizes cks : List Nat) : CStr :=
  b!"DTYPE: " ++ dtype ++ b!"\nNMEMB: " ++ decStr nmemb ++ b!"\nNFILE: " ++ decStr sizes.length ++ b!"\n" ++
    ((List.range sizes.length).map fun f => fileLine f (sizes.getD f 0) (cks.getD f 0)).flatten

/-- What data file `f` holds: its rows in order, from its first row to the last one that was ever written, each as it
was last written, in the dtype of the block; zeros for rows before it that never were written; and nothing else. -/
def FileHolds (K : Kind) (H : Holey) (f : Nat) (bytes : List Byte) : Prop :=
  ∃ n, n ≤ H.sizes.getD f 0 ∧ bytes = flatN (fun i => H.shown K (start H.sizes f + i)) n ∧
    (∀ i, i + 1 = n → (H.content.rows (start H.sizes f + i)).isSome = true) ∧
    ∀ i, n ≤ i → i < H.sizes.getD f 0 → H.content.rows (start H.sizes f + i) = none

/-- The bytes of an attribute in hexadecimal, two digits for each byte. -/
def hexPairs (bytes : List Byte) : CStr := (bytes.map fun b => [hexChar (b.toNat / 16), hexChar (b.toNat % 16)]).flatten

/-- A line of the file `attr-v2`: name, dtype, number of elements and value of an attribute, and a text for humans. -/
def attrFileLine (l : CStr × AttrVal × CStr) : CStr :=
  l.1 ++ b!" " ++ l.2.1.dtype ++ b!" " ++ decStr l.2.1.nmemb ++ b!" " ++ hexPairs l.2.1.bytes ++
    b!" #HUMANE [ " ++ l.2.2 ++ b!" ]\n"

/-- These lines say that the attributes are `M`. -/
def LinesSay (M : AttrMap) (ls : List (CStr × AttrVal × CStr)) : Prop :=
  (∀ n v, M n = some v ↔ ∃ t, (n, v, t) ∈ ls) ∧ ∀ l ∈ ls, OneLine l.2.2

/-- The text of the file `attr-v2`, as the library writes it: a line for every attribute, sorted by name. -/
def AttrFile (M : AttrMap) (text : CStr) : Prop :=
  ∃ ls, LinesSay M ls ∧ (ls.Pairwise fun l l' => strcmp l.1 l'.1 = .lt) ∧ text = (ls.map attrFileLine).flatten

/-- What another program finds in the directory `base` of a block. -/
structure Documented (K : Kind) (dtype : CStr) (fs : FS) (base : CStr) (H : Holey) : Prop where
  header : ∃ cks : List Nat, cks.length = H.sizes.length ∧
    fs.node (resolve (pathJoin base b!"header")) = some (.file (headerFile dtype K.nm H.sizes cks))
  data : ∀ f, f < H.sizes.length → ∃ bytes,
    fs.node (resolve (pathJoin base (sixHex f))) = some (.file bytes) ∧ FileHolds K H f bytes
  attrs : ∃ text, fs.node (resolve (pathJoin base b!"attr-v2")) = some (.file text) ∧ AttrFile H.content.saved text

/-- What `example/ftn.f03` does: read all bytes of the data files, one after the other. -/
def readAllFiles (fs : FS) (base : CStr) : Nat → List Byte := flatN fun f => fs.bytes (resolve (pathJoin base (sixHex f)))

/-- Another program has made the directory of a block as documented, with these rows: a header with any checksums, data files
with the rows in order, and attributes with lines in any order, or no file of attributes. -/
structure MadeElsewhere (K : Kind) (dtype : CStr) (fs : FS) (base : CStr) (sizes : List Nat) (rows : Nat → List Byte)
    (M : AttrMap) : Prop where
  dir : fs.node (resolve base) = some .dir
  header : ∃ cks : List Nat, cks.length = sizes.length ∧ (∀ c ∈ cks, c < 4294967296) ∧
    fs.node (resolve (pathJoin base b!"header")) = some (.file (headerFile dtype K.nm sizes cks))
  data : ∀ f, f < sizes.length → fs.node (resolve (pathJoin base (sixHex f))) =
    some (.file (flatN (fun i => rows (start sizes f + i)) (sizes.getD f 0)))
  noAttr : fs.node (resolve (pathJoin base b!"attr")) = none
  attrs : (fs.node (resolve (pathJoin base b!"attr-v2")) = none ∧ M = AttrMap.empty) ∨
    ∃ ls, fs.node (resolve (pathJoin base b!"attr-v2")) = some (.file (ls.map attrFileLine).flatten) ∧ LinesSay M ls
  noDirs : ∀ f, fs.node (fileKey base (.data f)) ≠ some .dir
  len : ∀ r, r < sizes.sum → (rows r).length = K.w * K.nm

/-- The content of a block with these rows and attributes. -/
def Content.ofRows (sizes : List Nat) (rows : Nat → List Byte) (M : AttrMap) : Content :=
  ⟨sizes.sum, sizes.length, fun r => if r < sizes.sum then some (rows r) else none, M, M, false⟩

end Verif.Spec
