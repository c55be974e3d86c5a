import Verif.Model.List
import Verif.Spec.Block
/-!
# Specification: directory trees and block names
-/

set_option autoImplicit false

namespace Verif.Spec

open Verif

/-- A file or directory name. -/
structure IsName (c : CStr) : Prop where
  ne : c ≠ []
  dot : c ≠ b!"."
  slash : (47 : Byte) ∉ c

/-- The names in a path: what stands between slashes, except nothing and `.`. -/
def names (p : CStr) : List CStr := (splitSlash p).filter fun c => !(c.isEmpty || c == b!".")

/-- Names joined by slashes. -/
def joinNames : List CStr → CStr
  | [] => []
  | [c] => c
  | c :: d :: cs => c ++ 47 :: joinNames (d :: cs)

/-- A resolved path: names, after the empty marker if it is absolute. -/
def IsKey (k : Key) : Prop := (∀ c ∈ k, IsName c) ∨ ∃ t, k = [] :: t ∧ ∀ c ∈ t, IsName c

/-- A directory tree: the working directory and the root are directories, whatever exists is in an
existing directory, and `dom` lists what exists (without repetition). -/
structure TreeOk (fs : FS) : Prop where
  cwd : fs.node [] = some .dir
  root : fs.node [[]] = some .dir
  parent : ∀ k, (fs.node k).isSome = true → k ≠ [] → fs.node k.dropLast = some .dir
  keys : ∀ k, (fs.node k).isSome = true → IsKey k
  dom : ∀ k, (fs.node k).isSome = true → k ∈ fs.dom
  nodup : fs.dom.Nodup

/-- What exists goes on existing: directories remain directories and files remain files (their contents may
change). -/
def NothingLost (fs fs' : FS) : Prop := ∀ k,
  (fs.node k = some .dir → fs'.node k = some .dir) ∧ (IsFile fs k → IsFile fs' k)

/-- The directory has an entry `header`. -/
def HasHeader (fs : FS) (k : Key) : Prop := (fs.node (k ++ [b!"header"])).isSome = true

/-- The path `cs` below the directory `r` is a block to be listed: it has a header, it is not inside
another block and no name starts with a dot. -/
structure Listed (fs : FS) (r : Key) (cs : List CStr) : Prop where
  ne : cs ≠ []
  names : ∀ c ∈ cs, IsName c
  nodots : ∀ c ∈ cs, c.head? ≠ some 46
  header : HasHeader fs (r ++ cs)
  outer : ∀ j, 0 < j → j < cs.length → ¬ HasHeader fs (r ++ cs.take j)

end Verif.Spec
