import Verif.C.Basic
/-!
# File system, faults and outcomes

A file system maps resolved paths to directories and files. Every operation consults a fault
oracle. What is stated here is what the model assumes about the operating system and stdio; it is
not part of `/repo`.

Simplifications: no `..`, no links, no permissions (a permission problem is a `fail` fault), no
concurrent deletion. A crash is a killed process: completed operations persist.
-/

set_option autoImplicit false

namespace Verif

/-- A resolved path: its components. -/
abbrev Key := List CStr

/-- Split at `/`. Always non-empty. -/
def splitSlash : CStr → List CStr
  | [] => [[]]
  | 47 :: s => [] :: splitSlash s
  | c :: s => match splitSlash s with
    | x :: xs => (c :: x) :: xs
    | [] => [[c]]

/-- Path resolution: empty and `.` components are dropped; absolute paths are marked with a
leading empty component. -/
def resolve (p : CStr) : Key :=
  let comps := (splitSlash p).filter (fun c => !(c.isEmpty || c == [46]))
  match p with
  | 47 :: _ => [] :: comps
  | _ => comps

/-- What a path can name. -/
inductive Node where
  | dir
  | file (data : List Byte)
  deriving DecidableEq, Repr

/-- A file system: the node of each key, and a list containing every key that has a node. -/
structure FS where
  node : Key → Option Node
  dom : List Key

/-- Bind a key to a node. -/
def FS.set (fs : FS) (k : Key) (n : Node) : FS :=
  { node := fun k' => if k' = k then some n else fs.node k'
    dom := if k ∈ fs.dom then fs.dom else k :: fs.dom }

/-- What the environment does to one operation. `short`/`silent`/`crash` carry the number of bytes
that reach the file before the fault. -/
inductive Fault where
  | none
  | fail
  | short (n : Nat)
  | silent (n : Nat)
  | crash (n : Nat)
  deriving DecidableEq, Repr

/-- State of the world seen by one process: files, oracle for the operations still to come. -/
structure World where
  fs : FS
  faults : Nat → Fault
  clock : Nat

/-- Outcome of running a piece of the program. -/
inductive Res (α : Type) where
  | ok (a : α) (w : World)
  | crash (w : World)
  | ub
  | hang

/-- A computation with access to the file system. -/
def M (α : Type) := World → Res α

namespace M
/-- Return a value. -/
def pure {α} (a : α) : M α := fun w => .ok a w
/-- Sequencing; crash, undefined behaviour and non-termination propagate. -/
def bind {α β} (x : M α) (f : α → M β) : M β := fun w =>
  match x w with
  | .ok a w' => f a w'
  | .crash w' => .crash w'
  | .ub => .ub
  | .hang => .hang
/-- Undefined behaviour. -/
def ub {α} : M α := fun _ => .ub
/-- Non-termination. -/
def hang {α} : M α := fun _ => .hang
/-- Run a partial pure computation; `none` is undefined behaviour. -/
def lift {α} (x : Option α) : M α := match x with
  | some a => pure a
  | none => ub
end M

instance : Monad M where
  pure := M.pure
  bind := M.bind

/-- The fault for the next operation; the clock advances. -/
def tick : M Fault := fun w => .ok (w.faults w.clock) { w with clock := w.clock + 1 }

/-- Replace the file system. -/
def setFS (fs : FS) : M Unit := fun w => .ok () { w with fs := fs }

/-- The file system. -/
def getFS : M FS := fun w => .ok w.fs w

/-- The process is killed here. -/
def die {α} : M α := fun w => .crash w

/-- `open` modes used by bigfile: `"r"`, `"r+"`, `"w"` (and `"w+"`, which differs only in
allowing reads). -/
inductive Mode where
  | r | rplus | w
  deriving DecidableEq

/-- `fopen`: returns whether the stream is non-NULL. `"r"` on a directory succeeds on Linux.
`"w"` creates or truncates and needs the parent directory. A fault other than `none` before the
effect means NULL or a killed process. -/
def fopen (path : CStr) (mode : Mode) : M Bool := do
  match ← tick with
  | .crash _ => die
  | .fail => pure false
  | _ =>
    let fs ← getFS
    let k := resolve path
    match mode with
    | .r => pure (fs.node k).isSome
    | .rplus => match fs.node k with
      | some (.file _) => pure true
      | _ => pure false
    | .w => match fs.node k with
      | some .dir => pure false
      | _ =>
        if fs.node k.dropLast = some .dir then do
          setFS (fs.set k (.file []))
          pure true
        else pure false

/-- Bytes of a file (empty if it is not a file). -/
def FS.bytes (fs : FS) (k : Key) : List Byte :=
  match fs.node k with
  | some (.file d) => d
  | _ => []

/-- Contents after writing `bs` at offset `off`: a gap is filled with zeros; writing nothing
changes nothing. -/
def writeAt (old : List Byte) (off : Nat) (bs : List Byte) : List Byte :=
  if bs.isEmpty then old
  else old.take off ++ List.replicate (off - old.length) 0 ++ bs ++ old.drop (off + bs.length)

/-- Put bytes into an open (hence existing) file. -/
def FS.writeFile (fs : FS) (k : Key) (off : Nat) (bs : List Byte) : FS :=
  match fs.node k with
  | some (.file d) =>
    { fs with node := fun k' => if k' = k then some (.file (writeAt d off bs)) else fs.node k' }
  | _ => fs

/-- `fseek(off)` then an unbuffered `fwrite` of `bs`; returns the number of bytes written. The
fault decides how many bytes reach the file. -/
def fwriteAt (path : CStr) (off : Nat) (bs : List Byte) : M Nat := do
  let f ← tick
  let fs ← getFS
  let k := resolve path
  match f with
  | .none | .silent _ => do
    setFS (fs.writeFile k off bs)
    pure bs.length
  | .fail => pure 0
  | .short n => do
    setFS (fs.writeFile k off (bs.take n))
    pure (min n bs.length)
  | .crash n => do
    setFS (fs.writeFile k off (bs.take n))
    die

/-- `fseek(off)` then `fread` of `len` bytes; returns what was read. -/
def freadAt (path : CStr) (off len : Nat) : M (List Byte) := do
  let f ← tick
  let fs ← getFS
  let d := ((fs.bytes (resolve path)).drop off).take len
  match f with
  | .none | .silent _ => pure d
  | .fail => pure []
  | .short n => pure (d.take n)
  | .crash _ => die

/-- The buffered output of a text file that was opened with `"w"`: `fprintf` calls followed by an
unchecked `fclose`. Returns whether every `fprintf` reported success. `short n`: an `fprintf`
reports an error after `n` bytes reached the file. `silent n`: the final flush inside `fclose`
fails after `n` bytes; nobody looks at its result. `crash n`: killed after `n` bytes. -/
def writeText (path : CStr) (bs : List Byte) : M Bool := do
  let f ← tick
  let fs ← getFS
  let k := resolve path
  match f with
  | .none => do setFS (fs.set k (.file bs)); pure true
  | .fail => pure false
  | .short n => do setFS (fs.set k (.file (bs.take n))); pure false
  | .silent n => do setFS (fs.set k (.file (bs.take n))); pure true
  | .crash n => do setFS (fs.set k (.file (bs.take n))); die

/-- Last non-empty component is `.`: `mkdir` of such a path never creates anything. -/
def endsInDot (p : CStr) : Bool :=
  match ((splitSlash p).filter (fun c => !c.isEmpty)).getLast? with
  | some c => c == [46]
  | none => true

/-- `mkdir` followed by the check of `_big_file_mkdir`: success if the directory was created, or
`mkdir` said `EEXIST` (the path exists, as a directory *or a file*), or `stat` finds it. The empty
path names nothing. -/
def mkdirOk (path : CStr) : M Bool := do
  match ← tick with
  | .crash _ => die
  | .fail => pure false
  | _ =>
    let fs ← getFS
    let k := resolve path
    if path = [] then pure false
    else match fs.node k with
    | some _ => pure true
    | none =>
      if endsInDot path then pure false
      else if fs.node k.dropLast = some .dir then do
        setFS (fs.set k .dir)
        pure true
      else pure false

/-- `stat` succeeds. The empty path names nothing. -/
def statOk (path : CStr) : M Bool := do
  match ← tick with
  | .crash _ => die
  | .fail => pure false
  | _ =>
    let fs ← getFS
    pure (decide (path ≠ []) && (fs.node (resolve path)).isSome)

/-- No faults at all. -/
def noFaults : Nat → Fault := fun _ => .none

end Verif
