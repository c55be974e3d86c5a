import Verif.C.FS
/-!
# Several processes

A process is a program whose steps are file operations and collective calls. Processes share the file
system and nothing else. A file operation is one step of one process. A collective call is one step of
all members of the communicator together: it happens when every member has arrived at the same call,
and every member receives what all of them contributed, in the order of the communicator. (What a
particular MPI function makes of the contributions is written in the program.)

This is what the model assumes about MPI and the operating system; it is not part of `/repo`.
Simplifications: a collective call is a synchronisation point for all members even where the MPI
standard lets some of them leave early (`MPI_Bcast`, `MPI_Gatherv`, ...; see `C/Loose.lean`); a file operation (one `fopen`,
one `fseek` with the unbuffered `fwrite` or `fread` after it) is atomic; a process that is killed stays
where it is and so do all processes waiting for it.
-/

set_option autoImplicit false

namespace Verif

/-- The file operations of a process. -/
inductive FOp where
  | fopen (path : CStr) (mode : Mode)
  | fwrite (path : CStr) (off : Nat) (bs : List Byte)
  | fread (path : CStr) (off len : Nat)

/-- What an operation returns. -/
inductive Resp where
  | ok (b : Bool)
  | count (n : Nat)
  | data (d : List Byte)

/-- Whether a stream was opened. -/
def Resp.isOk : Resp → Bool
  | .ok b => b
  | _ => false

/-- Number of bytes written. -/
def Resp.num : Resp → Nat
  | .count n => n
  | _ => 0

/-- Bytes read. -/
def Resp.bytes : Resp → List Byte
  | .data d => d
  | _ => []

/-- The operation performed by a process that is alone. -/
def FOp.run : FOp → M Resp
  | .fopen path mode => do let b ← Verif.fopen path mode; pure (.ok b)
  | .fwrite path off bs => do let n ← fwriteAt path off bs; pure (.count n)
  | .fread path off len => do let d ← freadAt path off len; pure (.data d)

/-- The kinds of collective calls that occur. -/
inductive CollKind where
  | barrier | bcast | allreduce | allgather | gatherv | scatterv
  deriving DecidableEq, Repr

/-- The communicators that occur. -/
inductive CommName where
  | world | group | segment
  deriving DecidableEq, Repr

/-- A collective call: which function on which communicator. -/
structure Call where
  kind : CollKind
  comm : CommName
  members : List Nat
  deriving DecidableEq, Repr

/-- What a process contributes to a collective call. -/
structure Msg where
  num : Int := 0
  bytes : List Byte := []
  deriving DecidableEq, Repr, Inhabited

/-- A program. -/
inductive Prog (α : Type) : Type where
  | ret (a : α)
  | ub
  | hang
  | file (op : FOp) (k : Resp → Prog α)
  | coll (c : Call) (v : Msg) (k : List Msg → Prog α)

namespace Prog

/-- Sequencing. -/
def bind {α β : Type} : Prog α → (α → Prog β) → Prog β
  | .ret a, f => f a
  | .ub, _ => .ub
  | .hang, _ => .hang
  | .file op k, f => .file op (fun r => (k r).bind f)
  | .coll c v k, f => .coll c v (fun l => (k l).bind f)

instance : Monad Prog where
  pure := Prog.ret
  bind := Prog.bind

/-- A partial pure computation; `none` is undefined behaviour. -/
def lift {α : Type} : Option α → Prog α
  | some a => .ret a
  | none => .ub

/-- `fopen`. -/
def fopen (path : CStr) (mode : Mode) : Prog Bool := .file (.fopen path mode) (fun r => .ret r.isOk)
/-- `fseek` and `fwrite`. -/
def fwrite (path : CStr) (off : Nat) (bs : List Byte) : Prog Nat := .file (.fwrite path off bs) (fun r => .ret r.num)
/-- `fseek` and `fread`. -/
def fread (path : CStr) (off len : Nat) : Prog (List Byte) := .file (.fread path off len) (fun r => .ret r.bytes)
/-- A collective call. -/
def call (c : Call) (v : Msg) : Prog (List Msg) := .coll c v .ret

/-- The program run by one process alone (collective calls never end then). -/
def interp {α : Type} : Prog α → M α
  | .ret a => pure a
  | .ub => M.ub
  | .hang => M.hang
  | .file op k => do let r ← op.run; (k r).interp
  | .coll _ _ _ => M.hang

end Prog

/-- The nodes of a file system. -/
abbrev Nodes := Key → Option Node

/-- The effect of an operation under a given fault, `none` if the process is killed. -/
def FOp.exec (op : FOp) (f : Fault) (nd : Nodes) : Option (Resp × Nodes) :=
  match op.run ⟨⟨nd, []⟩, fun _ => f, 0⟩ with
  | .ok r w => some (r, w.fs.node)
  | _ => none

/-- A running process: the rest of its program, and how many file operations it has done. -/
structure Thread (α : Type) where
  prog : Prog α
  clock : Nat

/-- All processes, and the files. Only the first few numbers are used as ranks. -/
structure Conf (α : Type) where
  thr : Nat → Thread α
  nodes : Nodes

/-- What happens in a step. -/
inductive Event where
  | file (rank : Nat) (op : FOp) (f : Fault)
  | coll (c : Call)

/-- What a process offers to the collective call it waits at. -/
def Prog.offer {α : Type} : Prog α → Msg
  | .coll _ v _ => v
  | _ => {}

/-- How a process goes on after a collective call. -/
def Prog.receive {α : Type} (l : List Msg) : Prog α → Prog α
  | .coll _ _ k => k l
  | p => p

/-- The process waits at this call. -/
def Prog.WaitsAt {α : Type} (c : Call) : Prog α → Prop
  | .coll c' _ _ => c' = c
  | _ => False

/-- All processes after the collective call. -/
def Conf.meet {α : Type} (s : Conf α) (c : Call) : Conf α where
  thr r :=
    if r ∈ c.members then
      ⟨(s.thr r).prog.receive (c.members.map fun q => (s.thr q).prog.offer), (s.thr r).clock⟩
    else s.thr r
  nodes := s.nodes

/-- Process `r` has become `t`. -/
def Conf.put {α : Type} (s : Conf α) (r : Nat) (t : Thread α) (nd : Nodes) : Conf α :=
  ⟨fun q => if q = r then t else s.thr q, nd⟩

/-- One step of `n` processes. `F r t` is the fault that process `r` meets in its operation number `t`. -/
inductive Step {α : Type} (F : Nat → Nat → Fault) (n : Nat) : Conf α → Event → Conf α → Prop where
  | file (s : Conf α) (r : Nat) (op : FOp) (k : Resp → Prog α) (t : Nat) (a : Resp) (nd : Nodes)
      (hr : r < n) (ht : s.thr r = ⟨.file op k, t⟩) (he : op.exec (F r t) s.nodes = some (a, nd)) :
      Step F n s (.file r op (F r t)) (s.put r ⟨k a, t + 1⟩ nd)
  | coll (s : Conf α) (c : Call) (hne : c.members ≠ [])
      (hall : ∀ r ∈ c.members, r < n ∧ (s.thr r).prog.WaitsAt c) :
      Step F n s (.coll c) (s.meet c)

/-- A run: a sequence of steps, in any order the processes may take. -/
inductive Run {α : Type} (F : Nat → Nat → Fault) (n : Nat) : Conf α → List Event → Conf α → Prop where
  | nil (s : Conf α) : Run F n s [] s
  | cons {s s1 s' : Conf α} {e : Event} {es : List Event} (h : Step F n s e s1) (t : Run F n s1 es s') :
      Run F n s (e :: es) s'

/-- Every process has returned. -/
def Conf.Finished {α : Type} (n : Nat) (s : Conf α) : Prop := ∀ r, r < n → ∃ a, (s.thr r).prog = .ret a

/-- No process can go on. -/
def Conf.Stuck {α : Type} (F : Nat → Nat → Fault) (n : Nat) (s : Conf α) : Prop := ∀ e s', ¬ Step F n s e s'

end Verif
