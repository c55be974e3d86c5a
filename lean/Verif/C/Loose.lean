import Verif.C.Proc
/-!
# Collective calls that do not synchronise

In `C/Proc.lean` all members of a collective call leave it together. MPI promises less: a process may leave
`MPI_Bcast`, `MPI_Gatherv` or `MPI_Scatterv` as soon as it has what it is to receive, when others have not yet
arrived. Here a process first posts what it contributes and later leaves, when the contributions that the rest of
its program uses have been posted. Which these are is not fixed by the model: whatever the missing ones are, the
rest of the program must be the same. So the root of `MPI_Bcast` and the senders of `MPI_Gatherv` need not wait for
anybody, the leader of `MPI_Gatherv` not for members that send no rows, and a receiver only for the root. The other
calls (`MPI_Barrier`, `MPI_Allreduce`, `MPI_Allgather`) end for nobody before all have arrived, as their results need all.
-/

set_option autoImplicit false

namespace Verif

/-- Calls in which some members need not wait for the others. -/
def CollKind.rooted : CollKind → Bool
  | .bcast | .gatherv | .scatterv => true
  | _ => false

/-- The communicator of a call. -/
def Call.on (c : Call) : CommName × List Nat := (c.comm, c.members)

/-- A running process: the rest of its program, the number of its file operations, and, if it has posted its
contribution to the call at the head of its program, which one on the communicator this is. -/
structure LThread (α : Type) where
  prog : Prog α
  clock : Nat
  seat : Option Nat

/-- What every process has posted on every communicator, in order. -/
abbrev Posts := CommName × List Nat → Nat → List (CollKind × Msg)

/-- All processes, the files, and what was posted. -/
structure LConf (α : Type) where
  thr : Nat → LThread α
  nodes : Nodes
  posts : Posts

/-- What happens in a step. -/
inductive LEvent where
  | file (rank : Nat) (op : FOp) (f : Fault)
  | arrive (rank : Nat)
  | leave (rank : Nat)

/-- The list of contributions `l` agrees with what has been posted to the call number `i`. -/
structure Fits (post : Posts) (c : Call) (i : Nat) (l : List Msg) : Prop where
  length : l.length = c.members.length
  agrees : ∀ (j r : Nat) (m : Msg), c.members[j]? = some r → (post c.on r)[i]? = some (c.kind, m) → l[j]? = some m

/-- A process that goes on with `k` after the call number `i` may leave it and go on with `p`: it has all it needs. -/
def Leaves {α : Type} (post : Posts) (c : Call) (i : Nat) (k : List Msg → Prog α) (p : Prog α) : Prop :=
  (c.kind.rooted = false → ∀ r ∈ c.members, ∃ m, (post c.on r)[i]? = some (c.kind, m)) ∧
  (∃ l, Fits post c i l) ∧ ∀ l, Fits post c i l → k l = p

/-- Process `r` has become `t`. -/
def LConf.put {α : Type} (s : LConf α) (r : Nat) (t : LThread α) (nd : Nodes) (po : Posts) : LConf α :=
  ⟨fun q => if q = r then t else s.thr q, nd, po⟩

/-- Process `r` posts. -/
def Posts.add (po : Posts) (on : CommName × List Nat) (r : Nat) (x : CollKind × Msg) : Posts :=
  fun on' q => if on' = on ∧ q = r then po on' q ++ [x] else po on' q

/-- One step of `n` processes. -/
inductive LStep {α : Type} (F : Nat → Nat → Fault) (n : Nat) : LConf α → LEvent → LConf α → Prop where
  | file (s : LConf α) (r : Nat) (op : FOp) (k : Resp → Prog α) (t : Nat) (a : Resp) (nd : Nodes)
      (hr : r < n) (ht : s.thr r = ⟨.file op k, t, none⟩) (he : op.exec (F r t) s.nodes = some (a, nd)) :
      LStep F n s (.file r op (F r t)) (s.put r ⟨k a, t + 1, none⟩ nd s.posts)
  | arrive (s : LConf α) (r : Nat) (c : Call) (v : Msg) (k : List Msg → Prog α) (t : Nat)
      (hr : r < n) (hm : r ∈ c.members) (ht : s.thr r = ⟨.coll c v k, t, none⟩) :
      LStep F n s (.arrive r) (s.put r ⟨.coll c v k, t, some (s.posts c.on r).length⟩ s.nodes (s.posts.add c.on r (c.kind, v)))
  | leave (s : LConf α) (r : Nat) (c : Call) (v : Msg) (k : List Msg → Prog α) (t i : Nat) (p : Prog α)
      (hr : r < n) (ht : s.thr r = ⟨.coll c v k, t, some i⟩) (hl : Leaves s.posts c i k p) :
      LStep F n s (.leave r) (s.put r ⟨p, t, none⟩ s.nodes s.posts)

/-- A run: a sequence of steps, in any order the processes may take. -/
inductive LRun {α : Type} (F : Nat → Nat → Fault) (n : Nat) : LConf α → List LEvent → LConf α → Prop where
  | nil (s : LConf α) : LRun F n s [] s
  | cons {s s1 s' : LConf α} {e : LEvent} {es : List LEvent} (h : LStep F n s e s1) (t : LRun F n s1 es s') :
      LRun F n s (e :: es) s'

/-- Every process has returned. -/
def LConf.Finished {α : Type} (n : Nat) (s : LConf α) : Prop := ∀ r, r < n → ∃ a, (s.thr r).prog = .ret a

/-- No process can go on. -/
def LConf.Stuck {α : Type} (F : Nat → Nat → Fault) (n : Nat) (s : LConf α) : Prop := ∀ e s', ¬ LStep F n s e s'

/-- The same processes, with nothing posted. -/
def Conf.loose {α : Type} (s : Conf α) : LConf α :=
  ⟨fun r => ⟨(s.thr r).prog, (s.thr r).clock, none⟩, s.nodes, fun _ _ => []⟩

/-- Without what was posted. -/
def LConf.tight {α : Type} (s : LConf α) : Conf α := ⟨fun r => ⟨(s.thr r).prog, (s.thr r).clock⟩, s.nodes⟩

end Verif
