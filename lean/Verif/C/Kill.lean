import Verif.C.Proc
/-!
# Several processes, some of which are killed

`Step` of `Verif/C/Proc.lean` with one more possibility: a process is killed inside a file operation (a fault `crash n`). What that
operation had done to the files stays, and the process does nothing any more. (A process that is killed between two operations is one that
takes no further step; statements about every moment of a run cover it.) This is part of what is assumed about the operating system.
-/

set_option autoImplicit false

namespace Verif

/-- What an operation answers, `none` if the process is killed in it, and the files after it. -/
def FOp.does (op : FOp) (f : Fault) (nd : Nodes) : Option Resp × Nodes :=
  match op.run ⟨⟨nd, []⟩, fun _ => f, 0⟩ with
  | .ok r w => (some r, w.fs.node)
  | .crash w => (none, w.fs.node)
  | _ => (none, nd)

/-- How a process goes on after an operation. -/
def Prog.after {α : Type} (k : Resp → Prog α) : Option Resp → Prog α
  | some a => k a
  | none => .hang

/-- A run of `n` processes in which some may be killed. -/
inductive KRun {α : Type} (F : Nat → Nat → Fault) (n : Nat) : Conf α → Conf α → Prop where
  | nil (s : Conf α) : KRun F n s s
  | file {s s1 : Conf α} (h : KRun F n s s1) (r : Nat) (op : FOp) (k : Resp → Prog α) (t : Nat) (hr : r < n)
      (ht : s1.thr r = ⟨.file op k, t⟩) :
      KRun F n s (s1.put r ⟨Prog.after k (op.does (F r t) s1.nodes).1, t + 1⟩ (op.does (F r t) s1.nodes).2)
  | coll {s s1 : Conf α} (h : KRun F n s s1) (c : Call) (hne : c.members ≠ [])
      (hall : ∀ r ∈ c.members, r < n ∧ (s1.thr r).prog.WaitsAt c) : KRun F n s (s1.meet c)

end Verif
