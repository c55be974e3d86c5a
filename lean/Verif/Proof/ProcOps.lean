import Verif.Proof.BlockP
/-!
# Running one process of many; which operations commute
-/

set_option autoImplicit false

namespace Verif

open Spec

variable {α β : Type}

/-- Every operation the program can ever do satisfies `E`, whatever it is answered. -/
def Prog.AllOps (E : FOp → Prop) : Prog α → Prop
  | .ret _ => True
  | .ub => True
  | .hang => True
  | .file op k => E op ∧ ∀ r, (k r).AllOps E
  | .coll _ _ k => ∀ l, (k l).AllOps E

theorem Prog.AllOps.bind {E : FOp → Prop} {x : Prog α} {f : α → Prog β} (hx : x.AllOps E)
    (hf : ∀ a, (f a).AllOps E) : (x.bind f).AllOps E := by
  induction x with
  | ret a => exact hf a
  | ub => trivial
  | hang => trivial
  | file op k ih => exact ⟨hx.1, fun r => ih r (hx.2 r)⟩
  | coll c v k ih => exact fun l => ih l (hx l)

theorem Prog.AllOps.lift_bind {E : FOp → Prop} {x : Option α} {f : α → Prog β}
    (hf : ∀ a, x = some a → (f a).AllOps E) : (Prog.bind (Prog.lift x) f).AllOps E := by
  cases x with
  | none => trivial
  | some a => exact hf a rfl

theorem Prog.AllOps.mono {E E' : FOp → Prop} (h : ∀ op, E op → E' op) {x : Prog α} (hx : x.AllOps E) :
    x.AllOps E' := by
  induction x with
  | ret a => trivial
  | ub => trivial
  | hang => trivial
  | file op k ih => exact ⟨h _ hx.1, fun r => ih r (hx.2 r)⟩
  | coll c v k ih => exact fun l => ih l (hx l)

/-! ## The effect of an operation on the nodes -/

/-- The effect of writing to a file. -/
def putBytes (nd : Nodes) (k : Key) (off : Nat) (bs : List Byte) : Nodes := (FS.writeFile ⟨nd, []⟩ k off bs).node

theorem putBytes_eq (fs : FS) (k : Key) (off : Nat) (bs : List Byte) :
    (fs.writeFile k off bs).node = putBytes fs.node k off bs := by
  unfold putBytes FS.writeFile
  simp only
  split <;> rfl

theorem putBytes_nil (nd : Nodes) (k : Key) (off : Nat) : putBytes nd k off [] = nd := by
  unfold putBytes FS.writeFile
  simp only
  split
  · rename_i d hd
    funext k'
    simp only [writeAt_nil]
    split
    · rename_i h; rw [h]; exact hd.symm
    · rfl
  · rfl

theorem putBytes_comm (nd : Nodes) (k1 k2 : Key) (o1 o2 : Nat) (a b : List Byte)
    (h : k1 ≠ k2 ∨ o1 + a.length ≤ o2 ∨ o2 + b.length ≤ o1) :
    putBytes (putBytes nd k1 o1 a) k2 o2 b = putBytes (putBytes nd k2 o2 b) k1 o1 a := by
  have := congrArg FS.node (writeFile_comm ⟨nd, []⟩ k1 k2 o1 o2 a b h)
  rw [putBytes_eq, putBytes_eq, putBytes_eq, putBytes_eq] at this
  exact this

theorem putBytes_file (nd : Nodes) (k k' : Key) (off : Nat) (bs : List Byte) :
    (∃ d, putBytes nd k off bs k' = some (.file d)) ↔ ∃ d, nd k' = some (.file d) :=
  isFile_writeFile ⟨nd, []⟩ k k' off bs

theorem putBytes_isSome (nd : Nodes) (k k' : Key) (off : Nat) (bs : List Byte) :
    (putBytes nd k off bs k').isSome = (nd k').isSome := by
  unfold putBytes FS.writeFile
  simp only
  split
  · rename_i d hd
    simp only
    split
    · rename_i h; rw [h, hd]; rfl
    · rfl
  · rfl

/-- Whether `fopen "r+"` finds a file. -/
def fileThere (nd : Nodes) (k : Key) : Bool := match nd k with
  | some (.file _) => true
  | _ => false

theorem fileThere_iff (nd : Nodes) (k : Key) : fileThere nd k = true ↔ ∃ d, nd k = some (.file d) := by
  unfold fileThere
  split
  · rename_i d hd; simp [hd]
  · rename_i h
    constructor
    · intro e; cases e
    · rintro ⟨d, hd⟩; exact absurd hd (h d)

theorem putBytes_fileThere (nd : Nodes) (k k' : Key) (off : Nat) (bs : List Byte) :
    fileThere (putBytes nd k off bs) k' = fileThere nd k' := by
  rw [Bool.eq_iff_iff, fileThere_iff, fileThere_iff, putBytes_file]

/-- How an operation of the read-only kind answers. -/
def FOp.answer : FOp → Fault → Nodes → Resp
  | .fopen path .r, f, nd => .ok (match f with | .fail => false | _ => (nd (resolve path)).isSome)
  | .fopen path _, f, nd => .ok (match f with | .fail => false | _ => fileThere nd (resolve path))
  | .fread path off len, f, nd =>
    .data (match f with
      | .fail => []
      | .short n => (((FS.bytes ⟨nd, []⟩ (resolve path)).drop off).take len).take n
      | _ => ((FS.bytes ⟨nd, []⟩ (resolve path)).drop off).take len)
  | _, _, _ => .ok false

/-- `fopen "r"`, `fopen "r+"` and `fread`. -/
def FOp.Passive : FOp → Prop
  | .fopen _ .r => True
  | .fopen _ .rplus => True
  | .fread _ _ _ => True
  | _ => False

theorem FOp.Passive.exec {op : FOp} (h : op.Passive) {f : Fault} {nd : Nodes} {a : Resp} {nd' : Nodes}
    (he : op.exec f nd = some (a, nd')) : a = op.answer f nd ∧ nd' = nd ∧ ∀ n, f ≠ .crash n := by
  cases op with
  | fwrite path off bs => exact h.elim
  | fopen path mode =>
    cases mode with
    | w => exact h.elim
    | r =>
      cases f <;>
        simp [FOp.exec, FOp.run, Verif.fopen, bind, M.bind, tick, pure, M.pure, getFS, die, FOp.answer] at he ⊢ <;>
        exact ⟨he.1.symm, he.2.symm⟩
    | rplus =>
      rcases hn : nd (resolve path) with _ | (_ | d) <;> cases f <;>
        simp [FOp.exec, FOp.run, Verif.fopen, bind, M.bind, tick, pure, M.pure, getFS, die, FOp.answer, hn,
          fileThere] at he ⊢ <;>
        exact ⟨he.1.symm, he.2.symm⟩
  | fread path off len =>
    cases f <;>
      simp [FOp.exec, FOp.run, freadAt, bind, M.bind, tick, pure, M.pure, getFS, die, FOp.answer] at he ⊢ <;>
      exact ⟨he.1.symm, he.2.symm⟩

theorem FOp.Passive.exec_eq {op : FOp} (h : op.Passive) {f : Fault} (hf : ∀ n, f ≠ .crash n) (nd : Nodes) :
    op.exec f nd = some (op.answer f nd, nd) := by
  obtain ⟨a, nd', he⟩ := op.exec_some hf nd
  obtain ⟨rfl, rfl, _⟩ := h.exec he
  exact he

/-- How many of the bytes reach the file. -/
def writtenLen : Fault → Nat → Nat
  | .fail, _ => 0
  | .short n, _ => n
  | _, len => len

theorem exec_fwrite {path : CStr} {off : Nat} {bs : List Byte} {f : Fault} {nd : Nodes} {a : Resp} {nd' : Nodes}
    (he : (FOp.fwrite path off bs).exec f nd = some (a, nd')) :
    a = .count (min (writtenLen f bs.length) bs.length) ∧
      nd' = putBytes nd (resolve path) off (bs.take (writtenLen f bs.length)) ∧ ∀ n, f ≠ .crash n := by
  cases f <;>
    simp [FOp.exec, FOp.run, fwriteAt, bind, M.bind, tick, pure, M.pure, getFS, setFS, die, writtenLen,
      putBytes_nil] at he ⊢ <;>
    obtain ⟨h1, h2⟩ := he <;> subst h1 <;> subst h2 <;> simp [putBytes]

theorem exec_fwrite_eq {path : CStr} {off : Nat} {bs : List Byte} {f : Fault} (hf : ∀ n, f ≠ .crash n) (nd : Nodes) :
    (FOp.fwrite path off bs).exec f nd = some (.count (min (writtenLen f bs.length) bs.length),
      putBytes nd (resolve path) off (bs.take (writtenLen f bs.length))) := by
  obtain ⟨a, nd', he⟩ := (FOp.fwrite path off bs).exec_some hf nd
  obtain ⟨rfl, rfl, _⟩ := exec_fwrite he
  exact he

/-! ## Commuting operations -/

theorem Commute.symm {o o' : FOp} {f f' : Fault} (h : Commute o f o' f') : Commute o' f' o f := by
  intro nd a nd1 b nd1' h1 h2
  obtain ⟨nd2, g1, g2⟩ := h nd b nd1' a nd1 h2 h1
  exact ⟨nd2, g2, g1⟩

theorem commute_passive {o o' : FOp} (h : o.Passive) (h' : o'.Passive) (f f' : Fault) : Commute o f o' f' := by
  intro nd a nd1 b nd1' h1 h2
  obtain ⟨_, rfl, _⟩ := h.exec h1
  obtain ⟨_, rfl, _⟩ := h'.exec h2
  exact ⟨nd1', h2, h1⟩

/-- Two writes to different files or to different places commute. -/
theorem commute_writes {p1 p2 : CStr} {o1 o2 : Nat} {a b : List Byte} (f f' : Fault)
    (h : resolve p1 ≠ resolve p2 ∨ o1 + a.length ≤ o2 ∨ o2 + b.length ≤ o1) :
    Commute (.fwrite p1 o1 a) f (.fwrite p2 o2 b) f' := by
  intro nd r1 nd1 r2 nd2 h1 h2
  obtain ⟨rfl, rfl, g1⟩ := exec_fwrite h1
  obtain ⟨rfl, rfl, g2⟩ := exec_fwrite h2
  refine ⟨_, exec_fwrite_eq g2 _, ?_⟩
  rw [exec_fwrite_eq g1]
  rw [putBytes_comm]
  simp only [List.length_take]
  rcases h with h | h | h
  · exact Or.inl (Ne.symm h)
  · right; right; omega
  · right; left; omega

/-- Opening an existing file commutes with a write. -/
theorem commute_open_write {p1 p2 : CStr} {mode : Mode} {o2 : Nat} {b : List Byte} (hm : mode ≠ .w) (f f' : Fault) :
    Commute (.fopen p1 mode) f (.fwrite p2 o2 b) f' := by
  have hp : (FOp.fopen p1 mode).Passive := by cases mode <;> first | trivial | exact absurd rfl hm
  intro nd r1 nd1 r2 nd2 h1 h2
  obtain ⟨rfl, rfl, g1⟩ := hp.exec h1
  obtain ⟨rfl, rfl, g2⟩ := exec_fwrite h2
  refine ⟨_, exec_fwrite_eq g2 _, ?_⟩
  rw [hp.exec_eq g1]
  congr 2
  cases mode with
  | r => simp only [FOp.answer, putBytes_isSome]
  | rplus => simp only [FOp.answer, putBytes_fileThere]
  | w => exact absurd rfl hm

/-! ## One process running alone among others -/

theorem FOp.run_exec {op : FOp} {w w' : World} {a : Resp} (h : op.run w = .ok a w') :
    op.exec (w.faults w.clock) w.fs.node = some (a, w'.fs.node) ∧ w'.faults = w.faults ∧ w'.clock = w.clock + 1 := by
  cases op with
  | fopen path mode =>
    cases mode with
    | r =>
      cases hf : w.faults w.clock <;>
        simp [FOp.exec, FOp.run, Verif.fopen, bind, M.bind, tick, pure, M.pure, getFS, die, hf] at h ⊢ <;>
        obtain ⟨h1, h2⟩ := h <;> subst h1 <;> subst h2 <;> simp
    | rplus =>
      rcases hn : w.fs.node (resolve path) with _ | (_ | d) <;> cases hf : w.faults w.clock <;>
        simp [FOp.exec, FOp.run, Verif.fopen, bind, M.bind, tick, pure, M.pure, getFS, die, hf, hn] at h ⊢ <;>
        obtain ⟨h1, h2⟩ := h <;> subst h1 <;> subst h2 <;> simp
    | w =>
      rcases hn : w.fs.node (resolve path) with _ | (_ | d) <;>
        by_cases hp : w.fs.node (resolve path).dropLast = some .dir <;> cases hf : w.faults w.clock <;>
        simp [FOp.exec, FOp.run, Verif.fopen, bind, M.bind, tick, pure, M.pure, getFS, setFS, die, hf, hn, hp] at h ⊢ <;>
        obtain ⟨h1, h2⟩ := h <;> subst h1 <;> subst h2 <;> simp [FS.set]
  | fwrite path off bs =>
    cases hf : w.faults w.clock <;>
      simp [FOp.exec, FOp.run, fwriteAt, bind, M.bind, tick, pure, M.pure, getFS, setFS, die, hf] at h ⊢ <;>
      obtain ⟨h1, h2⟩ := h <;> subst h1 <;> subst h2 <;> simp [putBytes_eq] <;> rfl
  | fread path off len =>
    cases hf : w.faults w.clock <;>
      simp [FOp.exec, FOp.run, freadAt, bind, M.bind, tick, pure, M.pure, getFS, die, hf] at h ⊢ <;>
      obtain ⟨h1, h2⟩ := h <;> subst h1 <;> subst h2 <;> simp [FS.bytes]

theorem Conf.put_put (s : Conf β) (r : Nat) (t u : Thread β) (nd nd' : Nodes) :
    (s.put r t nd).put r u nd' = s.put r u nd' := by
  simp only [Conf.put, Conf.mk.injEq, and_true]
  funext q
  split <;> rfl

theorem Conf.put_same (s : Conf β) (r : Nat) (t : Thread β) (nd : Nodes) (h : s.thr r = t) (hn : s.nodes = nd) :
    s.put r t nd = s := by
  subst hn
  obtain ⟨thr, nodes⟩ := s
  simp only [Conf.put, Conf.mk.injEq, and_true]
  funext q
  split
  · rename_i e; rw [e]; exact h.symm
  · rfl

/-- A process that runs while the others wait does what it would do alone. -/
theorem run_alone {E : FOp → Prop} {F : Nat → Nat → Fault} {n r : Nat} (hr : r < n) {k : α → Prog β} :
    ∀ {p : Prog α} {w w' : World} {x : α} {s : Conf β}, p.interp w = .ok x w' → p.AllOps E →
      s.thr r = ⟨p.bind k, w.clock⟩ → s.nodes = w.fs.node → w.faults = F r →
      w'.faults = w.faults ∧ ∃ es, Run F n s es (s.put r ⟨k x, w'.clock⟩ w'.fs.node) ∧
        ∀ e ∈ es, ∃ op t, e = .file r op (F r t) ∧ E op := by
  intro p
  induction p with
  | ret a =>
    intro w w' x s h _ hs hn hf
    cases h
    refine ⟨rfl, [], ?_, by simp⟩
    rw [s.put_same r ⟨k a, w.clock⟩ w.fs.node hs hn]
    exact .nil s
  | ub => intro w w' x s h; cases h
  | hang => intro w w' x s h; cases h
  | coll c v k' ih => intro w w' x s h; cases h
  | file op k' ih =>
    intro w w' x s h hE hs hn hf
    have h' : M.bind op.run (fun r => (k' r).interp) w = .ok x w' := h
    unfold M.bind at h'
    cases hop : op.run w with
    | ok a w1 =>
      rw [hop] at h'
      simp only at h'
      obtain ⟨he, hfa, hcl⟩ := FOp.run_exec hop
      rw [hf, ← hn] at he
      have hstep : Step F n s (.file r op (F r w.clock)) (s.put r ⟨(k' a).bind k, w.clock + 1⟩ w1.fs.node) :=
        .file s r op (fun a => (k' a).bind k) w.clock a w1.fs.node hr hs he
      obtain ⟨g1, es, g2, g3⟩ := ih a (s := s.put r ⟨(k' a).bind k, w.clock + 1⟩ w1.fs.node) h' (hE.2 a)
        (by simp [Conf.put, hcl]) rfl (by rw [hfa]; exact hf)
      rw [Conf.put_put] at g2
      refine ⟨g1.trans hfa, _, .cons hstep g2, ?_⟩
      intro e he
      rcases List.mem_cons.mp he with rfl | he
      · exact ⟨op, w.clock, rfl, hE.1⟩
      · exact g3 e he
    | crash w1 => rw [hop] at h'; cases h'
    | ub => rw [hop] at h'; cases h'
    | hang => rw [hop] at h'; cases h'

end Verif
