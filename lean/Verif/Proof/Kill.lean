import Verif.C.Kill
import Verif.Proof.WriteOps
/-!
# Runs in which processes are killed are as good as runs of one process after the other
-/

set_option autoImplicit false

namespace Verif

open Spec

variable {α : Type}

/-- Done in either order, two operations answer the same and leave the same files. -/
def DoCommute (o : FOp) (f : Fault) (o' : FOp) (f' : Fault) : Prop :=
  ∀ nd, (o'.does f' (o.does f nd).2).1 = (o'.does f' nd).1 ∧ (o.does f (o'.does f' nd).2).1 = (o.does f nd).1 ∧
    (o'.does f' (o.does f nd).2).2 = (o.does f (o'.does f' nd).2).2

theorem DoCommute.symm {o o' : FOp} {f f' : Fault} (h : DoCommute o f o' f') : DoCommute o' f' o f :=
  fun nd => ⟨(h nd).2.1, (h nd).1, (h nd).2.2.symm⟩

theorem does_rplus (path : CStr) (f : Fault) (nd : Nodes) :
    (FOp.fopen path .rplus).does f nd = (match f with
      | .crash _ => none
      | .fail => some (.ok false)
      | _ => some (.ok (fileThere nd (resolve path))), nd) := by
  rcases hn : nd (resolve path) with _ | (_ | d) <;> cases f <;>
    simp [FOp.does, FOp.run, Verif.fopen, bind, M.bind, tick, pure, M.pure, getFS, die, hn, fileThere]

/-- How many of the bytes reach the file, also when the process is killed. -/
def reachLen : Fault → Nat → Nat
  | .fail, _ => 0
  | .short n, _ => n
  | .crash n, _ => n
  | _, len => len

theorem does_fwrite (path : CStr) (off : Nat) (bs : List Byte) (f : Fault) (nd : Nodes) :
    (FOp.fwrite path off bs).does f nd = (match f with
      | .crash _ => none
      | f => some (.count (min (reachLen f bs.length) bs.length)),
      putBytes nd (resolve path) off (bs.take (reachLen f bs.length))) := by
  cases f <;>
    simp [FOp.does, FOp.run, fwriteAt, bind, M.bind, tick, pure, M.pure, getFS, setFS, die, reachLen, putBytes_nil] <;> rfl

/-- Operations of writes to disjoint rows commute, also when processes are killed in them. -/
theorem WriteIn.doCommute {m : Machine} {bb : Block} {p n p' n' : Nat} (hd : p + n ≤ p' ∨ p' + n' ≤ p) {o o' : FOp}
    (h : WriteIn m bb p n o) (h' : WriteIn m bb p' n' o') (f f' : Fault) : DoCommute o f o' f' := by
  have hop : ∀ (path path' : CStr) (off : Nat) (bs : List Byte) (f f' : Fault),
      DoCommute (.fopen path .rplus) f (.fwrite path' off bs) f' := by
    intro path path' off bs f f' nd
    simp only [does_rplus, does_fwrite, putBytes_fileThere]
    exact ⟨trivial, trivial, trivial⟩
  cases o with
  | fread path off len => exact h.elim
  | fopen path mode =>
    cases mode with
    | r => exact h.elim
    | w => exact h.elim
    | rplus =>
      cases o' with
      | fread path off len => exact h'.elim
      | fopen path' mode' =>
        cases mode' with
        | r => exact h'.elim
        | w => exact h'.elim
        | rplus => intro nd; simp only [does_rplus]; exact ⟨trivial, trivial, trivial⟩
      | fwrite path' off' bs' => exact hop _ _ _ _ _ _
  | fwrite path off bs =>
    cases o' with
    | fread path off len => exact h'.elim
    | fopen path' mode' =>
      cases mode' with
      | r => exact h'.elim
      | w => exact h'.elim
      | rplus => exact (hop _ _ _ _ _ _).symm
    | fwrite path' off' bs' =>
      obtain ⟨g, r, c, a1, rfl, a3, a4, a5, a6⟩ := h
      obtain ⟨g', r', c', b1, rfl, b3, b4, b5, b6⟩ := h'
      intro nd
      simp only [does_fwrite]
      refine ⟨trivial, trivial, ?_⟩
      apply putBytes_comm
      simp only [List.length_take]
      by_cases hg : g = g'
      · subst hg
        right
        have h1 : off + bs.length = (r + c) * rowSize m bb := by rw [a5, a6, ← Nat.add_mul]
        have h2 : off' + bs'.length = (r' + c') * rowSize m bb := by rw [b5, b6, ← Nat.add_mul]
        rcases hd with hd | hd
        · left
          have : (r + c) * rowSize m bb ≤ r' * rowSize m bb := Nat.mul_le_mul_right _ (by omega)
          omega
        · right
          have : (r' + c') * rowSize m bb ≤ r * rowSize m bb := Nat.mul_le_mul_right _ (by omega)
          omega
      · left
        intro e
        have := fileKey_inj (base := bb.basename) e
        injection this
        contradiction

/-! ## One process alone -/

/-- The process `p0` alone, after `t` operations, started with the files `nd`. -/
inductive Alone (F : Nat → Fault) (p0 : Prog α) (nd : Nodes) : Nat → Prog α → Nodes → Prop where
  | nil : Alone F p0 nd 0 p0 nd
  | snoc {t : Nat} {op : FOp} {k : Resp → Prog α} {nd1 : Nodes} (h : Alone F p0 nd t (.file op k) nd1) :
      Alone F p0 nd (t + 1) (Prog.after k (op.does (F t) nd1).1) (op.does (F t) nd1).2

theorem Prog.AllOps.after {E : FOp → Prop} {op : FOp} {k : Resp → Prog α} (h : (Prog.file op k).AllOps E) (a : Option Resp) :
    (Prog.after k a).AllOps E := by
  cases a with
  | none => trivial
  | some a => exact h.2 a

theorem Alone.allOps {E : FOp → Prop} {F : Nat → Fault} {p0 p : Prog α} {nd nd' : Nodes} {t : Nat} (h : Alone F p0 nd t p nd')
    (hE : p0.AllOps E) : p.AllOps E := by
  induction h with
  | nil => exact hE
  | snoc h ih => exact ih.after _

/-- An operation that commutes with all operations of a process can be done before them. -/
theorem Alone.push {E : FOp → Prop} {F : Nat → Fault} {p0 p : Prog α} {nd nd' : Nodes} {t : Nat} {o : FOp} {f : Fault}
    (h : Alone F p0 nd t p nd') (hE : p0.AllOps E) (hc : ∀ op g, E op → DoCommute o f op g) :
    (o.does f nd').1 = (o.does f nd).1 ∧ Alone F p0 (o.does f nd).2 t p (o.does f nd').2 := by
  induction h with
  | nil => exact ⟨rfl, .nil⟩
  | @snoc t op k nd1 h ih =>
    have hop := (h.allOps hE).1
    obtain ⟨h1, h2, h3⟩ := hc op (F t) hop nd1
    refine ⟨h2.trans ih.1, ?_⟩
    have := ih.2.snoc
    rw [h1, h3] at this
    exact this

/-- The processes `0, ..., m-1` one after the other. -/
inductive Serial (F : Nat → Nat → Fault) (P : Nat → Prog α) (nd : Nodes) (thr : Nat → Thread α) : Nat → Nodes → Prop where
  | nil : Serial F P nd thr 0 nd
  | snoc {m : Nat} {nd1 nd2 : Nodes} (h : Serial F P nd thr m nd1)
      (ha : Alone (F m) (P m) nd1 (thr m).clock (thr m).prog nd2) : Serial F P nd thr (m + 1) nd2

theorem Serial.congr {F : Nat → Nat → Fault} {P : Nat → Prog α} {nd nd' : Nodes} {thr thr' : Nat → Thread α} {m : Nat}
    (h : Serial F P nd thr m nd') (he : ∀ r, r < m → thr' r = thr r) : Serial F P nd thr' m nd' := by
  induction h with
  | nil => exact .nil
  | @snoc m nd1 nd2 h ha ih =>
    refine .snoc (ih fun r hr => he r (by omega)) ?_
    rw [he m (by omega)]
    exact ha

theorem Serial.step {E : Nat → FOp → Prop} {F : Nat → Nat → Fault} {P : Nat → Prog α} {nd : Nodes} {thr : Nat → Thread α}
    {r : Nat} {op : FOp} {k : Resp → Prog α} {t : Nat} (ht : thr r = ⟨.file op k, t⟩) (hop : E r op) :
    ∀ {m : Nat} {nd' : Nodes}, (∀ i, i < m → (P i).AllOps (E i)) →
    (∀ j, j < m → j ≠ r → ∀ o o' f f', E r o → E j o' → DoCommute o f o' f') →
    Serial F P nd thr m nd' → r < m →
    Serial F P nd (fun q => if q = r then ⟨Prog.after k (op.does (F r t) nd').1, t + 1⟩ else thr q) m (op.does (F r t) nd').2 := by
  intro m
  induction m with
  | zero => intro _ _ _ _ hr; omega
  | succ m ih =>
    intro nd' hP hC hs hr
    cases hs with
    | @snoc _ nd1 _ h ha =>
      by_cases e : r = m
      · subst e
        rw [ht] at ha
        refine .snoc (h.congr fun q hq => if_neg (by omega)) ?_
        simp only [if_true]
        exact ha.snoc
      · obtain ⟨g1, g2⟩ := ha.push (o := op) (f := F r t) (hP m (by omega))
          (fun o' f' ho' => hC m (by omega) (Ne.symm e) op o' (F r t) f' hop ho')
        have := ih (fun i hi => hP i (by omega)) (fun j hj hne => hC j (by omega) hne) h (by omega)
        rw [← g1] at this
        refine .snoc this ?_
        rw [if_neg (Ne.symm e)]
        exact g2

theorem Serial.one {F : Nat → Nat → Fault} {P : Nat → Prog α} {nd nd' : Nodes} {thr : Nat → Thread α} {m : Nat}
    (h : Serial F P nd thr m nd') {r : Nat} (hr : r < m) : ∃ nd1 nd2, Alone (F r) (P r) nd1 (thr r).clock (thr r).prog nd2 := by
  induction h with
  | nil => omega
  | @snoc m nd1 nd2 h ha ih =>
    by_cases e : r = m
    · subst e; exact ⟨_, _, ha⟩
    · exact ih (by omega)

/-- Every run of processes whose operations commute, and which do not communicate, ends like a serial one. -/
theorem KRun.serial {E : Nat → FOp → Prop} {F : Nat → Nat → Fault} {n : Nat} {s0 s : Conf α} (h : KRun F n s0 s)
    (h0 : ∀ r, r < n → (s0.thr r).clock = 0) (hP : ∀ r, r < n → (s0.thr r).prog.AllOps (E r))
    (hN : ∀ r, r < n → ∀ nd t p nd', Alone (F r) (s0.thr r).prog nd t p nd' → ∀ c, ¬ p.WaitsAt c)
    (hC : ∀ i j, i < n → j < n → i ≠ j → ∀ o o' f f', E i o → E j o' → DoCommute o f o' f') :
    Serial F (fun r => (s0.thr r).prog) s0.nodes s.thr n s.nodes := by
  induction h with
  | nil =>
    have : ∀ m, m ≤ n → Serial F (fun r => (s0.thr r).prog) s0.nodes s0.thr m s0.nodes := by
      intro m
      induction m with
      | zero => intro _; exact .nil
      | succ m ih =>
        intro hm
        refine .snoc (ih (by omega)) ?_
        rw [h0 m (by omega)]
        exact .nil
    exact this n (Nat.le_refl _)
  | @file s1 h r op k t hr ht ih =>
    obtain ⟨_, _, ha⟩ := ih.one hr
    have hop := ha.allOps (hP r hr)
    rw [ht] at hop
    exact Serial.step (E := E) ht hop.1 hP (fun j hj hne => hC r j hr hj (Ne.symm hne)) ih hr
  | @coll s1 h c hne hall ih =>
    obtain ⟨r, hr⟩ := List.exists_mem_of_ne_nil _ hne
    obtain ⟨h1, h2⟩ := hall r hr
    obtain ⟨_, _, ha⟩ := ih.one h1
    exact absurd h2 (hN r h1 _ _ _ _ ha c)

/-! ## A process alone is the serial program -/

theorem FOp.run_does {op : FOp} (w : World) :
    (∃ a w', op.run w = .ok a w' ∧ op.does (w.faults w.clock) w.fs.node = (some a, w'.fs.node) ∧ w'.faults = w.faults ∧
      w'.clock = w.clock + 1) ∨
    (∃ w', op.run w = .crash w' ∧ op.does (w.faults w.clock) w.fs.node = (none, w'.fs.node)) := by
  cases op with
  | fopen path mode =>
    cases mode with
    | r =>
      cases hf : w.faults w.clock <;>
        simp [FOp.does, FOp.run, Verif.fopen, bind, M.bind, tick, pure, M.pure, getFS, die, hf] <;> exact ⟨_, _, ⟨rfl, rfl⟩, ⟨rfl, rfl⟩, rfl, rfl⟩
    | rplus =>
      rcases hn : w.fs.node (resolve path) with _ | (_ | d) <;> cases hf : w.faults w.clock <;>
        simp [FOp.does, FOp.run, Verif.fopen, bind, M.bind, tick, pure, M.pure, getFS, die, hf, hn] <;> exact ⟨_, _, ⟨rfl, rfl⟩, ⟨rfl, rfl⟩, rfl, rfl⟩
    | w =>
      rcases hn : w.fs.node (resolve path) with _ | (_ | d) <;>
        by_cases hp : w.fs.node (resolve path).dropLast = some .dir <;> cases hf : w.faults w.clock <;>
        simp [FOp.does, FOp.run, Verif.fopen, bind, M.bind, tick, pure, M.pure, getFS, setFS, die, hf, hn, hp, FS.set] <;> exact ⟨_, _, ⟨rfl, rfl⟩, ⟨rfl, rfl⟩, rfl, rfl⟩
  | fwrite path off bs =>
    cases hf : w.faults w.clock <;>
      simp [FOp.does, FOp.run, fwriteAt, bind, M.bind, tick, pure, M.pure, getFS, setFS, die, hf] <;>
      first | exact ⟨_, _, ⟨rfl, rfl⟩, ⟨rfl, (putBytes_eq _ _ _ _).symm⟩, rfl, rfl⟩ | exact ⟨_, _, ⟨rfl, rfl⟩, ⟨rfl, rfl⟩, rfl, rfl⟩ |
        exact (putBytes_eq _ _ _ _).symm
  | fread path off len =>
    cases hf : w.faults w.clock <;>
      simp [FOp.does, FOp.run, freadAt, bind, M.bind, tick, pure, M.pure, getFS, die, hf, FS.bytes] <;> exact ⟨_, _, ⟨rfl, rfl⟩, ⟨rfl, rfl⟩, rfl, rfl⟩

/-- A process alone does what the serial program does, or was killed. -/
theorem Alone.interp {F : Nat → Fault} {p0 p : Prog α} {nd nd' : Nodes} {t : Nat} (h : Alone F p0 nd t p nd') :
    ∀ w : World, w.fs.node = nd → w.clock = 0 → (∀ i, i < t → w.faults i = F i) →
    ∃ w' : World, w'.fs.node = nd' ∧ ((w'.clock = t ∧ w'.faults = w.faults ∧ p0.interp w = p.interp w') ∨
      (p = .hang ∧ p0.interp w = .crash w')) := by
  induction h with
  | nil => intro w h1 h2 _; exact ⟨w, h1, Or.inl ⟨h2, rfl, rfl⟩⟩
  | @snoc t op k nd1 h ih =>
    intro w h1 h2 hF
    obtain ⟨w1, g1, g2 | g2⟩ := ih w h1 h2 (fun i hi => hF i (by omega))
    · obtain ⟨c1, c2, c3⟩ := g2
      have hft : w1.faults w1.clock = F t := by rw [c1, c2]; exact hF t (by omega)
      have c3' : p0.interp w = M.bind op.run (fun r => (k r).interp) w1 := c3
      unfold M.bind at c3'
      rcases FOp.run_does (op := op) w1 with ⟨a, w2, e1, e2, e3, e4⟩ | ⟨w2, e1, e2⟩
      · rw [hft, g1] at e2
        rw [e1] at c3'
        refine ⟨w2, by rw [e2], Or.inl ⟨by omega, e3.trans c2, ?_⟩⟩
        rw [e2]
        exact c3'
      · rw [hft, g1] at e2
        rw [e1] at c3'
        refine ⟨w2, by rw [e2], Or.inr ⟨?_, c3'⟩⟩
        rw [e2]
        rfl
    · exact absurd g2.1 (by simp)

end Verif
