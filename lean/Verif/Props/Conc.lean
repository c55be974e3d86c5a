import Verif.Spec.Conc
import Verif.Proof.WriteOps
import Verif.Props.Transfer
/-!
# C57: concurrent writers to disjoint rows
-/

set_option autoImplicit false

namespace Verif

open Spec

/-- The file system after the writes, one after another. -/
def afterWrites (env : Env) (bb : Block) (nm : Nat) (W : Nat → Writer) (fs : FS) : List Nat → FS
  | [] => fs
  | i :: l => afterWrites env bb nm W
      (putRows env.m bb fs (W i).row (rowOfElems (W i).stored nm) ((W i).arr.size / nm)) l

theorem dataFiles_putRows {m : Machine} {bb : Block} {fs : FS} {p : Nat} {rows : Nat → List Byte} {n : Nat}
    (h : DataFiles fs bb) : DataFiles (putRows m bb fs p rows n) bb := by
  intro f hf
  rw [isFile_putRows]
  exact h f hf

/-- One write without faults. -/
theorem Spec.DisjointWriters.one {env : Env} {bb : Block} {w nm n : Nat} {W : Nat → Writer}
    (h : DisjointWriters env bb w nm n W) {i : Nat} (hi : i < n) {wd : World} (hf : wd.faults = noFaults)
    (hd : DataFiles wd.fs bb) :
    ∃ x w', blockWrite env (W i).bb (W i).ptr (W i).arr (W i).mem wd = .ok x w' ∧ x.rc = 0 ∧ w'.faults = noFaults ∧
      w'.fs = putRows env.m bb wd.fs (W i).row (rowOfElems (W i).stored nm) ((W i).arr.size / nm) ∧
      PointsTo bb x.ptr ((W i).row + (W i).arr.size / nm) ∧
      (∀ f, x.bb.fchecksum.getD f 0 = ((W i).bb.fchecksum.getD f 0 +
        rowsSum bb (W i).row (rowOfElems (W i).stored nm) f ((W i).arr.size / nm)) % 4294967296) := by
  have hs := h.shape i hi
  have hl := (h.legal i hi).spec wd
  obtain ⟨x, w', hrun, hx⟩ := wpc_returns hl (fun w' hc => hc.2 hf)
  have hrc := hx.succeeds hf ((hs.dataFiles _).mpr hd)
  obtain ⟨h1, _, h3⟩ := hx.done hrc
  refine ⟨x, w', hrun, hrc, hx.faults.trans hf, by rw [h1, hs.putRows], hs.symm'.pointsTo h3, ?_⟩
  intro f
  rw [hx.cksum hrc f, hs.rowsSum]

theorem Spec.DisjointWriters.serial {env : Env} {bb : Block} {w nm n : Nat} {W : Nat → Writer}
    (h : DisjointWriters env bb w nm n W) : ∀ (l : List Nat), (∀ i ∈ l, i < n) → ∀ (wd : World),
    wd.faults = noFaults → DataFiles wd.fs bb →
    ∃ w', serialWrites env W l wd = .ok true w' ∧ w'.fs = afterWrites env bb nm W wd.fs l := by
  intro l
  induction l with
  | nil => intro _ wd _ _; exact ⟨wd, rfl, rfl⟩
  | cons i l ih =>
    intro hl wd hf hd
    obtain ⟨x, w1, hrun, hrc, hf1, hfs1, _⟩ := h.one (hl i (by simp)) hf hd
    obtain ⟨w', hs, hfs⟩ := ih (fun j hj => hl j (by simp [hj])) w1 hf1 (by rw [hfs1]; exact dataFiles_putRows hd)
    refine ⟨w', ?_, by rw [hfs, hfs1]; rfl⟩
    show M.bind (blockWrite env (W i).bb (W i).ptr (W i).arr (W i).mem) _ wd = _
    unfold M.bind
    rw [hrun]
    show M.bind (serialWrites env W l) _ w1 = _
    unfold M.bind
    rw [hs]
    simp [hrc, pure, M.pure]

/-- The run in which the processes go one after another. -/
theorem Spec.DisjointWriters.run {env : Env} {bb : Block} {w nm n : Nat} {W : Nat → Writer}
    (h : DisjointWriters env bb w nm n W) : ∀ (l : List Nat), l.Nodup → (∀ i ∈ l, i < n) → ∀ (s : Conf Xfer) (fs : FS),
    (∀ i ∈ l, s.thr i = ⟨(W i).prog env, 0⟩) → s.nodes = fs.node → DataFiles fs bb →
    ∃ es s', Run faultless n s es s' ∧ s'.nodes = (afterWrites env bb nm W fs l).node ∧
      (∀ i ∈ l, ∃ x t, s'.thr i = ⟨.ret x, t⟩ ∧ x.rc = 0 ∧ PointsTo bb x.ptr ((W i).row + (W i).arr.size / nm) ∧
        (∀ f, x.bb.fchecksum.getD f 0 = ((W i).bb.fchecksum.getD f 0 +
          rowsSum bb (W i).row (rowOfElems (W i).stored nm) f ((W i).arr.size / nm)) % 4294967296)) ∧
      (∀ i, i ∉ l → s'.thr i = s.thr i) ∧
      (∀ e ∈ es, ∃ i ∈ l, ∃ op f, e = .file i op f ∧ WriteIn env.m bb (W i).row ((W i).arr.size / nm) op) := by
  intro l
  induction l with
  | nil => intro _ _ s fs _ hn _; exact ⟨[], s, .nil s, hn, by simp, fun _ _ => rfl, by simp⟩
  | cons i l ih =>
    intro hnd hl s fs ht hn hd
    have hi := hl i (by simp)
    obtain ⟨hil, hnd'⟩ := List.nodup_cons.mp hnd
    obtain ⟨x, w1, hrun, hrc, hf1, hfs1, hpt, hck⟩ := h.one hi (wd := ⟨fs, noFaults, 0⟩) rfl hd
    have hL := h.legal i hi
    have hops := blockWriteP_ops env (W i).bb (W i).arr w (W i).sw nm hL.ok (W i).ptr (W i).row (W i).mem hL.points
      (by rw [← hL.ok.layout.size]; exact hL.range)
    have hops' := hops.mono (fun op => WriteIn.shape (h.shape i hi))
    rw [← interp_blockWrite] at hrun
    obtain ⟨_, es1, hr1, he1⟩ := run_alone (F := faultless) hi (k := Prog.ret) (s := s) hrun hops'
      (by rw [ht i (by simp), Prog.bind_ret]; rfl) hn rfl
    obtain ⟨es2, s', hr2, hnod, hdone, hother, hev⟩ := ih hnd' (fun j hj => hl j (by simp [hj]))
      (s.put i ⟨.ret x, w1.clock⟩ w1.fs.node) w1.fs
      (fun j hj => by
        have : j ≠ i := fun e => hil (e ▸ hj)
        simp only [Conf.put, if_neg this]
        exact ht j (by simp [hj]))
      rfl (by rw [hfs1]; exact dataFiles_putRows hd)
    refine ⟨es1 ++ es2, s', hr1.trans hr2, ?_, ?_, ?_, ?_⟩
    · rw [hnod, hfs1]; rfl
    · intro j hj
      rcases List.mem_cons.mp hj with rfl | hj
      · refine ⟨x, w1.clock, ?_, hrc, hpt, hck⟩
        rw [hother j hil]
        simp [Conf.put]
      · exact hdone j hj
    · intro j hj
      simp only [List.mem_cons, not_or] at hj
      rw [hother j hj.2]
      simp [Conf.put, hj.1]
    · intro e he
      rcases List.mem_append.mp he with he | he
      · obtain ⟨op, t, rfl, hop⟩ := he1 e he
        exact ⟨i, by simp, op, _, rfl, hop⟩
      · obtain ⟨j, hj, op, f, rfl, hop⟩ := hev e he
        exact ⟨j, by simp [hj], op, f, rfl, hop⟩

/-- **C57.** `n` processes write to disjoint ranges of rows of a block whose data files exist, and nothing
fails. Their file operations may be interleaved in any way. Then no run is longer than a fixed number
of steps, no run gets stuck before all processes have returned 0, and when they have, the files are
those left by doing the same writes one after another, in whatever order. -/
theorem C57_concurrent_writers (env : Env) (bb : Block) (w nm n : Nat) (W : Nat → Writer) (fs : FS)
    (h : DisjointWriters env bb w nm n W) (hd : DataFiles fs bb) :
    ∃ B, ∀ es s, Run faultless n (startAll env W fs) es s → es.length ≤ B ∧
      (s.Stuck faultless n →
        (∀ i, i < n → ∃ x, (s.thr i).prog = .ret x ∧ x.rc = 0 ∧
          PointsTo bb x.ptr ((W i).row + (W i).arr.size / nm) ∧
          ∀ f, x.bb.fchecksum.getD f 0 = ((W i).bb.fchecksum.getD f 0 +
            rowsSum bb (W i).row (rowOfElems (W i).stored nm) f ((W i).arr.size / nm)) % 4294967296) ∧
        ∀ order : List Nat, order.Perm (List.range n) →
          ∃ w', serialWrites env W order ⟨fs, noFaults, 0⟩ = .ok true w' ∧ s.nodes = w'.fs.node) := by
  have hF : NoCrash faultless := by intro r t m; simp [faultless, noFaults]
  have main : ∀ order : List Nat, order.Perm (List.range n) → ∃ es1 s1, Run faultless n (startAll env W fs) es1 s1 ∧
      s1.Finished n ∧ (∀ a ∈ es1, ∀ b ∈ es1, Indep a b) ∧ s1.nodes = (afterWrites env bb nm W fs order).node ∧
      (∀ i, i < n → ∃ x, (s1.thr i).prog = .ret x ∧ x.rc = 0 ∧
          PointsTo bb x.ptr ((W i).row + (W i).arr.size / nm) ∧
          ∀ f, x.bb.fchecksum.getD f 0 = ((W i).bb.fchecksum.getD f 0 +
            rowsSum bb (W i).row (rowOfElems (W i).stored nm) f ((W i).arr.size / nm)) % 4294967296) := by
    intro order hp
    have hlt : ∀ i ∈ order, i < n := fun i hi => List.mem_range.mp (hp.subset hi)
    have hin : ∀ i, i < n → i ∈ order := fun i hi => hp.symm.subset (List.mem_range.mpr hi)
    obtain ⟨es, s1, hr, hn, hdone, _, hev⟩ := h.run order (hp.symm.nodup List.nodup_range) hlt (startAll env W fs) fs
      (fun _ _ => rfl) rfl hd
    refine ⟨es, s1, hr, ?_, ?_, hn, ?_⟩
    · intro i hi
      obtain ⟨x, t, hx, _⟩ := hdone i (hin i hi)
      exact ⟨x, by rw [hx]⟩
    · intro a ha b hb
      obtain ⟨i, hi, op, f, rfl, hop⟩ := hev a ha
      obtain ⟨j, hj, op', f', rfl, hop'⟩ := hev b hb
      intro hne
      exact hop.commute (h.disjoint i j (hlt i hi) (hlt j hj) hne) hop' f f'
    · intro i hi
      obtain ⟨x, t, hx, hrest⟩ := hdone i (hin i hi)
      exact ⟨x, by rw [hx], hrest⟩
  obtain ⟨es0, s0, hr0, hf0, hI0, hn0, hd0⟩ := main _ (List.Perm.refl _)
  refine ⟨es0.length, fun es s hrun => ?_⟩
  obtain ⟨hlen, hst⟩ := hr0.unique hF hf0 hI0 hrun
  refine ⟨hlen, fun hs => ?_⟩
  have hs0 := hst hs
  refine ⟨by rw [hs0]; exact hd0, fun order hp => ?_⟩
  obtain ⟨es1, s1, hr1, hf1, hI1, hn1, _⟩ := main order hp
  obtain ⟨w', hser, hfs⟩ := h.serial order (fun i hi => List.mem_range.mp (hp.subset hi)) ⟨fs, noFaults, 0⟩ rfl hd
  refine ⟨w', hser, ?_⟩
  rw [(hr1.unique hF hf1 hI1 hrun).2 hs, hn1, hfs]

/-! ## An example: two processes, rows 1 to 3 (in two files) and row 4 -/

/-- One big-endian element. -/
def exOne : Arr := { dtype := b!">i4", dims := [1], strides := [4], size := 1, data := 0 }

def exWriters (i : Nat) : Writer :=
  if i = 0 then ⟨exBlock, exPtr, exSrc, exMem, 1, 8, exStored⟩
  else ⟨exBlock, ⟨2, 2, 4⟩, exOne, fun y => UInt8.ofNat y.toNat, 4, 4, fun _ => [3, 2, 1, 0]⟩

theorem exWriters_ok : DisjointWriters exEnv exBlock 4 1 2 exWriters := by
  refine ⟨?_, ?_, ?_⟩
  · intro i hi
    match i, hi with
    | 0, _ => exact ⟨rfl, rfl, rfl, rfl, rfl, rfl, rfl⟩
    | 1, _ => exact ⟨rfl, rfl, rfl, rfl, rfl, rfl, rfl⟩
  · intro i hi
    match i, hi with
    | 0, _ => exact exLegalWrite
    | 1, _ =>
      refine ⟨?_, ?_, ⟨Or.inl (by decide), by decide, by decide, by decide⟩, by decide, ?_⟩
      · exact ⟨exBlock_layout, by decide, by decide, rfl, by decide, by decide, by decide, by decide, by decide,
          ⟨by decide, rfl, by decide, by decide, by decide⟩, by decide, by decide, by decide, by decide, by decide⟩
      · intro _ i j hi hj hne
        have hi : i < 1 := hi
        have hj : j < 1 := hj
        omega
      · intro e he
        have he : e < 1 := he
        obtain rfl : e = 0 := by omega
        decide +kernel
  · intro i j hi hj hne
    match i, j, hi, hj with
    | 0, 0, _, _ | 1, 1, _, _ => exact absurd rfl hne
    | 0, 1, _, _ => left; decide
    | 1, 0, _, _ => right; decide

theorem exFS_data : DataFiles exFS exBlock := by
  intro f hf
  have hf : f < 3 := hf
  match f, hf with
  | 0, _ => exact ⟨_, rfl⟩
  | 1, _ => exact ⟨_, rfl⟩
  | 2, _ => exact ⟨_, rfl⟩

example : ∃ B, ∀ es s, Run faultless 2 (startAll exEnv exWriters exFS) es s → es.length ≤ B ∧
    (s.Stuck faultless 2 → ∀ order : List Nat, order.Perm (List.range 2) →
      ∃ w', serialWrites exEnv exWriters order exWorld = .ok true w' ∧ s.nodes = w'.fs.node) := by
  obtain ⟨B, hB⟩ := C57_concurrent_writers exEnv exBlock 4 1 2 exWriters exFS exWriters_ok exFS_data
  exact ⟨B, fun es s hr => ⟨(hB es s hr).1, fun hs => ((hB es s hr).2 hs).2⟩⟩

end Verif
