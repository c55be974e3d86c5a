import Verif.Proof.KillRanges
import Verif.Props.SampleFiles
/-!
# C86: parallel copy and parallel sampling when file operations fail and processes are killed
-/

set_option autoImplicit false

namespace Verif

open Spec

variable {env : Env} {K : Kind} {A B : Content} {bb : Block} {H : Nat → Block} {mem : Nat → Mem} {nd : Nodes} {n chunk : Nat} {g : Rng} {all : Bool}
  {draw : Nat → Nat → Nat → Nat} {buf abuf : Int} {F : Nat → Nat → Fault}

theorem Spec.CopyReady.may (h : CopyReady env K A B bb H nd n) (hn : 0 < n) (o k : Nat) (hk : 0 < k) (_ : k ≤ chunk) (ho : o + k ≤ A.size) :
    JobMay env K A A bb (H 0) (copyRangeP env bb buf) (o, k) o k :=
  copyRange_may h.side (h.dst 0 hn).kind (h.dst 0 hn).size buf hk ho

theorem Spec.SampleReady.may (h : SampleReady env K A B bb H nd n g all draw buf abuf) (hn : 0 < n) (i k : Nat) (hk : 0 < k) (_ : k ≤ 1)
    (hi : i + k ≤ (sampleWork g all A.size).length) :
    JobMay env K A (A.sampled draw B (sampleWork g all A.size)) bb (H 0) (sampleJob env bb draw buf abuf (sampleWork g all A.size))
      (destOf (sampleWork g all A.size) (i, k)) i k := by
  have hlt : i < (sampleWork g all A.size).length := by omega
  unfold destOf
  rw [List.getElem?_eq_getElem hlt]
  exact sample_may h.side (h.dst 0 hn).kind (h.dst 0 hn).size (List.getElem?_eq_getElem hlt)

/-- C86, copying, at every moment. Any number of processes copy a block; any of their file operations may fail or come to a partial end
and any process may be killed in one (`F`). At every moment of every run: nobody has done anything undefined; the source is as it was;
no file has changed but the data files of the new block; and the rows of every range that was reported as copied are in the new block. -/
theorem C86_copy_killed (hr : CopyReady env K A B bb H nd n) (hn : 0 < n) (hc : 0 < chunk) {es : List CopyEvent} {s : FilesConf}
    (t : KFilesRun (copyRangeP env bb buf) F n A.size (filesStart chunk H mem nd) es s) :
    (∀ r, r < n → (s.procs.thr r).prog ≠ .ub) ∧ Holds env K bb ⟨s.procs.nodes, []⟩ A ∧
    (∀ k, (∀ f, k ≠ fileKey (H 0).basename (.data f)) → s.procs.nodes k = nd k) ∧
    ∀ o l, (o, l) ∈ copiedRanges es → ∀ i, i < l → (A.rows (o + i)).getD [] = row env.m ⟨s.procs.nodes, []⟩ (H 0) (o + i) := by
  obtain ⟨h1, h2, h3, h4⟩ := jobs_killed hr.jobs hn hc (hr.may hn) t
  exact ⟨h1, h2, h3, fun o l h i hi => (h4 o l h i hi).symm⟩

/-- C86, copying, at the end. At least two processes copy a block, with failures and kills as above. If in the end all have left their
functions and nobody has reported a failure, every handle of the new block sees all rows of the source. They then close the new block
together, and operations may again fail, and the program may be killed (but `fclose` does not hide a failed write): if this succeeds, the
stored block has the rows of the source, and the right checksums; in any case the source and all other files are as they were. -/
theorem C86_copy_success (hr : CopyReady env K A B bb H nd n) (hn : 2 ≤ n) (hc : 0 < chunk) {es : List CopyEvent} {s : FilesConf}
    (t : KFilesRun (copyRangeP env bb buf) F n A.size (filesStart chunk H mem nd) es s) (hl : AllLeft n s.queue) (hf : failedRanges es = []) :
    ∃ X : Nat → Worker, (∀ r, r < n → (s.procs.thr r).prog = .ret (X r)) ∧ Holds env K bb ⟨s.procs.nodes, []⟩ A ∧
      (∀ r, r < n → Holds env K (X r).bb ⟨s.procs.nodes, []⟩ { B with rows := A.rows }) ∧
      ∀ w : World, w.fs.node = s.procs.nodes → NoSilent w.faults →
        wpc (mpiClose env n fun r => (X r).bb) w
          (fun rc w' => SameOutside (H 0).basename w.fs w'.fs ∧ Holds env K bb w'.fs A ∧ (rc = 0 ∨ rc = -1) ∧ (rc = 0 →
            OnDisk env K w'.fs (H 0).basename (Content.closed { B with rows := A.rows }) ∧
            ∃ b w1 w2, w1.fs = w'.fs ∧ w1.faults = noFaults ∧ blockOpen env (H 0).basename w1 = .ok (0, some b) w2 ∧
              ∀ f, f < (H 0).nfile → b.fchecksum.getD f 0 = rowsSum (H 0) 0 (fun i => (A.rows i).getD []) f B.size % 4294967296))
          (fun w' => SameOutside (H 0).basename w.fs w'.fs ∧ Holds env K bb w'.fs A) :=
  jobs_success hr.jobs hc (hr.may (by omega)) hn t hl hf

/-- C86, sampling, at every moment. There are rows `T`, as many as the new block has, different rows of the source in their order, such
that at every moment of every run: nobody has done anything undefined; the source is as it was; no file has changed but the data files of
the new block; and for every piece of work that was reported as done, its rows in the new block are those of `T`. -/
theorem C86_sample_killed (hr : SampleReady env K A B bb H nd n g all draw buf abuf) (hn : 0 < n) :
    ∃ T sel, Choice sel B.size A.size ∧ (List.range B.size).map T = sel.map A.rows ∧
    ∀ (es : List CopyEvent) (s : FilesConf), KFilesRun (sampleJob env bb draw buf abuf (sampleWork g all A.size)) F n
        (sampleWork g all A.size).length (filesStart 1 H mem nd) es s →
    (∀ r, r < n → (s.procs.thr r).prog ≠ .ub) ∧ Holds env K bb ⟨s.procs.nodes, []⟩ A ∧
    (∀ k, (∀ f, k ≠ fileKey (H 0).basename (.data f)) → s.procs.nodes k = nd k) ∧
    ∀ i, (i, 1) ∈ copiedRanges es → ∀ wk, (sampleWork g all A.size)[i]? = some wk → ∀ j, j < wk.nsel →
      (T (wk.offsetnew + j)).getD [] = row env.m ⟨s.procs.nodes, []⟩ (H 0) (wk.offsetnew + j) := by
  obtain ⟨sel, c1, c2⟩ := sample_rows A B g all draw hr.fair (sampleWork g all A.size) hr.size (List.Perm.refl _) hr.few
  refine ⟨(A.sampled draw B (sampleWork g all A.size)).rows, sel, c1, c2, fun es s t => ?_⟩
  obtain ⟨h1, h2, h3, h4⟩ := jobs_killed (hr.jobs hn) hn (by decide) (hr.may hn) t
  refine ⟨h1, h2, h3, fun i hi wk hw j hj => ?_⟩
  have hd : destOf (sampleWork g all A.size) (i, 1) = (wk.offsetnew, wk.nsel) := by
    unfold destOf
    rw [hw]
  have := h4 i 1 hi j (by rw [hd]; exact hj)
  rw [hd] at this
  exact this.symm

/-- C86, sampling, at the end. -/
theorem C86_sample_success (hr : SampleReady env K A B bb H nd n g all draw buf abuf) (hn : 2 ≤ n) :
    ∃ T sel, Choice sel B.size A.size ∧ (List.range B.size).map T = sel.map A.rows ∧
    ∀ (es : List CopyEvent) (s : FilesConf), KFilesRun (sampleJob env bb draw buf abuf (sampleWork g all A.size)) F n
        (sampleWork g all A.size).length (filesStart 1 H mem nd) es s → AllLeft n s.queue → failedRanges es = [] →
    ∃ X : Nat → Worker, (∀ r, r < n → (s.procs.thr r).prog = .ret (X r)) ∧ Holds env K bb ⟨s.procs.nodes, []⟩ A ∧
      (∀ r, r < n → Holds env K (X r).bb ⟨s.procs.nodes, []⟩ { B with rows := T }) ∧
      ∀ w : World, w.fs.node = s.procs.nodes → NoSilent w.faults →
        wpc (mpiClose env n fun r => (X r).bb) w
          (fun rc w' => SameOutside (H 0).basename w.fs w'.fs ∧ Holds env K bb w'.fs A ∧ (rc = 0 ∨ rc = -1) ∧ (rc = 0 →
            OnDisk env K w'.fs (H 0).basename (Content.closed { B with rows := T }) ∧
            ∃ b w1 w2, w1.fs = w'.fs ∧ w1.faults = noFaults ∧ blockOpen env (H 0).basename w1 = .ok (0, some b) w2 ∧
              ∀ f, f < (H 0).nfile → b.fchecksum.getD f 0 = rowsSum (H 0) 0 (fun i => (T i).getD []) f B.size % 4294967296))
          (fun w' => SameOutside (H 0).basename w.fs w'.fs ∧ Holds env K bb w'.fs A) := by
  obtain ⟨sel, c1, c2⟩ := sample_rows A B g all draw hr.fair (sampleWork g all A.size) hr.size (List.Perm.refl _) hr.few
  exact ⟨(A.sampled draw B (sampleWork g all A.size)).rows, sel, c1, c2, fun es s t hl hf =>
    jobs_success (hr.jobs (by omega)) (by decide) (hr.may (by omega)) hn t hl hf⟩

/-! ### Examples -/

/-- Five rows in three files, to be copied to a new block of two files. -/
theorem exKill_ready (n : Nat) : ∃ (bb bn : Block) (w2 : World),
    CopyReady exEnv exKind exCopyA (Content.fresh [3, 2]) bb (mpiBroadcast exEnv bn) w2.fs.node n := by
  obtain ⟨_, bb, _, bn, w2, _, _, _, hb, hbn, nf, h1, h2, hck⟩ := exNew_ready [3, 2] (Or.inr rfl)
  exact ⟨bb, bn, w2, .of_broadcast (h1.node rfl) (fun r hr => exCopyA_full r (exSampleA_size ▸ hr)) (by decide +kernel) (h2.node rfl)
    (by rw [hbn]; decide) hck (by rw [hb, hbn]; exact exSample_apart) (by rw [exSampleA_size]; decide)⟩

theorem FOp.killed (op : FOp) (nd : Nodes) : (op.does (.crash 0) nd).1 = none := by
  cases op <;> rfl

/-- A range with a row begins with opening a file. -/
theorem copyRangeP_begins (hr : CopyReady env K A B bb H nd n) {r o k : Nat} (hrn : r < n) (hk : 0 < k) (ho : o + k ≤ A.size) (m : Mem) :
    ∃ op c, copyRangeP env bb buf o k ⟨0, H r, m⟩ = .file op c := by
  have hbs := hr.src.size
  have hsm := hr.small
  have hd := hr.dst r hrn
  have hread := readSimple_noFile hr.src.ok o k buf m ⟨⟨nd, []⟩, fun _ => .fail, 0⟩ hk (by omega) rfl
  have e : (copyRangeP env bb buf o k ⟨0, H r, m⟩).interp ⟨⟨nd, []⟩, fun _ => .fail, 0⟩ =
      .ok ⟨-1, H r, m⟩ ⟨⟨nd, []⟩, fun _ => .fail, 1⟩ := by
    unfold copyRangeP
    refine (congrFun (Prog.interp_bind _ _) _).trans ?_
    rw [interp_readSimple, i64_of_range (by omega) (by omega)]
    unfold M.bind
    rw [hread]
    rfl
  have hs := copyRangeP_sat (off := o) (bd := H 0) hr.src.ok hd.ok (hr.shape r hrn) (by rw [hd.size, hr.size, hbs]) hk (by omega) buf ⟨0, H r, m⟩ rfl
  generalize copyRangeP env bb buf o k ⟨0, H r, m⟩ = p at e hs
  cases p with
  | ret a => cases e
  | ub => cases e
  | hang => cases e
  | file op c => exact ⟨op, c, rfl⟩
  | coll c v k => exact False.elim (by simpa [Prog.Sat] using hs)

/-- Three processes copy them, at most two rows at a time. The first worker is killed in its first operation: there is such a run, and it
goes on: the second worker takes the next range. -/
example : ∃ (bb bn : Block) (w2 : World) (F : Nat → Nat → Fault) (es : List CopyEvent) (s : FilesConf),
    CopyReady exEnv exKind exCopyA (Content.fresh [3, 2]) bb (mpiBroadcast exEnv bn) w2.fs.node 3 ∧
    KFilesRun (copyRangeP exEnv bb 500) F 3 5 (filesStart 2 (mpiBroadcast exEnv bn) (fun _ => exMem) w2.fs.node) es s ∧
    (s.procs.thr 1).prog = .hang ∧ s.queue.worker 1 = .copying 0 2 ∧ s.queue.worker 2 = .copying 2 2 := by
  obtain ⟨bb, bn, w2, hr⟩ := exKill_ready 3
  have t := KFilesRun.nil (job := copyRangeP exEnv bb 500) (F := fun _ _ => .crash 0) (n := 3) (size := 5)
    (s0 := filesStart 2 (mpiBroadcast exEnv bn) (fun _ => exMem) w2.fs.node)
  have t := t.queue (.talk _ _ _ (.start _ 1 ⟨by decide, by decide⟩ rfl) rfl)
  have t := t.queue (.talk _ _ _ (.hand _ 0 2 1 [] rfl (by decide) ⟨by decide, by decide⟩ rfl) rfl)
  have t := t.queue (.take _ 1 0 (nextLen 5 0 2) _ ⟨0, mpiBroadcast exEnv bn 1, exMem⟩ 0
    (.take _ 1 0 (nextLen 5 0 2) [] ⟨by decide, by decide⟩ rfl rfl) rfl)
  obtain ⟨op, c, e⟩ := copyRangeP_begins (r := 1) (o := 0) (k := 2) (buf := 500) hr (by decide) (by decide) (by rw [exSampleA_size]; decide) exMem
  have t := t.file 1 op c 0 (by decide) (by rw [← e]; rfl)
  have t := t.queue (.talk _ _ _ (.start _ 2 ⟨by decide, by decide⟩ rfl) rfl)
  have t := t.queue (.talk _ _ _ (.hand _ 2 2 2 [] rfl (by decide) ⟨by decide, by decide⟩ rfl) rfl)
  have t := t.queue (.take _ 2 2 (nextLen 5 2 2) _ ⟨0, mpiBroadcast exEnv bn 2, exMem⟩ 0
    (.take _ 2 2 (nextLen 5 2 2) [] ⟨by decide, by decide⟩ rfl rfl) rfl)
  refine ⟨bb, bn, w2, _, _, _, hr, t, ?_, rfl, rfl⟩
  show Prog.after c _ = .hang
  rw [FOp.killed]
  rfl

/-- The run without failures, to the end: the hypotheses of the theorem about success are met. -/
example : ∃ (bb bn : Block) (w2 : World) (es : List CopyEvent) (s : FilesConf),
    CopyReady exEnv exKind exCopyA (Content.fresh [3, 2]) bb (mpiBroadcast exEnv bn) w2.fs.node 3 ∧
    KFilesRun (copyRangeP exEnv bb 500) faultless 3 5 (filesStart 2 (mpiBroadcast exEnv bn) (fun _ => exMem) w2.fs.node) es s ∧
    AllLeft 3 s.queue ∧ failedRanges es = [] := by
  obtain ⟨bb, bn, w2, hr⟩ := exKill_ready 3
  obtain ⟨es, s, t, hst⟩ := C52_files_ends (buf := 500) (chunk := 2) (mem := fun _ => exMem) hr (by decide) (by decide) [] _ (.nil _)
  obtain ⟨_, k2, k3⟩ := jobsRun hr.jobs (by decide) (by decide) es s t
  have := jobs_files hr.jobs (by decide) (by decide) (hr.may (by decide)) t
  rw [exSampleA_size] at this
  exact ⟨bb, bn, w2, _, s, hr, this, (k3 hst).1, k2⟩

example : ∃ (bb bn : Block) (w2 : World) (es : List CopyEvent) (s : FilesConf),
    SampleReady exEnv exKind exCopyA (Content.fresh [1, 2]) bb (mpiBroadcast exEnv bn) w2.fs.node 3 (exRng 3) false exDraw 100000000 500 ∧
    KFilesRun (sampleJob exEnv bb exDraw 100000000 500 (sampleWork (exRng 3) false 5)) faultless 3 (sampleWork (exRng 3) false 5).length
      (filesStart 1 (mpiBroadcast exEnv bn) (fun _ => exMem) w2.fs.node) es s ∧ AllLeft 3 s.queue ∧ failedRanges es = [] := by
  obtain ⟨bb, bn, w2, _, _, hr⟩ := exSampleFiles_ready 3
  obtain ⟨es, s, t, hst⟩ := C64_files_ends (mem := fun _ => exMem) hr (by decide) [] _ (.nil _)
  obtain ⟨_, k2, k3⟩ := jobsRun (hr.jobs (by decide)) (by decide) (by decide) es s t
  have := jobs_files (hr.jobs (by decide)) (by decide) (by decide) (hr.may (by decide)) t
  rw [exSampleA_size] at this
  exact ⟨bb, bn, w2, _, s, hr, this, (k3 hst).1, k2⟩

end Verif
