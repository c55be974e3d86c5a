import Verif.Proof.SampleFiles
import Verif.Proof.ReadFail
import Verif.Props.CopyFiles
/-!
# C64: parallel sampling, with the file operations of all processes interleaved
-/

set_option autoImplicit false

namespace Verif

open Spec

variable {env : Env} {K : Kind} {A B : Content} {bb : Block} {H : Nat → Block} {mem : Nat → Mem} {nd : Nodes} {n : Nat} {g : Rng} {all : Bool}
  {draw : Nat → Nat → Nat → Nat} {buf abuf : Int}

/-- The processes are ready to sample: the source `bb` has the content `A` with all rows written, every process has a handle of the new
block, which has the size that `filesize` computes and is somewhere else. Nothing was written to it yet. No chunk is asked for more
rows than it has. The two buffers of a process do not overlap. -/
structure Spec.SampleReady (env : Env) (K : Kind) (A B : Content) (bb : Block) (H : Nat → Block) (nd : Nodes) (n : Nat) (g : Rng) (all : Bool)
    (draw : Nat → Nat → Nat → Nat) (buf abuf : Int) : Prop where
  src : Holds env K bb ⟨nd, []⟩ A
  full : A.full
  size : B.size = sampleSize g all A.size
  dst : ∀ r, r < n → Holds env K (H r) ⟨nd, []⟩ B
  shape : ∀ r, r < n → SameShape (H 0) (H r)
  sums : ∀ r, r < n → ∀ f, (H r).fchecksum.getD f 0 = 0
  apart : Apart bb.basename (H 0).basename
  fair : ∀ seed, FairDraw (draw seed)
  few : ∀ wk ∈ sampleWork g all A.size, wk.nsel ≤ wk.chunksize
  bufs : buf + ((sampleChunkRows * (K.nm * K.w) : Nat) : Int) ≤ abuf ∨ abuf + ((sampleChunkRows * (K.nm * K.w) : Nat) : Int) ≤ buf

theorem Spec.SampleReady.side (h : SampleReady env K A B bb H nd n g all draw buf abuf) :
    SampleSide K A bb (H 0) B draw buf abuf (sampleWork g all A.size) :=
  ⟨h.full, h.apart, h.fair, by rw [h.size]; exact sampleWork_from g all A.size, h.few, h.bufs⟩

/-- Sampling is work that the queue gives out. -/
theorem Spec.SampleReady.jobs (h : SampleReady env K A B bb H nd n g all draw buf abuf) (hn : 0 < n) :
    JobsReady env K A (A.sampled draw B (sampleWork g all A.size)) B bb H nd n (sampleWork g all A.size).length 1 (2 * A.size + 2 * B.size)
      (sampleJob env bb draw buf abuf (sampleWork g all A.size)) (destOf (sampleWork g all A.size)) (costOf (sampleWork g all A.size)) where
  src := h.src
  dst := h.dst
  shape := h.shape
  sums := h.sums
  apart := h.apart
  jobs := by
    intro i k hk _ hi
    have hlt : i < (sampleWork g all A.size).length := by omega
    unfold destOf costOf
    rw [List.getElem?_eq_getElem hlt]
    exact sample_job h.side h.src (List.getElem?_eq_getElem hlt)
  sep := by
    intro i k i' k' hk _ hi hk' _ hi' hd
    have hp := List.pairwise_iff_getElem.mp h.side.work.apart
    unfold destOf
    rw [List.getElem?_eq_getElem (by dsimp only; omega), List.getElem?_eq_getElem (by dsimp only; omega)]
    rcases hd with hd | hd
    · exact hp i i' (by omega) (by omega) (by omega)
    · exact (hp i' i (by omega) (by omega) (by omega)).symm
  costs := by
    intro l hl
    rw [ones_total _ hl]
    have h1 : sumTo (sampleWork g all A.size).length (fun i => costOf (sampleWork g all A.size) (i, 1)) = 2 * A.size + 2 * B.size := by
      have e1 := sumTo_list (fun wk : Work => 2 * wk.chunksize + 2 * wk.nsel) (sampleWork g all A.size)
      refine Eq.trans (sumTo_congr fun i hi => ?_) (e1.trans ?_)
      · unfold costOf
        rw [List.getElem?_eq_getElem hi]
        rfl
      obtain ⟨e2, e3⟩ := h.side.work.lengths
      have e4 : ∀ ws : List Work, (ws.map fun wk => 2 * wk.chunksize + 2 * wk.nsel).sum =
          2 * (ws.map fun wk => wk.chunksize).sum + 2 * (ws.map fun wk => wk.nsel).sum := by
        intro ws
        induction ws with
        | nil => rfl
        | cons w ws ih => simp only [List.map_cons, List.sum_cons, ih]; omega
      rw [e4]
      omega
    rw [← h1]
    have key : ∀ k, sumTo k (fun i => timesIn i l * costOf (sampleWork g all A.size) (i, 1)) ≤
        sumTo k (fun i => costOf (sampleWork g all A.size) (i, 1)) := by
      intro k
      induction k with
      | zero => exact Nat.le_refl _
      | succ k ih =>
        rw [sumTo_succ, sumTo_succ]
        have := Nat.mul_le_mul_right (costOf (sampleWork g all A.size) (k, 1)) (hl.once k)
        omega
    exact key _
  cover := by
    intro l hl hc row hrow
    rw [timesIn_map, ones_total _ hl]
    have h1 : sumTo (sampleWork g all A.size).length (fun i => timesIn i l *
        (if (destOf (sampleWork g all A.size) (i, 1)).1 ≤ row ∧ row < (destOf (sampleWork g all A.size) (i, 1)).1 + (destOf (sampleWork g all A.size) (i, 1)).2
          then 1 else 0)) = sumTo (sampleWork g all A.size).length (fun i => ((sampleWork g all A.size)[i]?.map
            (fun wk : Work => if wk.offsetnew ≤ row ∧ row < wk.offsetnew + wk.nsel then 1 else 0)).getD 0) := by
      refine sumTo_congr fun i hi => ?_
      rw [hc i hi, Nat.one_mul]
      unfold destOf
      dsimp only
      rw [List.getElem?_eq_getElem hi]
      rfl
    rw [h1, sumTo_list (fun wk : Work => if wk.offsetnew ≤ row ∧ row < wk.offsetnew + wk.nsel then 1 else 0), h.side.work.once,
      if_pos ⟨Nat.zero_le _, hrow⟩]
  beyond := by
    intro row hrow
    unfold Content.sampled
    rw [worked_other]
    · cases hb : B.rows row with
      | none => rfl
      | some bytes =>
        have := ((h.dst 0 hn).rows _ _ hb).1
        omega
    · intro wk hw
      have := h.side.work.bounds.2.2 wk hw
      omega

/-- C64 with the files. `n` processes, at least two of them, take a sample of a block. However their messages and their file operations
are interleaved:

* there is a bound on the number of steps, and no piece of work fails;
* when nobody can go on, all processes have left their functions; all handles of the new block see the same rows `T`: there are as many
  as the block was made for, they are different rows of the source, in the order that they have there, and which ones depends only on
  the random numbers; the source is as it was;
* when they then close the new block together, this succeeds, the stored block has these rows, and it has the right checksums. -/
theorem C64_files_partial (hr : SampleReady env K A B bb H nd n g all draw buf abuf) (hn : 2 ≤ n) :
    ∃ T sel, Choice sel B.size A.size ∧ (List.range B.size).map T = sel.map A.rows ∧
    ∀ (es : List FilesEvent) (s : FilesConf), FilesRun (sampleJob env bb draw buf abuf (sampleWork g all A.size)) faultless n
        (sampleWork g all A.size).length (filesStart 1 H mem nd) es s →
    es.length ≤ 2 * A.size + 2 * B.size + 4 * (sampleWork g all A.size).length + 3 * n + 4 ∧ failedRanges (queueEvents es) = [] ∧
    (FilesStuck (sampleJob env bb draw buf abuf (sampleWork g all A.size)) faultless n (sampleWork g all A.size).length s →
      AllLeft n s.queue ∧
      ∃ X : Nat → Worker, (∀ r, r < n → (s.procs.thr r).prog = .ret (X r)) ∧ Holds env K bb ⟨s.procs.nodes, []⟩ A ∧
        (∀ r, r < n → Holds env K (X r).bb ⟨s.procs.nodes, []⟩ { B with rows := T }) ∧
        ∀ w : World, w.fs.node = s.procs.nodes → w.faults = noFaults →
          ∃ w', mpiClose env n (fun r => (X r).bb) w = .ok 0 w' ∧ SameOutside (H 0).basename w.fs w'.fs ∧ Holds env K bb w'.fs A ∧
            OnDisk env K w'.fs (H 0).basename (Content.closed { B with rows := T }) ∧
            ∃ b w2, blockOpen env (H 0).basename w' = .ok (0, some b) w2 ∧
              ∀ f, f < (H 0).nfile → b.fchecksum.getD f 0 = rowsSum (H 0) 0 (fun i => (T i).getD []) f B.size % 4294967296) := by
  obtain ⟨sel, c1, c2⟩ := sample_rows A B g all draw hr.fair (sampleWork g all A.size) hr.size (List.Perm.refl _) hr.few
  refine ⟨(A.sampled draw B (sampleWork g all A.size)).rows, sel, c1, c2, fun es s t => ?_⟩
  obtain ⟨k1, k2, k3⟩ := jobsRun (hr.jobs (by omega)) hn (by omega) es s t
  exact ⟨by omega, k2, k3⟩

/-- Every run can be continued until nobody can go on. -/
theorem C64_files_ends (hr : SampleReady env K A B bb H nd n g all draw buf abuf) (hn : 2 ≤ n) (es : List FilesEvent) (s : FilesConf)
    (t : FilesRun (sampleJob env bb draw buf abuf (sampleWork g all A.size)) faultless n
        (sampleWork g all A.size).length (filesStart 1 H mem nd) es s) :
    ∃ es' s', FilesRun (sampleJob env bb draw buf abuf (sampleWork g all A.size)) faultless n
        (sampleWork g all A.size).length (filesStart 1 H mem nd) es' s' ∧
      FilesStuck (sampleJob env bb draw buf abuf (sampleWork g all A.size)) faultless n (sampleWork g all A.size).length s' :=
  jobsRun_ends (hr.jobs (by omega)) hn (by omega) es s t

/-- The processes of the example are ready. -/
theorem exSampleFiles_ready (n : Nat) : ∃ (bb bn : Block) (w2 : World), (mpiBroadcast exEnv bn 0).basename = b!"d/y" ∧
    Holds exEnv exKind bb w2.fs exCopyA ∧ SampleReady exEnv exKind exCopyA (Content.fresh [1, 2]) bb (mpiBroadcast exEnv bn) w2.fs.node n (exRng 3)
      false exDraw 100000000 500 := by
  obtain ⟨_, bb, _, bn, w2, _, _, _, hb, hbn, nf, h1, h2, hck⟩ := exNew_ready [1, 2] (Or.inl rfl)
  have hbn0 : (mpiBroadcast exEnv bn 0).basename = b!"d/y" := hbn
  have hname : (0 : Byte) ∉ bn.basename := by rw [hbn]; decide
  refine ⟨bb, bn, w2, hbn0, h1, h1.node rfl, fun r hr => exCopyA_full r (exSampleA_size ▸ hr), by rw [exSampleA_size, exSample_size]; decide,
    fun r _ => ((h2.node (fs' := ⟨w2.fs.node, []⟩) rfl).broadcast hname r).1, fun r _ => (h2.broadcast hname r).2.1, fun r _ f => ?_,
    by rw [hb, hbn0]; exact exSample_apart, exDraw_fair, ?_, by decide⟩
  · rw [(h2.broadcast hname r).2.2]; exact hck f
  · rw [exSampleA_size, exSample_work]; intro wk hwk; simp at hwk; subst hwk; decide

/-- The example: three of five rows, to a new block of two files, by three processes. -/
example : ∃ (bb bn : Block) (w2 : World), Holds exEnv exKind bb w2.fs exCopyA ∧
    ∃ T sel, Choice sel 3 5 ∧ (List.range 3).map T = sel.map exCopyA.rows ∧
    ∀ es s, FilesRun (sampleJob exEnv bb exDraw 100000000 500 (sampleWork (exRng 3) false 5)) faultless 3 1
        (filesStart 1 (mpiBroadcast exEnv bn) (fun _ => exMem) w2.fs.node) es s →
      es.length ≤ 33 ∧ (FilesStuck (sampleJob exEnv bb exDraw 100000000 500 (sampleWork (exRng 3) false 5)) faultless 3 1 s →
        AllLeft 3 s.queue ∧ ∃ X : Nat → Worker, (∀ r, r < 3 → (s.procs.thr r).prog = .ret (X r)) ∧
          ∃ w', mpiClose exEnv 3 (fun r => (X r).bb) ⟨⟨s.procs.nodes, []⟩, noFaults, 0⟩ = .ok 0 w' ∧
            OnDisk exEnv exKind w'.fs b!"d/y" (Content.closed { Content.fresh [1, 2] with rows := T })) := by
  obtain ⟨bb, bn, w2, hbn0, h1, hready⟩ := exSampleFiles_ready 3
  refine ⟨bb, bn, w2, h1, ?_⟩
  obtain ⟨T, sel, c1, c2, k⟩ := C64_files_partial (mem := fun _ => exMem) hready (by decide)
  have hsz : (Content.fresh [1, 2]).size = 3 := by decide +kernel
  rw [exSampleA_size, hsz] at c1
  rw [hsz] at c2
  refine ⟨T, sel, c1, c2, fun es s t => ?_⟩
  rw [exSampleA_size, hsz] at k
  have hl : (sampleWork (exRng 3) false 5).length = 1 := by rw [exSample_work]; rfl
  rw [hl] at k
  obtain ⟨k1, _, k3⟩ := k es s t
  refine ⟨by omega, fun hst => ?_⟩
  obtain ⟨g1, X, g2, _, _, g5⟩ := k3 hst
  obtain ⟨w', e, _, _, d, _⟩ := g5 ⟨⟨s.procs.nodes, []⟩, noFaults, 0⟩ rfl rfl
  rw [hbn0] at d
  exact ⟨g1, X, g2, w', e, d⟩

/-! ### A failure is not reported -/

theorem FilesRun.files {job : Nat → Nat → Worker → Prog Worker} {F : Nat → Nat → Fault} {size : Nat} {s0 s : FilesConf} {es : List FilesEvent}
    (t : FilesRun job F n size s0 es s) {es' : List Event} {p : Conf Worker} (h : Run F n s.procs es' p) :
    ∃ es2, FilesRun job F n size s0 es2 { s with procs := p } ∧ queueEvents es2 = queueEvents es := by
  generalize hq : s.procs = q at h
  induction h generalizing s es with
  | nil q => subst hq; exact ⟨es, t, rfl⟩
  | @cons q q1 p e es' hs _ ih =>
    subst hq
    obtain ⟨es2, k1, k2⟩ := ih (t.snoc (.file s e q1 hs)) rfl
    exact ⟨es2, k1, by rw [k2, queueEvents_append]; simp [queueEvents]⟩

/-- Two processes and one piece of work, which fails: both leave their functions as if nothing had happened. -/
theorem jobs_fail {job : Nat → Nat → Worker → Prog Worker} {F : Nat → Nat → Fault} {size : Nat} {y : Worker} {w' : World} (hsz : 0 < size)
    (h : (job 0 size ⟨0, H 1, mem 1⟩).interp ⟨⟨nd, []⟩, F 1, 0⟩ = .ok y w') (hy : y.rc ≠ 0)
    {E : FOp → Prop} {c : Nat} (hc : (job 0 size ⟨0, H 1, mem 1⟩).Sat E (fun _ => True) c) :
    ∃ es s, FilesRun job F 2 size (filesStart size H mem nd) es s ∧ AllLeft 2 s.queue ∧ copiedRanges (queueEvents es) = [] ∧
      failedRanges (queueEvents es) = [(0, size)] ∧ s.procs.nodes = w'.fs.node ∧
      (s.procs.thr 0).prog = .ret ⟨0, H 0, mem 0⟩ ∧ (s.procs.thr 1).prog = .ret y := by
  have hnl : nextLen size 0 size = size := by unfold nextLen; rw [if_neg (by omega)]
  have t := FilesRun.nil (job := job) (F := F) (n := 2) (size := size) (filesStart size H mem nd)
  have t := t.snoc (.talk _ _ _ (.start _ 1 ⟨by decide, by decide⟩ rfl) rfl)
  have t := t.snoc (.talk _ _ _ (.hand _ 0 size 1 [] rfl hsz ⟨by decide, by decide⟩ rfl) rfl)
  have t := t.snoc (.take _ 1 0 (nextLen size 0 size) _ ⟨0, H 1, mem 1⟩ 0 (.take _ 1 0 (nextLen size 0 size) [] ⟨by decide, by decide⟩ rfl rfl) rfl)
  rw [hnl] at t
  obtain ⟨es1, hrun, _⟩ := run_sat (F := F) (n := 2) (r := 1) (by decide) (k := fun x => .ret x) (p := job 0 size ⟨0, H 1, mem 1⟩)
    (s := (filesStart size H mem nd).procs.put 1 ⟨job 0 size ⟨0, H 1, mem 1⟩, 0⟩ nd) h hc (by
      rw [Prog.bind_ret]; rfl) rfl rfl
  obtain ⟨es2, t, hq⟩ := t.files hrun
  have t := t.snoc (.failed _ 1 0 size _ y w'.clock (.failed _ 1 0 size ⟨by decide, by decide⟩ rfl) rfl hy)
  have t := t.snoc (.talk _ _ _ (.allOut _ size size (by simp) (by omega)) rfl)
  have t := t.snoc (.talk _ _ _ (.dismiss _ 1 rfl (by decide)) rfl)
  have t := t.snoc (.talk _ _ _ (.leave _ 2 rfl (by decide)) rfl)
  have t := t.snoc (.talk _ _ _ (.quit _ 1 [] ⟨by decide, by decide⟩ rfl rfl) rfl)
  refine ⟨_, _, t, ⟨rfl, fun r h1 h2 => ?_⟩, ?_, ?_, rfl, rfl, rfl⟩
  · have : r = 1 := by omega
    subst this
    rfl
  · simp [queueEvents_append, copiedRanges_append, hq]
    simp [queueEvents, copiedRanges]
  · simp [queueEvents_append, failedRanges_append, hq]
    simp [queueEvents, failedRanges]

/-- Nothing was written, and the processes close the new block: this succeeds. -/
theorem untouched_close (hd : ∀ r, r < n → Holds env K (H r) ⟨nd, []⟩ B) (hs : ∀ r, r < n → ∀ f, (H r).fchecksum.getD f 0 = 0) (h0 : 0 < n)
    {w : World} (hw : w.fs.node = nd) (hf : w.faults = noFaults) :
    ∃ w', mpiClose env n H w = .ok 0 w' := by
  have hd0 : Holds env K (H 0) w.fs B := (hd 0 h0).node hw
  obtain ⟨w', e, _⟩ := handles_close (Y := H) h0 hf hd0 (fun _ => reducedRoot_zero h0 hd0 hs)
  exact ⟨w', e⟩

/-- The rest of C52 is false: a failure is not reported. Two processes copy a block that has rows, in one piece. If the worker cannot open
the file with the first row, it tells so to the process that gives out the work; nothing is copied, all files are as they were, and
both processes leave their functions, which return nothing. Closing the new block succeeds and the program ends with status 0. -/
theorem C52_failure_status (hr : CopyReady env K A B bb H nd 2) (h0 : 0 < A.size) :
    ∃ F es s, FilesRun (copyRangeP env bb buf) F 2 A.size (filesStart A.size H mem nd) es s ∧ AllLeft 2 s.queue ∧
      copiedRanges (queueEvents es) = [] ∧ failedRanges (queueEvents es) = [(0, A.size)] ∧ s.procs.nodes = nd ∧
      ∃ X : Nat → Worker, (∀ r, r < 2 → (s.procs.thr r).prog = .ret (X r)) ∧
        ∀ w : World, w.fs.node = s.procs.nodes → w.faults = noFaults → ∃ w', mpiClose env 2 (fun r => (X r).bb) w = .ok 0 w' := by
  have hbs := hr.src.size
  have hsm := hr.small
  have hd1 := hr.dst 1 (by decide)
  have hread := readSimple_noFile hr.src.ok 0 A.size buf (mem 1) ⟨⟨nd, []⟩, fun _ => .fail, 0⟩ h0 (by omega) rfl
  obtain ⟨es, s, t, h1, h2, h3, h4, h5, h6⟩ := jobs_fail (job := copyRangeP env bb buf) (F := fun _ _ => .fail) (size := A.size) (mem := mem)
    (H := H) (nd := nd) (y := ⟨-1, H 1, mem 1⟩) (w' := ⟨⟨nd, []⟩, fun _ => .fail, 1⟩) h0 (by
      unfold copyRangeP
      refine (congrFun (Prog.interp_bind _ _) _).trans ?_
      rw [interp_readSimple, i64_of_range (by omega) (by omega)]
      unfold M.bind
      rw [hread]
      rfl) (show (-1 : Int) ≠ 0 by decide)
    (copyRangeP_sat (bd := H 0) hr.src.ok hd1.ok (hr.shape 1 (by decide)) (by rw [hd1.size, hr.size, hbs]) h0 (by omega) buf ⟨0, H 1, mem 1⟩ rfl)
  refine ⟨_, es, s, t, h1, h2, h3, h4, fun r => if r = 0 then ⟨0, H 0, mem 0⟩ else ⟨-1, H r, mem r⟩, fun r hlt => ?_, fun w hw hf => ?_⟩
  · rcases (by omega : r = 0 ∨ r = 1) with h | h <;> subst h
    · exact h5
    · exact h6
  · have hX : (fun r => (if r = 0 then (⟨0, H 0, mem 0⟩ : Worker) else ⟨-1, H r, mem r⟩).bb) = H := by
      funext r
      by_cases h : r = 0
      · subst h; rfl
      · rw [if_neg h]
    rw [hX]
    exact untouched_close hr.dst hr.sums (by decide) (hw.trans h4) hf

/-- The same for the sample. -/
theorem C64_failure_status (hr : SampleReady env K A B bb H nd 2 g all draw buf abuf) (h1 : (sampleWork g all A.size).length = 1) :
    ∃ F es s, FilesRun (sampleJob env bb draw buf abuf (sampleWork g all A.size)) F 2 1 (filesStart 1 H mem nd) es s ∧ AllLeft 2 s.queue ∧
      copiedRanges (queueEvents es) = [] ∧ failedRanges (queueEvents es) = [(0, 1)] ∧ s.procs.nodes = nd ∧
      ∃ X : Nat → Worker, (∀ r, r < 2 → (s.procs.thr r).prog = .ret (X r)) ∧
        ∀ w : World, w.fs.node = s.procs.nodes → w.faults = noFaults → ∃ w', mpiClose env 2 (fun r => (X r).bb) w = .ok 0 w' := by
  have hbs := hr.src.size
  obtain ⟨wk, hwk⟩ : ∃ wk, sampleWork g all A.size = [wk] := by
    match hl : sampleWork g all A.size, h1 with
    | [wk], _ => exact ⟨wk, rfl⟩
  have hmem : wk ∈ sampleWork g all A.size := by rw [hwk]; exact List.mem_singleton.mpr rfl
  obtain ⟨b0, b1, b2, _, b3, _⟩ := hr.side.work.bounds.2.2 wk hmem
  have b4 := hr.few wk hmem
  have hd1 := hr.dst 1 (by decide)
  have hls := hr.src.ok.layout.size
  have hbytes : wk.nsel * K.nm * K.w < 9223372036854775808 := by
    have q1 := hr.src.ok.offs
    have q3 : wk.nsel * (K.w * K.nm) ≤ bb.fsize.sum * (K.w * K.nm) := Nat.mul_le_mul_right _ (by omega)
    rw [Nat.mul_assoc, Nat.mul_comm K.nm]
    omega
  have hread := readSimple_noFile hr.src.ok wk.offset wk.chunksize abuf (mem 1) ⟨⟨nd, []⟩, fun _ => .fail, 0⟩ (by omega) (by omega) rfl
  have hjob : ∀ x, sampleJob env bb draw buf abuf (sampleWork g all A.size) 0 1 x = sampleP env bb draw buf abuf wk x := by
    intro x
    unfold sampleJob
    rw [hwk]
    rfl
  obtain ⟨es, s, t, h1, h2, h3, h4, h5, h6⟩ := jobs_fail (job := sampleJob env bb draw buf abuf (sampleWork g all A.size)) (F := fun _ _ => .fail)
    (size := 1) (mem := mem) (H := H) (nd := nd) (y := ⟨-1, H 1, mem 1⟩) (w' := ⟨⟨nd, []⟩, fun _ => .fail, 1⟩) (by decide) (by
      rw [hjob]
      unfold sampleP
      refine (congrFun (Prog.interp_bind _ _) _).trans ?_
      rw [Prog.interp_lift, hr.src.ok.freshInit bb.dtype wk.nsel K.w buf hr.src.ok.item hr.src.ok.item0 hbytes]
      simp only [M.lift, M.bind, M.pure]
      refine (congrFun (Prog.interp_bind _ _) _).trans ?_
      rw [interp_readSimple]
      unfold M.bind
      rw [hread]
      rfl) (show (-1 : Int) ≠ 0 by decide)
    (by rw [hjob]; exact sampleP_sat hr.side hmem ⟨0, H 1, mem 1⟩ hr.src.ok hbs hd1.ok hd1.size (hr.shape 1 (by decide)))
  refine ⟨_, es, s, t, h1, h2, h3, h4, fun r => if r = 0 then ⟨0, H 0, mem 0⟩ else ⟨-1, H r, mem r⟩, fun r hlt => ?_, fun w hw hf => ?_⟩
  · rcases (by omega : r = 0 ∨ r = 1) with h | h <;> subst h
    · exact h5
    · exact h6
  · have hX : (fun r => (if r = 0 then (⟨0, H 0, mem 0⟩ : Worker) else ⟨-1, H r, mem r⟩).bb) = H := by
      funext r
      by_cases h : r = 0
      · subst h; rfl
      · rw [if_neg h]
    rw [hX]
    exact untouched_close hr.dst hr.sums (by decide) (hw.trans h4) hf

/-- The example, with two processes. -/
example : ∃ (bb bn : Block) (w2 : World) (F : Nat → Nat → Fault) (es : List FilesEvent) (s : FilesConf), Holds exEnv exKind bb w2.fs exCopyA ∧
    FilesRun (sampleJob exEnv bb exDraw 100000000 500 (sampleWork (exRng 3) false 5)) F 2 1
      (filesStart 1 (mpiBroadcast exEnv bn) (fun _ => exMem) w2.fs.node) es s ∧ AllLeft 2 s.queue ∧ copiedRanges (queueEvents es) = [] := by
  obtain ⟨bb, bn, w2, _, h1, hready⟩ := exSampleFiles_ready 2
  obtain ⟨F, es, s, t, k1, k2, _⟩ := C64_failure_status (mem := fun _ => exMem) hready (by rw [exSampleA_size, exSample_work]; rfl)
  rw [exSampleA_size] at t
  exact ⟨bb, bn, w2, F, es, s, h1, t, k1, k2⟩

example : ∃ (bb bn : Block) (w2 : World) (F : Nat → Nat → Fault) (es : List FilesEvent) (s : FilesConf), Holds exEnv exKind bb w2.fs exCopyA ∧
    FilesRun (copyRangeP exEnv bb 500) F 2 5 (filesStart 5 (mpiBroadcast exEnv bn) (fun _ => exMem) w2.fs.node) es s ∧ AllLeft 2 s.queue ∧
    copiedRanges (queueEvents es) = [] := by
  obtain ⟨_, bb, _, bn, w2, _, _, _, hb, hbn, nf, h1, h2, hck⟩ := exNew_ready [3, 2] (Or.inr rfl)
  have hready : CopyReady exEnv exKind exCopyA (Content.fresh [3, 2]) bb (mpiBroadcast exEnv bn) w2.fs.node 2 :=
    .of_broadcast (h1.node rfl) (fun r hr => exCopyA_full r (exSampleA_size ▸ hr)) (by decide +kernel) (h2.node rfl) (by rw [hbn]; decide) hck
      (by rw [hb, hbn]; exact exSample_apart) (by rw [exSampleA_size]; decide)
  obtain ⟨F, es, s, t, k1, k2, _⟩ := C52_failure_status (mem := fun _ => exMem) (buf := 500) hready (by rw [exSampleA_size]; decide)
  rw [exSampleA_size] at t
  exact ⟨bb, bn, w2, F, es, s, h1, t, k1, k2⟩

end Verif
