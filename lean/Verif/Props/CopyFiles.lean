import Verif.Proof.Jobs
import Verif.Props.Pack
import Verif.Props.CopyMpi
import Verif.Props.Sample
/-!
# C52: parallel copy, with the file operations of all processes interleaved
-/

set_option autoImplicit false

namespace Verif

open Spec

variable {env : Env} {K : Kind} {A B : Content} {bb : Block} {H : Nat → Block} {mem : Nat → Mem} {nd : Nodes} {n chunk : Nat} {buf : Int}

/-- The processes are ready to copy: the source `bb` has the content `A` with all rows written, every process has a handle of
the new block, which has the same size and is somewhere else. Nothing was written to it yet. -/
structure Spec.CopyReady (env : Env) (K : Kind) (A B : Content) (bb : Block) (H : Nat → Block) (nd : Nodes) (n : Nat) : Prop where
  src : Holds env K bb ⟨nd, []⟩ A
  full : A.full
  size : B.size = A.size
  dst : ∀ r, r < n → Holds env K (H r) ⟨nd, []⟩ B
  shape : ∀ r, r < n → SameShape (H 0) (H r)
  sums : ∀ r, r < n → ∀ f, (H r).fchecksum.getD f 0 = 0
  apart : Apart bb.basename (H 0).basename
  small : A.size + A.size < 9223372036854775808

theorem Spec.CopyReady.side (h : CopyReady env K A B bb H nd n) : CopySide env K A bb (H 0) B := ⟨h.full, h.size, h.apart, h.small⟩

/-- A handle that says the same. -/
theorem Spec.Holds.same {b b' : Block} {fs : FS} (h : Holds env K b fs A) (hs : SameHandle env.m b b') (hf : b'.foffset = b.foffset) :
    Holds env K b' fs A := by
  obtain ⟨s1, s2, s3, s4, s5⟩ := hs.shape
  obtain ⟨f1, f2⟩ := hs.files
  have hrow : ∀ r, row env.m fs b' r = row env.m fs b r := by
    intro r
    unfold row rowFile rowOff Spec.rowSize
    rw [s1, s2, s3, f1]
  refine ⟨⟨⟨by rw [f1, s5]; exact h.ok.layout.nfile, by rw [f2, s5]; exact h.ok.layout.nck, by rw [hf, s5, f1]; exact h.ok.layout.foff,
    by rw [s4, f1]; exact h.ok.layout.size, by rw [f1]; exact h.ok.layout.small, by rw [f2]; exact h.ok.layout.ck32⟩,
    by rw [s1]; exact h.ok.item, h.ok.item0, by rw [s2]; exact h.ok.memb, h.ok.memb0, h.ok.felInt, h.ok.buf, h.ok.bufMax,
    by rw [f1]; exact h.ok.offs⟩, by rw [s1]; exact h.kind, by rw [s4]; exact h.size, by rw [s5]; exact h.nfile,
    ⟨h.savable.fmt, ⟨by rw [s1]; exact h.savable.header.dt, by rw [s2]; exact h.savable.header.nmemb0,
      by rw [s2]; exact h.savable.header.nmembMax, by rw [f1, s5]; exact h.savable.header.nfile, by rw [f2, s5]; exact h.savable.header.nck,
      by rw [s5]; exact h.savable.header.nfileMax, by rw [f1]; exact h.savable.header.sizes, by rw [f2]; exact h.savable.header.cks⟩,
      by rw [hf, f1]; exact h.savable.offsets, by rw [s4, hf]; exact h.savable.size, hs.well, by rw [hs.attrs]; exact h.savable.storable,
      by rw [s3]; exact h.savable.base, by rw [s3]; exact h.savable.notMeta⟩,
    by rw [hs.attrs]; exact h.attrs, by rw [hs.dirty.2]; exact h.pending, h.tame, by rw [s3]; exact h.saved, ?_, by rw [s3]; exact h.dir,
    by rw [s3]; exact h.noOld, by rw [s3]; exact h.noDirs, ?_, ?_⟩
  · intro hd
    have := h.header (by rw [← hs.dirty.1]; exact hd)
    unfold HeaderSays at this ⊢
    rw [s1, s2, s3, s5, f1, f2]
    exact this
  · unfold DataFiles
    rw [s5, s3]
    exact h.data
  · intro r bytes hr
    obtain ⟨h1, h2, h3⟩ := h.rows r bytes hr
    refine ⟨h1, (hrow r).trans h2, ?_⟩
    unfold Stored at h3 ⊢
    rw [hrow, h3]
    unfold Spec.rowSize
    rw [s1, s2]

/-- The handles of all processes after a broadcast. -/
theorem Spec.Holds.broadcast {b : Block} {fs : FS} (h : Holds env K b fs A) (hname : (0 : Byte) ∉ b.basename) (r : Nat) :
    Holds env K (mpiBroadcast env b r) fs A ∧ SameShape b (mpiBroadcast env b r) ∧ (mpiBroadcast env b r).fchecksum = b.fchecksum := by
  unfold mpiBroadcast
  by_cases h0 : r = 0
  · rw [if_pos h0]
    exact ⟨h, .rfl' _, rfl⟩
  · rw [if_neg h0]
    obtain ⟨h1, h2⟩ := C34_pack_unpack env env b rfl h.ok.layout hname h.savable.base h.savable.attrs
    obtain ⟨s1, s2, s3, s4, s5⟩ := h1.shape
    exact ⟨h.same h1 h2, ⟨s1, s2, s3, s4, h1.files.1, h2, s5⟩, h1.files.2⟩

/-- Copying is work that the queue gives out. -/
theorem Spec.CopyReady.jobs (h : CopyReady env K A B bb H nd n) :
    JobsReady env K A A B bb H nd n A.size chunk (4 * A.size) (copyRangeP env bb buf) id (fun x => 4 * x.2) where
  src := h.src
  dst := h.dst
  shape := h.shape
  sums := h.sums
  apart := h.apart
  jobs := fun o k hk _ ho => copyRange_job h.side h.src buf hk ho
  sep := fun o k o' k' _ _ _ _ _ _ hd => hd
  costs := fun l hl => by
    have h1 := rangesLen_le A.size l (fun x hx => (hl.each x hx).2.2) hl.once
    have h2 : (l.map fun x => 4 * x.2).sum = 4 * rangesLen l := by
      unfold rangesLen
      clear h1 hl
      induction l with
      | nil => rfl
      | cons x l ih => rw [List.map_cons, List.map_cons, List.sum_cons, List.sum_cons, ih]; omega
    omega
  cover := fun l _ hc row hrow => by
    rw [List.map_id]
    exact hc row (by rw [← h.size]; exact hrow)
  beyond := fun row hrow => by
    cases hh : A.rows row with
    | none => rfl
    | some bytes =>
      have := (h.src.rows _ _ hh).1
      have := h.size
      omega

/-- C52 with the files. `n` processes, at least two of them, copy a block whose rows are all written, at most `chunk` rows at a
time. However their messages and their file operations are interleaved:

* there is a bound on the number of steps, and no range fails;
* when nobody can go on, all processes have left their functions; all handles of the new block see the rows of the source, and the
  source is as it was;
* when they then close the new block together, this succeeds, the stored block has the rows of the source, and it has the right
  checksums: those of somebody who opens it are the sums of the bytes of the rows of each file. -/
theorem C52_files_partial (hr : CopyReady env K A B bb H nd n) (hn : 2 ≤ n) (hc : 0 < chunk)
    (es : List FilesEvent) (s : FilesConf) (t : FilesRun (copyRangeP env bb buf) faultless n A.size (filesStart chunk H mem nd) es s) :
    es.length ≤ 8 * A.size + 3 * n + 4 ∧ failedRanges (queueEvents es) = [] ∧
    (FilesStuck (copyRangeP env bb buf) faultless n A.size s → AllLeft n s.queue ∧
      ∃ X : Nat → Worker, (∀ r, r < n → (s.procs.thr r).prog = .ret (X r)) ∧ Holds env K bb ⟨s.procs.nodes, []⟩ A ∧
        (∀ r, r < n → Holds env K (X r).bb ⟨s.procs.nodes, []⟩ { B with rows := A.rows }) ∧
        ∀ w : World, w.fs.node = s.procs.nodes → w.faults = noFaults →
          ∃ w', mpiClose env n (fun r => (X r).bb) w = .ok 0 w' ∧ SameOutside (H 0).basename w.fs w'.fs ∧ Holds env K bb w'.fs A ∧
            OnDisk env K w'.fs (H 0).basename (Content.closed { B with rows := A.rows }) ∧
            ∃ b w2, blockOpen env (H 0).basename w' = .ok (0, some b) w2 ∧
              ∀ f, f < (H 0).nfile →
                b.fchecksum.getD f 0 = rowsSum (H 0) 0 (fun i => (A.rows i).getD []) f A.size % 4294967296) := by
  obtain ⟨k1, k2, k3⟩ := jobsRun hr.jobs hn hc es s t
  refine ⟨by omega, k2, fun hst => ?_⟩
  obtain ⟨g1, X, g2, g3, g4, g5⟩ := k3 hst
  refine ⟨g1, X, g2, g3, g4, fun w hw hf => ?_⟩
  have := g5 w hw hf
  rw [← hr.size]
  exact this

/-- Every run can be continued until nobody can go on. -/
theorem C52_files_ends (hr : CopyReady env K A B bb H nd n) (hn : 2 ≤ n) (hc : 0 < chunk)
    (es : List FilesEvent) (s : FilesConf) (t : FilesRun (copyRangeP env bb buf) faultless n A.size (filesStart chunk H mem nd) es s) :
    ∃ es' s', FilesRun (copyRangeP env bb buf) faultless n A.size (filesStart chunk H mem nd) es' s' ∧
      FilesStuck (copyRangeP env bb buf) faultless n A.size s' := jobsRun_ends hr.jobs hn hc es s t

/-- Ready after the new block was made and broadcast. -/
theorem Spec.CopyReady.of_broadcast {bn : Block} (hs : Holds env K bb ⟨nd, []⟩ A) (hf : A.full) (hz : B.size = A.size)
    (hd : Holds env K bn ⟨nd, []⟩ B) (hname : (0 : Byte) ∉ bn.basename) (hck : ∀ f, bn.fchecksum.getD f 0 = 0)
    (ha : Apart bb.basename bn.basename) (hsm : A.size + A.size < 9223372036854775808) :
    CopyReady env K A B bb (mpiBroadcast env bn) nd n := by
  have h0 : mpiBroadcast env bn 0 = bn := rfl
  refine ⟨hs, hf, hz, fun r _ => (hd.broadcast hname r).1, fun r _ => ?_, fun r _ f => ?_, by rw [h0]; exact ha, hsm⟩
  · rw [h0]; exact (hd.broadcast hname r).2.1
  · rw [(hd.broadcast hname r).2.2]; exact hck f

/-- The example: five rows in three files are copied by three processes to a new block of two files, at most two rows at a time.
However it goes, the new block has the rows of the old one. -/
example : ∃ (bb bn : Block) (w2 : World), Holds exEnv exKind bb w2.fs exCopyA ∧
    ∀ es s, FilesRun (copyRangeP exEnv bb 500) faultless 3 5 (filesStart 2 (mpiBroadcast exEnv bn) (fun _ => exMem) w2.fs.node) es s →
      es.length ≤ 53 ∧ (FilesStuck (copyRangeP exEnv bb 500) faultless 3 5 s → AllLeft 3 s.queue ∧
        ∃ X : Nat → Worker, (∀ r, r < 3 → (s.procs.thr r).prog = .ret (X r)) ∧
          ∃ w', mpiClose exEnv 3 (fun r => (X r).bb) ⟨⟨s.procs.nodes, []⟩, noFaults, 0⟩ = .ok 0 w' ∧
            OnDisk exEnv exKind w'.fs b!"d/y" (Content.closed { Content.fresh [3, 2] with rows := exCopyA.rows })) := by
  obtain ⟨_, bb, _, bn, w2, _, _, _, hb, hbn, nf, h1, h2, hck⟩ := exNew_ready [3, 2] (Or.inr rfl)
  have hbn0 : (mpiBroadcast exEnv bn 0).basename = b!"d/y" := hbn
  have hready : CopyReady exEnv exKind exCopyA (Content.fresh [3, 2]) bb (mpiBroadcast exEnv bn) w2.fs.node 3 :=
    .of_broadcast (h1.node rfl) (fun r hr => exCopyA_full r (exSampleA_size ▸ hr)) (by decide +kernel) (h2.node rfl) (by rw [hbn]; decide) hck
      (by rw [hb, hbn]; exact exSample_apart) (by rw [exSampleA_size]; decide)
  refine ⟨bb, bn, w2, h1, fun es s t => ?_⟩
  rw [← exSampleA_size] at t ⊢
  obtain ⟨k1, _, k3⟩ := C52_files_partial hready (by decide) (by decide) es s t
  rw [exSampleA_size] at k1
  refine ⟨by omega, fun hst => ?_⟩
  obtain ⟨g1, X, g2, _, _, g5⟩ := k3 hst
  obtain ⟨w', e, _, _, d, _⟩ := g5 ⟨⟨s.procs.nodes, []⟩, noFaults, 0⟩ rfl rfl
  rw [hbn0] at d
  exact ⟨g1, X, g2, w', e, d⟩

end Verif
