import Verif.Proof.LooseAlike
import Verif.Props.MpiBlock
import Verif.Props.Overrun
/-!
# C92: the collective functions when collective calls do not synchronise
-/

set_option autoImplicit false

namespace Verif

open Spec

theorem WriteEvent.within {m : Machine} {bb : Block} {n p conc : Nat} {rows : Nat → Nat} {P : SegPlan} (hP : PlanOk n rows conc P)
    {r : Nat} {op : FOp} {f : Fault} (h : WriteEvent m bb n p rows P (.file r op f)) : WriteIn m bb p (rowsBefore rows n) op := by
  obtain ⟨g, c, _, h0, hw⟩ := h
  have hs : P.seg n g c ≠ [] := by
    intro hs
    rw [segRows_empty hs] at h0
    simp at h0
  have := seg_end (P := P) (n := n) (rows := rows) (f := fun q => List.range (rows q)) (by simp) hs
  exact hw.sub (by omega) (by omega)

theorem readEvent_nodes {α : Type} {F : Nat → Nat → Fault} {N : Nat} {s s' : Conf α} {e : Event} (h : Step F N s e s')
    (he : ReadEvent e) : s'.nodes = s.nodes :=
  readEvents_nodes (.cons h (.nil _)) (fun x hx => by rw [List.mem_singleton.mp hx]; exact he)

/-- **C92**, for `big_block_mpi_write` without failures: C45 when processes may leave `MPI_Bcast`, `MPI_Gatherv` and
`MPI_Scatterv` as soon as they have what they need. -/
theorem C92_collective_write (env : Env) (bb : Block) (w nm n : Nat) (R : Nat → Rank) (p : Nat) (rows sw : Nat → Nat)
    (stored : Nat → Nat → List Byte) (fs : FS) (concurrency : Int) (threshold : Nat)
    (h : CollectiveWrite env bb w nm n R p rows sw stored) (hc : concurrency < 2147483648) (hd : DataFiles fs bb) :
    ∃ B, ∀ es t, LRun faultless n (startWrite env n concurrency threshold R fs).loose es t → es.length ≤ B ∧
      (t.Stuck faultless n →
        ∃ st : Nat → Rank,
          (∀ r, r < n → (t.thr r).prog = .ret (0, st r) ∧ WriteReturned env bb R sw p (rowsBefore rows n) r (st r)) ∧
          RowsWritten env.m bb fs t.nodes p (allRows n rows nm stored) ∧
          (∀ f, totalChecksum n st f % 4294967296 = (totalChecksum n R f +
            rowsSum bb p (fun i => (allRows n rows nm stored).getD i []) f (rowsBefore rows n)) % 4294967296) ∧
          (0 < rowsBefore rows n → ∃ r, r < n ∧ (st r).bb.dirty = true)) := by
  have hF : NoCrash faultless := by intro r t m; simp [faultless, noFaults]
  obtain ⟨P, conc, es0, s0, hP, hrun, hev, hout⟩ := write_run h concurrency threshold hc hF fs
  obtain ⟨B, hB⟩ := hrun.loose_unique hF hout.finished (fun a ha b hb => (hev a ha).indep hP (hev b hb))
  obtain ⟨B', hB'⟩ := C45_collective_write env bb w nm n R p rows sw stored fs concurrency threshold h hc hd
  refine ⟨B, fun es t hr => ⟨(hB es t hr).1, fun hs => ?_⟩⟩
  obtain ⟨st, h1, h2, h3, h4, _⟩ := (hB' es0 s0 hrun).2 hout.finished.stuck
  rw [← (hB es t hr).2.2 hs] at h1 h2
  exact ⟨st, h1, h2, h3, h4⟩

/-- **C92**, for `big_block_mpi_write` with failures: C47 likewise. -/
theorem C92_write_agreement (env : Env) (bb : Block) (w nm n : Nat) (R : Nat → Rank) (p : Nat) (rows sw : Nat → Nat)
    (stored : Nat → Nat → List Byte) (fs : FS) (concurrency : Int) (threshold : Nat)
    (h : CollectiveWrite env bb w nm n R p rows sw stored) (hc : concurrency < 2147483648)
    (F : Nat → Nat → Fault) (hF : NoCrash F) :
    ∃ B, ∀ es t, LRun F n (startWrite env n concurrency threshold R fs).loose es t → es.length ≤ B ∧
      RowsTouched env.m bb fs t.nodes p (rowsBefore rows n) ∧
      (t.Stuck F n → ∃ rc : Int, ∃ st : Nat → Rank, (∀ r, r < n → (t.thr r).prog = .ret (rc, st r)) ∧
        (rc = 0 → RowsWritten env.m bb fs t.nodes p (allRows n rows nm stored) ∧
          ∀ r, r < n → WriteReturned env bb R sw p (rowsBefore rows n) r (st r)) ∧
        (rc ≠ 0 → ∃ r0, r0 < n ∧ ∀ r, r < n → (st r).err = some (R r0).fail)) := by
  obtain ⟨P, conc, es0, s0, hP, hrun, hev, hout⟩ := write_run h concurrency threshold hc hF fs
  obtain ⟨B, hB⟩ := hrun.loose_unique hF hout.finished (fun a ha b hb => (hev a ha).indep hP (hev b hb))
  obtain ⟨B', hB'⟩ := C47_write_agreement env bb w nm n R p rows sw stored fs concurrency threshold h hc F hF
  refine ⟨B, fun es t hr => ⟨(hB es t hr).1, ?_, fun hs => ?_⟩⟩
  · have hrs : 0 < rowSize env.m bb := by
      have hb := h.block 0 h.procs.1
      have hs := h.shape 0 h.procs.1
      have := hb.dummy.rowSize
      have e : rowSize env.m bb = rowSize env.m (R 0).bb := by unfold rowSize; rw [hs.dtype, hs.nmemb]
      rw [e, this]
      exact Nat.mul_pos hb.item0 hb.memb0
    refine hr.keeps (P := fun nd => RowsTouched env.m bb fs nd p (rowsBefore rows n)) ?_ ⟨fun _ _ _ => rfl, fun _ _ => rfl⟩
    intro r op f hm s s' hst ht
    refine rowsTouched_step hst hrs ?_ ht
    intro r' op' f' heq
    cases heq
    have := hev _ ((hB es t hr).2.1 r op f hm)
    exact this.within hP
  · obtain ⟨rc, st, h1, h2, h3⟩ := (hB' es0 s0 hrun).2.2 hout.finished.stuck
    rw [← (hB es t hr).2.2 hs] at h1 h2
    exact ⟨rc, st, h1, h2, h3⟩

/-- **C92**, for `big_block_mpi_read` without failures: C46 likewise. -/
theorem C92_collective_read (env : Env) (fs : FS) (bb : Block) (w nm n : Nat) (R : Nat → Rank) (p : Nat)
    (rows sw : Nat → Nat) (out : Nat → Nat → List Byte) (concurrency : Int) (threshold : Nat)
    (h : CollectiveRead env fs bb w nm n R p rows sw out) (hc : concurrency < 2147483648)
    (hst : ∀ i, i < rowsBefore rows n → Stored env.m fs bb (p + i)) :
    ∃ B, ∀ es t, LRun faultless n (startRead env n concurrency threshold R fs).loose es t → es.length ≤ B ∧
      t.nodes = fs.node ∧
      (t.Stuck faultless n →
        ∃ st : Nat → Rank, ∀ r, r < n → (t.thr r).prog = .ret (0, st r) ∧
            ReadReturned env fs bb nm R p rows sw out (rowsBefore rows n) r (st r)) := by
  have hF : NoCrash faultless := by intro r t m; simp [faultless, noFaults]
  obtain ⟨es0, s0, hrun, hev, _, hout⟩ := read_run h concurrency threshold hc hF (Or.inl ⟨fun _ _ => rfl, hst⟩)
  obtain ⟨B, hB⟩ := hrun.loose_unique hF hout.finished (fun a ha b hb => (hev a ha).indep (hev b hb))
  obtain ⟨B', hB'⟩ := C46_collective_read env fs bb w nm n R p rows sw out concurrency threshold h hc hst
  refine ⟨B, fun es t hr => ⟨(hB es t hr).1, ?_, fun hs => ?_⟩⟩
  · exact hr.keeps (P := fun nd => nd = fs.node)
      (fun r op f hm s s' hs he => (readEvent_nodes hs (hev _ ((hB es t hr).2.1 r op f hm))).trans he) rfl
  · obtain ⟨st, h1, _⟩ := (hB' es0 s0 hrun).2.2 hout.finished.stuck
    rw [← (hB es t hr).2.2 hs] at h1
    exact ⟨st, h1⟩

/-- **C92**, for `big_block_mpi_read` with failures: C47 likewise. -/
theorem C92_read_agreement (env : Env) (fs : FS) (bb : Block) (w nm n : Nat) (R : Nat → Rank) (p : Nat)
    (rows sw : Nat → Nat) (out : Nat → Nat → List Byte) (concurrency : Int) (threshold : Nat)
    (h : CollectiveRead env fs bb w nm n R p rows sw out) (hc : concurrency < 2147483648)
    (hany : ConvertsAny env bb w n R rows) (F : Nat → Nat → Fault) (hF : NoCrash F) :
    ∃ B, ∀ es t, LRun F n (startRead env n concurrency threshold R fs).loose es t → es.length ≤ B ∧ t.nodes = fs.node ∧
      (t.Stuck F n → ∃ rc : Int, ∃ st : Nat → Rank, (∀ r, r < n → (t.thr r).prog = .ret (rc, st r)) ∧
        (rc = 0 → ∀ r, r < n → ReadReturned env fs bb nm R p rows sw out (rowsBefore rows n) r (st r)) ∧
        (rc ≠ 0 → ∃ r0, r0 < n ∧ ∀ r, r < n → (st r).err = some (R r0).fail)) := by
  obtain ⟨es0, s0, hrun, hev, _, hout⟩ := read_run h concurrency threshold hc hF (Or.inr hany)
  obtain ⟨B, hB⟩ := hrun.loose_unique hF hout.finished (fun a ha b hb => (hev a ha).indep (hev b hb))
  obtain ⟨B', hB'⟩ := C47_read_agreement env fs bb w nm n R p rows sw out concurrency threshold h hc hany F hF
  refine ⟨B, fun es t hr => ⟨(hB es t hr).1, ?_, fun hs => ?_⟩⟩
  · exact hr.keeps (P := fun nd => nd = fs.node)
      (fun r op f hm s s' hs he => (readEvent_nodes hs (hev _ ((hB es t hr).2.1 r op f hm))).trans he) rfl
  · obtain ⟨rc, st, h1, h2, h3⟩ := (hB' es0 s0 hrun).2.2 hout.finished.stuck
    rw [← (hB es t hr).2.2 hs] at h1
    exact ⟨rc, st, h1, h2, h3⟩

/-- **C92**, for `big_block_mpi_write` of more rows than are left: C91 likewise. -/
theorem C92_overrun_write (env : Env) (bb : Block) (w nm n : Nat) (R : Nat → Rank) (p : Nat) (rows sw : Nat → Nat)
    (stored : Nat → Nat → List Byte) (fs : FS) (concurrency : Int) (threshold : Nat)
    (h : OverrunWrite env bb w nm n R p rows sw stored) (hc : concurrency < 2147483648)
    (F : Nat → Nat → Fault) (hF : NoCrash F) :
    ∃ B, ∀ es t, LRun F n (startWrite env n concurrency threshold R fs).loose es t → es.length ≤ B ∧
      RowsTouched env.m bb fs t.nodes p (bb.size - p) ∧ (t.Stuck F n → AllRefused n R t.tight) := by
  obtain ⟨es0, s0, hrun, hev, hout⟩ := over_run h concurrency threshold hc hF fs
  obtain ⟨B, hB⟩ := hrun.loose_alike hF (allRefused_finished hout) (fun e he => (hev e he).blind)
  refine ⟨B, fun es t hr => ⟨(hB es t hr).1, ?_, fun hs => ?_⟩⟩
  · have hrs : 0 < rowSize env.m bb := by
      have hb := h.block 0 h.procs.1
      have hs := h.shape 0 h.procs.1
      have := hb.dummy.rowSize
      have e : rowSize env.m bb = rowSize env.m (R 0).bb := by unfold rowSize; rw [hs.dtype, hs.nmemb]
      rw [e, this]
      exact Nat.mul_pos hb.item0 hb.memb0
    refine hr.keeps (P := fun nd => RowsTouched env.m bb fs nd p (bb.size - p)) ?_ ⟨fun _ _ _ => rfl, fun _ _ => rfl⟩
    intro r op f hm s s' hst ht
    refine rowsTouched_step hst hrs ?_ ht
    intro r' op' f' heq
    cases heq
    exact hev _ ((hB es t hr).2.1 r op f hm)
  · unfold AllRefused
    rw [(hB es t hr).2.2 hs]
    exact hout

/-- **C92**, for `big_block_mpi_read` of more rows than are left: C91 likewise. -/
theorem C92_overrun_read (env : Env) (bb : Block) (w nm n : Nat) (R : Nat → Rank) (p : Nat) (rows sw : Nat → Nat)
    (fs : FS) (concurrency : Int) (threshold : Nat)
    (h : OverrunRead env bb w nm n R p rows sw) (hc : concurrency < 2147483648)
    (F : Nat → Nat → Fault) (hF : NoCrash F) :
    ∃ B, ∀ es t, LRun F n (startRead env n concurrency threshold R fs).loose es t → es.length ≤ B ∧
      t.nodes = fs.node ∧ (t.Stuck F n → AllRefused n R t.tight) := by
  obtain ⟨es0, s0, hrun, hev, hout⟩ := overread_run h concurrency threshold hc hF fs
  obtain ⟨B, hB⟩ := hrun.loose_unique hF (allRefused_finished hout) (fun a ha b hb => (hev a ha).indep (hev b hb))
  refine ⟨B, fun es t hr => ⟨(hB es t hr).1, ?_, fun hs => ?_⟩⟩
  · exact hr.keeps (P := fun nd => nd = fs.node)
      (fun r op f hm s s' hs he => (readEvent_nodes hs (hev _ ((hB es t hr).2.1 r op f hm))).trans he) rfl
  · rw [(hB es t hr).2.2 hs]
    exact hout

/-- One run in which `n` processes truncate the new files, and its events. -/
theorem trunc_run (n : Nat) (base : CStr) (first count : Nat) (err : Nat → Option CStr) (fail : Nat → CStr)
    (nd : Nodes) {F : Nat → Nat → Fault} (h0 : 0 < n) (hn : n < 2147483648) (hc : count < 2147483648) (hF : NoCrash F) :
    ∃ es s, Run F n (startTrunc n base first count err fail nd) es s ∧ s.Finished n ∧
      (∀ a ∈ es, ∀ b ∈ es, Indep a b) ∧
      ∀ r op f, .file r op f ∈ es → ∃ i, i ∈ rankFiles count n r ∧ i < count ∧ op = truncOp base (first + i) := by
  obtain ⟨es1, s1, rt, k, j, g1, g2, g3, g4, g5, g6, g7⟩ := truncSome_run hF base first count err fail nd
    (fun r hr i hi => shareOf_bounds hn hc hr hi) n (Nat.le_refl _)
  have hne : List.range n ≠ [] := by
    intro h
    have := List.length_range (n := n)
    rw [h] at this
    simp at this
    omega
  obtain ⟨s2, ⟨⟨es2, hr2, hev2⟩, _⟩, hn2, _, hout⟩ := anyerror_run F (n := n) (E := fun e => ∃ c, e = .coll c)
    (fun c => ⟨c, rfl⟩) .world (List.range n) hne List.nodup_range rt (fun r => if rt r ≠ 0 then some (fail r) else err r)
    (fun r _ h => by simp only [if_pos h]; exact ⟨_, rfl⟩) (s := s1) (fun _ x => Prog.ret x)
    (fun r hr => ⟨List.mem_range.mp hr, by rw [g3 r (List.mem_range.mp hr)]; exact (Prog.bind_ret _).symm⟩)
  have hev : ∀ e ∈ es1 ++ es2, (∃ c, e = .coll c) ∨
      ∃ r t i, r < n ∧ i ∈ shareOf n first count r ∧ e = .file r (truncOp base i) (F r t) := by
    intro e he
    rcases List.mem_append.mp he with he | he
    · exact Or.inr (g5 e he)
    · exact Or.inl (hev2 e he)
  have hall := shares_all first h0 hn hc
  have hnd : ((List.range n).flatMap (shareOf n first count)).Nodup := by
    rw [hall]
    exact List.Pairwise.map _ (fun a b h => by omega) List.nodup_range
  refine ⟨es1 ++ es2, s2, g1.trans hr2, ?_, ?_, ?_⟩
  · intro r hr
    rcases hout with ⟨_, h⟩ | ⟨r0, _, _, h⟩
    · exact ⟨_, h r (List.mem_range.mpr hr)⟩
    · exact ⟨_, h r (List.mem_range.mpr hr)⟩
  · intro a ha b hb
    rcases hev a ha with ⟨c, rfl⟩ | ⟨r, t, i, hr, hi, rfl⟩
    · trivial
    · rcases hev b hb with ⟨c, rfl⟩ | ⟨r', t', i', hr', hi', rfl⟩
      · trivial
      · intro hne
        refine commute_trunc ?_ (hF r t) (hF r' t')
        rintro rfl
        exact hne (flatMap_disjoint hnd hr hr' hi hi')
  · intro r op f he
    rcases hev (.file r op f) he with ⟨c, h⟩ | ⟨r', t, i, hr, hi, h⟩
    · cases h
    · injection h with h1 h2 h3
      subst h1 h2
      obtain ⟨i', hi', rfl⟩ := List.mem_map.mp hi
      exact ⟨i', hi', (C43_once count n h0 hc hn).2 i' r hr hi', rfl⟩

/-- **C92**, for making and growing a block together: C43 likewise. -/
theorem C92_truncate (n : Nat) (base : CStr) (first count : Nat) (err : Nat → Option CStr) (fail : Nat → CStr)
    (nd : Nodes) (F : Nat → Nat → Fault) (h0 : 0 < n) (hn : n < 2147483648) (hc : count < 2147483648)
    (hF : NoCrash F) :
    ∃ B, ∀ es t, LRun F n (startTrunc n base first count err fail nd).loose es t → es.length ≤ B ∧
      (∀ r op f, .file r op f ∈ es → ∃ i, i ∈ rankFiles count n r ∧ i < count ∧
        op = .fopen (filePath base (.data (first + i))) .w) ∧
      (∀ k, (∀ i, i < count → k ≠ fileKey base (.data (first + i))) → t.nodes k = nd k) ∧
      (t.Stuck F n → ∃ rc : Int, (∀ r, r < n → ∃ e, (t.thr r).prog = .ret (rc, e)) ∧
        (rc = 0 → ∀ i, i < count → t.nodes (fileKey base (.data (first + i))) = some (.file [])) ∧
        ((∀ r, r < n → F r = noFaults) → CanTrunc nd base first count → rc = 0)) := by
  obtain ⟨es0, s0, hrun, hfin, hI, hown⟩ := trunc_run n base first count err fail nd h0 hn hc hF
  obtain ⟨B, hB⟩ := hrun.loose_unique hF hfin hI
  obtain ⟨B', hB'⟩ := C43_truncate n base first count err fail nd F h0 hn hc hF
  refine ⟨B, fun es t hr => ⟨(hB es t hr).1, fun r op f hm => hown r op f ((hB es t hr).2.1 r op f hm), fun k hk => ?_, fun hs => ?_⟩⟩
  · refine hr.keeps (P := fun nd' => nd' k = nd k) ?_ rfl
    intro r op f hm s s' hst he
    obtain ⟨i, _, hi, rfl⟩ := hown r op f ((hB es t hr).2.1 r op f hm)
    refine (trunc_frame hF (.cons hst (.nil _)) (base := base) (P := fun i => ∃ j, j < count ∧ i = first + j) ?_ k ?_).trans he
    · rintro e hm' r' op' f' rfl
      cases List.mem_singleton.mp hm'
      exact ⟨_, ⟨i, hi, rfl⟩, rfl⟩
    · rintro i ⟨j, hj, rfl⟩
      exact hk j hj
  · obtain ⟨rc, h1, h2, h3⟩ := (hB' es0 s0 hrun).2.2.2.2 hfin.stuck
    rw [← (hB es t hr).2.2 hs] at h1 h2
    exact ⟨rc, h1, fun h0 => (h2 h0).1, h3⟩

/-! ## Examples -/

example := C92_collective_write exEnv exBlock 4 1 3 exRanks 1 exRankRows (fun r => if r = 2 then 4 else 8) exRankStored exFS 2 1
  exCollective (by decide) exFS_data

example := C92_collective_read exEnv exFS exBlock 4 1 3 exRanks 1 exRankRows (fun r => if r = 2 then 4 else 8) exRankOut 2 1
  exCollectiveRead (by decide) (by
    have : ∀ i < 3, Stored exEnv.m exFS exBlock (1 + i) := by unfold Stored; decide
    exact this)

-- the first file operation of every process fails
example := C92_write_agreement exEnv exBlock 4 1 3 exRanks 1 exRankRows (fun r => if r = 2 then 4 else 8) exRankStored exFS 2 1
  exCollective (by decide) (fun _ t => if t = 0 then .fail else .none) (by intro r t m; dsimp only; split <;> simp)

example := C92_read_agreement exEnv exFS exBlock 4 1 3 exRanks 1 exRankRows (fun r => if r = 2 then 4 else 8) exRankOut 2 1
  exCollectiveRead (by decide) exConvertsAny (fun _ t => if t = 0 then .fail else .none) (by intro r t m; dsimp only; split <;> simp)

example := C92_overrun_write exEnv exBlock 4 1 3 exOver 1 (fun _ => 3) (fun _ => 8) exOverStored exFS 3 1 exOverrun (by decide)
  faultless (by intro r t m; simp [faultless, noFaults])

example := C92_overrun_read exEnv exBlock 4 1 3 exOver 1 (fun _ => 3) (fun _ => 8) exFS 3 1 exOverrunRead (by decide)
  faultless (by intro r t m; simp [faultless, noFaults])

example := C92_truncate 3 b!"d/x" 3 4 (fun _ => none) (fun _ => b!"disk full") exW.fs.node faultless (by decide) (by decide)
  (by decide) (by intro r t m; simp [faultless, noFaults])

/-- Two processes exchange an error; the first has one. -/
def exLate : Conf (Int × Option CStr) :=
  ⟨fun r => ⟨anyerrorP .world [0, 1] r (if r = 0 then -1 else 0) (some b!"full"), 0⟩, fun _ => none⟩

/-- Processes do leave early: the first process is behind the first `MPI_Bcast` when the second has not arrived at it. -/
theorem C92_early : ∃ es t, LRun faultless 2 exLate.loose es t ∧
    (t.posts (.world, [0, 1]) 0).length = 2 ∧ (t.thr 0).seat = none ∧ (t.posts (.world, [0, 1]) 1).length = 1 := by
  refine ⟨_, _, .cons (.arrive _ 0 ⟨.allreduce, .world, [0, 1]⟩ _ _ 0 (by decide) (by decide) rfl)
    (.cons (.arrive _ 1 ⟨.allreduce, .world, [0, 1]⟩ _ _ 0 (by decide) (by decide) rfl)
    (.cons (.leave _ 0 ⟨.allreduce, .world, [0, 1]⟩ _ _ 0 0 _ (by decide) rfl
      (leaves_of_posted (msg := fun r => if r = 0 then { num := 1 } else { num := 0 }) ?_))
    (.cons (.arrive _ 0 ⟨.bcast, .world, [0, 1]⟩ _ _ 0 (by decide) (by decide) rfl)
    (.cons (.leave _ 0 ⟨.bcast, .world, [0, 1]⟩ _ _ 0 1 _ (by decide) rfl ⟨fun h => absurd h (by decide), fits_exists _ _ _, fun l _ => rfl⟩)
    (.nil _))))), rfl, rfl, rfl⟩
  decide

end Verif
