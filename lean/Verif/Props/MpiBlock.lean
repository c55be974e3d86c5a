import Verif.Proof.Trunc
import Verif.Proof.MpiFlush
import Verif.Proof.Rename
import Verif.Props.Mpi
import Verif.Props.Create
import Verif.Props.Pack
/-!
# C43, C48, C61: collective create, grow, open and flush
-/

set_option autoImplicit false

namespace Verif

open Spec

/-! ## C43: creating and growing together -/

theorem shareOf_bounds {n first count r : Nat} (hn : n < 2147483648) (hc : count < 2147483648)
    (hr : r < n) {i : Nat} (hi : i ∈ shareOf n first count r) : first ≤ i ∧ i < first + count := by
  obtain ⟨j, hj, rfl⟩ := List.mem_map.mp hi
  have := (C43_once count n (by omega) hc hn).2 j r hr hj
  omega

theorem shares_all {n count : Nat} (first : Nat) (h0 : 0 < n) (hn : n < 2147483648) (hc : count < 2147483648) :
    (List.range n).flatMap (shareOf n first count) = (List.range count).map (first + ·) := by
  have hb : count * n < 18446744073709551616 := by
    have : count * n ≤ 2147483648 * 2147483648 := Nat.mul_le_mul (by omega) (by omega)
    omega
  rw [← rankFiles_all count n h0 hb, List.map_flatMap]
  rfl

theorem mem_fileOps {es : List Event} {r : Nat} {op : FOp} : (r, op) ∈ fileOps es ↔ ∃ f, .file r op f ∈ es := by
  unfold fileOps
  rw [List.mem_filterMap]
  constructor
  · rintro ⟨e, he, h⟩
    cases e with
    | coll c => simp at h
    | file r' op' f => simp at h; obtain ⟨rfl, rfl⟩ := h; exact ⟨f, he⟩
  · rintro ⟨f, he⟩
    exact ⟨_, he, rfl⟩

theorem fileOps_coll {es : List Event} (h : ∀ e ∈ es, ∃ c, e = .coll c) : fileOps es = [] := by
  unfold fileOps
  rw [List.filterMap_eq_nil_iff]
  intro e he
  obtain ⟨c, rfl⟩ := h e he
  rfl

/-- **C43.** `n` processes create a block with `count` files (`first = 0`) or grow one that has `first` files by
`count` files. In every interleaving, at every moment, whatever fails: each process has only truncated files of
its own share of the new files, no file has been truncated twice, and nothing else has been touched. No run is
longer than a fixed number of steps; at the end all processes return the same code; if it is 0, every new file
exists and is empty, and has been truncated exactly once. If nothing fails and the directory is there, it is 0. -/
theorem C43_truncate (n : Nat) (base : CStr) (first count : Nat) (err : Nat → Option CStr) (fail : Nat → CStr)
    (nd : Nodes) (F : Nat → Nat → Fault) (h0 : 0 < n) (hn : n < 2147483648) (hc : count < 2147483648)
    (hF : NoCrash F) :
    ∃ B, ∀ es s, Run F n (startTrunc n base first count err fail nd) es s → es.length ≤ B ∧
      (∀ q ∈ fileOps es, ∃ i, i ∈ rankFiles count n q.1 ∧ i < count ∧
        q.2 = .fopen (filePath base (.data (first + i))) .w) ∧
      ((fileOps es).map (·.2)).Nodup ∧
      (∀ k, (∀ i, i < count → k ≠ fileKey base (.data (first + i))) → s.nodes k = nd k) ∧
      (s.Stuck F n → ∃ rc : Int, (∀ r, r < n → ∃ e, (s.thr r).prog = .ret (rc, e)) ∧
        (rc = 0 → (∀ i, i < count → s.nodes (fileKey base (.data (first + i))) = some (.file [])) ∧
          ((fileOps es).map (·.2)).Perm ((List.range count).map fun i => .fopen (filePath base (.data (first + i))) .w)) ∧
        ((∀ r, r < n → F r = noFaults) → CanTrunc nd base first count → rc = 0)) := by
  obtain ⟨es1, s1, rt, k, j, g1, g2, g3, g4, g5, g6, g7⟩ := truncSome_run hF base first count err fail nd
    (fun r hr i hi => shareOf_bounds hn hc hr hi) n (Nat.le_refl _)
  have hne : List.range n ≠ [] := by
    intro h
    have := List.length_range (n := n)
    rw [h] at this
    simp at this
    omega
  obtain ⟨s2, ⟨⟨es2, hr2, hev2⟩, _⟩, hn2, _, hout⟩ := anyerror_run F (n := n) (E := fun e => ∃ c, e = .coll c)
    (fun c => ⟨c, rfl⟩) .world (List.range n) hne List.nodup_range rt (fun r => if rt r ≠ 0 then some (fail r) else err r)
    (fun r _ h => by simp only [if_pos h]; exact ⟨_, rfl⟩) (s := s1) (fun _ x => Prog.ret x)
    (fun r hr => ⟨List.mem_range.mp hr, by rw [g3 r (List.mem_range.mp hr)]; exact (Prog.bind_ret _).symm⟩)
  have hrun := g1.trans hr2
  have hev : ∀ e ∈ es1 ++ es2, (∃ c, e = .coll c) ∨
      ∃ r t i, r < n ∧ i ∈ shareOf n first count r ∧ e = .file r (truncOp base i) (F r t) := by
    intro e he
    rcases List.mem_append.mp he with he | he
    · exact Or.inr (g5 e he)
    · exact Or.inl (hev2 e he)
  have hall := shares_all first h0 hn hc
  have hnd : ((List.range n).flatMap (shareOf n first count)).Nodup := by
    rw [hall]
    exact List.Pairwise.map _ (fun a b h => by omega) List.nodup_range
  have hI : ∀ a ∈ es1 ++ es2, ∀ b ∈ es1 ++ es2, Indep a b := by
    intro a ha b hb
    rcases hev a ha with ⟨c, rfl⟩ | ⟨r, t, i, hr, hi, rfl⟩
    · trivial
    · rcases hev b hb with ⟨c, rfl⟩ | ⟨r', t', i', hr', hi', rfl⟩
      · trivial
      · intro hne
        refine commute_trunc ?_ (hF r t) (hF r' t')
        rintro rfl
        exact hne (flatMap_disjoint hnd hr hr' hi hi')
  have hfin : s2.Finished n := by
    intro r hr
    rcases hout with ⟨_, h⟩ | ⟨r0, _, _, h⟩
    · exact ⟨_, h r (List.mem_range.mpr hr)⟩
    · exact ⟨_, h r (List.mem_range.mpr hr)⟩
  -- the operations of the whole run
  have hops : fileOps (es1 ++ es2) = (List.range n).flatMap (fun r =>
      ((shareOf n first count r).take (k r)).map fun i => (r, truncOp base i)) := by
    rw [fileOps_append, fileOps_coll hev2, List.append_nil, g4]
  have hopn : ((fileOps (es1 ++ es2)).map (·.2)).Nodup := by
    have h1 : ((fileOps (es1 ++ es2)).map (·.2)) =
        ((List.range n).flatMap fun r => (shareOf n first count r).take (k r)).map (truncOp base) := by
      rw [hops, List.map_flatMap, List.map_flatMap]
      simp only [List.map_map]
      rfl
    rw [h1]
    have h2 : ((List.range n).flatMap fun r => (shareOf n first count r).take (k r)).Sublist
        ((List.range n).flatMap (shareOf n first count)) := by
      rw [List.flatMap_def, List.flatMap_def]
      generalize List.range n = l
      induction l with
      | nil => exact List.Sublist.refl _
      | cons a l ih => exact List.Sublist.append (List.take_sublist _ _) ih
    refine List.Pairwise.map _ (fun a b hab he => ?_) (List.Pairwise.sublist h2 hnd)
    unfold truncOp at he
    injection he with he
    have : fileKey base (.data a) = fileKey base (.data b) := congrArg resolve he
    have := fileKey_inj this
    injection this with this
    exact hab this
  refine ⟨(es1 ++ es2).length, fun es s hr => ?_⟩
  obtain ⟨es', hr', hp⟩ := hrun.confluent hF hfin hI hr
  obtain ⟨u1, u2⟩ := hrun.unique hF hfin hI hr
  have hpo : (fileOps es ++ fileOps es').Perm (fileOps (es1 ++ es2)) := by
    rw [← fileOps_append]
    exact hp.filterMap _
  have hown : ∀ r op f, Event.file r op f ∈ es → ∃ i, i ∈ rankFiles count n r ∧ i < count ∧ op = truncOp base (first + i) := by
    intro r op f he
    rcases hev (.file r op f) (hp.subset (List.mem_append_left _ he)) with ⟨c, h⟩ | ⟨r', t, i, hr, hi, h⟩
    · cases h
    · injection h with h1 h2 h3
      subst h1 h2
      obtain ⟨i', hi', rfl⟩ := List.mem_map.mp hi
      exact ⟨i', hi', (C43_once count n h0 hc hn).2 i' r hr hi', rfl⟩
  refine ⟨u1, ?_, ?_, ?_, ?_⟩
  · rintro ⟨r, op⟩ hq
    obtain ⟨f, he⟩ := mem_fileOps.mp hq
    obtain ⟨i, h1, h2, h3⟩ := hown r op f he
    exact ⟨i, h1, h2, h3⟩
  · have := (hpo.map (·.2)).nodup_iff.mpr hopn
    rw [List.map_append] at this
    exact (List.nodup_append.mp this).1
  · intro k hk
    refine trunc_frame hF hr (base := base) (P := fun i => ∃ j, j < count ∧ i = first + j) ?_ k ?_
    · rintro e he r op f rfl
      obtain ⟨i, h1, h2, h3⟩ := hown r op f he
      exact ⟨_, ⟨i, h2, rfl⟩, h3⟩
    · rintro i ⟨j, hj, rfl⟩
      exact hk j hj
  · intro hst
    have hs := u2 hst
    rw [hs] at hr' ⊢
    have hes' : es' = [] := by
      cases hr' with
      | nil => rfl
      | cons h1 h2 =>
        rw [hs] at hst
        exact absurd h1 (hst _ _)
    rw [hes', List.append_nil] at hp
    have hpo := hp.filterMap fun (e : Event) => match e with
      | .file r op _ => some (r, op)
      | .coll _ => none
    rcases hout with ⟨hz, h⟩ | ⟨r0, hr0, hz, h⟩
    · refine ⟨0, fun r hr => ⟨_, h r (List.mem_range.mpr hr)⟩, fun _ => ?_, fun _ _ => rfl⟩
      have hfull : ∀ r, r < n → j r = (shareOf n first count r).length ∧ k r = (shareOf n first count r).length := by
        intro r hr
        rcases g7 r hr with ⟨_, a⟩ | ⟨a, _⟩
        · exact a
        · rw [hz r (List.mem_range.mpr hr)] at a
          exact absurd a (by decide)
      have hshare : ∀ x : Nat → Nat, (∀ r, r < n → x r = (shareOf n first count r).length) →
          ((List.range n).flatMap fun r => (shareOf n first count r).take (x r)) = (List.range count).map (first + ·) := by
        intro x hx
        rw [← hall, List.flatMap_def, List.flatMap_def]
        refine congrArg List.flatten (List.map_congr_left fun r hr => ?_)
        rw [hx r (List.mem_range.mp hr), List.take_length]
      refine ⟨?_, ?_⟩
      · intro i hi
        rw [hn2, g6, hshare j (fun r hr => (hfull r hr).1)]
        simp only [emptied]
        rw [if_pos]
        exact List.mem_map.mpr ⟨first + i, List.mem_map.mpr ⟨i, List.mem_range.mpr hi, rfl⟩, rfl⟩
      · have e1 : (fileOps (es1 ++ es2)).map (·.2) =
            (List.range count).map fun i => FOp.fopen (filePath base (.data (first + i))) .w := by
          rw [hops, List.map_flatMap]
          simp only [List.map_map]
          have := congrArg (List.map (truncOp base)) (hshare k (fun r hr => (hfull r hr).2))
          rw [List.map_flatMap, List.map_map] at this
          exact this
        rw [← e1]
        exact (hp.filterMap _).map _
    · refine ⟨rt r0, fun r hr => ⟨_, h r (List.mem_range.mpr hr)⟩, fun h0 => absurd h0 hz, fun hf hcan => ?_⟩
      rcases g7 r0 (List.mem_range.mp hr0) with ⟨a, _⟩ | ⟨_, a⟩
      · exact a
      · exact absurd ⟨hf r0 (List.mem_range.mp hr0), hcan⟩ a

-- three processes grow the block `exB`, which has three files, by four files
example : ∃ B, ∀ es s, Run faultless 3 (startTrunc 3 b!"d/x" 3 4 (fun _ => none) (fun _ => b!"disk full") exW.fs.node) es s →
    es.length ≤ B ∧ (s.Stuck faultless 3 → (∀ r, r < 3 → ∃ e, (s.thr r).prog = .ret (0, e)) ∧
      s.nodes (fileKey b!"d/x" (.data 5)) = some (.file []) ∧
      s.nodes (fileKey b!"d/x" .header) = exW.fs.node (fileKey b!"d/x" .header)) := by
  obtain ⟨B, hB⟩ := C43_truncate 3 b!"d/x" 3 4 (fun _ => none) (fun _ => b!"disk full") exW.fs.node faultless
    (by decide) (by decide) (by decide) (by intro r t m; simp [faultless, noFaults])
  refine ⟨B, fun es s hr => ?_⟩
  obtain ⟨h1, _, _, h4, h5⟩ := hB es s hr
  refine ⟨h1, fun hs => ?_⟩
  obtain ⟨rc, g1, g2, g3⟩ := h5 hs
  have hcan : CanTrunc exW.fs.node b!"d/x" 3 4 := by
    have h1 : exW.fs.node (resolve b!"d/x") = some .dir := by decide +kernel
    have h2 : ∀ i < 4, exW.fs.node (fileKey b!"d/x" (.data (3 + i))) ≠ some .dir := by decide +kernel
    exact fun i hi => ⟨h1, h2 i hi⟩
  have h0 := g3 (fun _ _ => rfl) hcan
  subst h0
  exact ⟨g1, (g2 rfl).1 2 (by decide), h4 _ (fun i _ => fileKey_ne (by simp))⟩

/-! ## C48: the checksum after collective writes and a flush -/

/-- **C48, what is stored.** After any history of successful collective writes that wrote at least one row, a
collective flush succeeds. Then the checksum of every file, on disk and in the handles of all processes, is the
sum of the checksums that all processes had in their handles before the history, plus the bytes written by all
processes (modulo 2^32). -/
theorem C48_total (env : Env) (bb : Block) (w nm n : Nat) (L : List (Nat × List (List Byte))) (H0 H1 : Nat → Block) (fs0 fs1 : FS)
    (hw : Writes env bb w nm n L H0 fs0 H1 fs1) (hne : ∃ e ∈ L, e.2 ≠ []) (hn : 0 < n) (hs : SameShape bb (H0 0))
    (hl : Layout (H0 0)) (hsv : Savable env (H0 0)) (hname : (0 : Byte) ∉ bb.basename) (hfl : Flushable env fs0 (H0 0)) :
    ∃ H2 b w2, flushOpen env n H1 ⟨fs1, noFaults, 0⟩ = .ok ((0, H2), 0, some b) w2 ∧ SameShape bb b ∧
      (∀ f, f < bb.nfile → b.fchecksum.getD f 0 = (rankSum n H0 f + bytesWritten bb L f) % 4294967296) ∧
      (∀ r, (H2 r).fchecksum = b.fchecksum ∧ (H2 r).dirty = false) ∧
      attrView env.m b.attrset = attrView env.m (H0 0).attrset := by
  have hd := hw.done
  have hs1 := hd.shape 0 hn hs
  have hl1 := hd.layout 0 hn hl
  have ha1 := hd.attrs 0 hn
  have hb1 : (H1 0).basename = (H0 0).basename := hs1.base.trans hs.base.symm
  have hsv1 : Savable env (H1 0) := by
    refine ⟨hsv.fmt, ⟨?_, ?_, ?_, hl1.nfile, hl1.nck, ?_, ?_, hl1.ck32⟩, ?_, ?_, ?_, ?_, ?_, ?_⟩
    · rw [hs1.dtype, ← hs.dtype]; exact hsv.header.dt
    · rw [hs1.nmemb, ← hs.nmemb]; exact hsv.header.nmemb0
    · rw [hs1.nmemb, ← hs.nmemb]; exact hsv.header.nmembMax
    · rw [hs1.nfile, ← hs.nfile]; exact hsv.header.nfileMax
    · rw [hs1.fsize, ← hs.fsize]; exact hsv.header.sizes
    · rw [hs1.foffset, hs1.fsize, ← hs.foffset, ← hs.fsize]; exact hsv.offsets
    · rw [hs1.size, hs1.foffset, ← hs.size, ← hs.foffset]; exact hsv.size
    · rw [ha1]; exact hsv.attrs
    · rw [ha1]; exact hsv.storable
    · rw [hb1]; exact hsv.base
    · rw [hb1]; exact hsv.notMeta
  have hfl1 : Flushable env fs1 (H1 0) := by
    refine hfl.congr hb1 ha1 (hd.other _ fun f _ => ?_) (fun id hid => hd.other _ fun f _ => ?_)
    · rw [hs.base]; exact resolve_ne_fileKey _ _
    · rw [hs.base]
      apply fileKey_ne
      rcases hid with rfl | rfl | rfl <;> simp
  obtain ⟨H2, b, w2, e, hfd⟩ := flushOpen_spec (w := ⟨fs1, noFaults, 0⟩) rfl hsv1 hl1 (by rw [hs1.base]; exact hname) hfl1 (hd.set hne)
  refine ⟨H2, b, w2, e, ?_, ?_, fun r => ⟨(hfd.same r).2.1, (hfd.same r).2.2.1⟩, ?_⟩
  · have := hfd.shape
    exact ⟨this.dtype.trans hs1.dtype, this.nmemb.trans hs1.nmemb, this.base.trans hs1.base, this.size.trans hs1.size,
      this.fsize.trans hs1.fsize, this.foffset.trans hs1.foffset, this.nfile.trans hs1.nfile⟩
  · intro f hf
    rw [hfd.sums f (by rw [hs1.nfile]; exact hf), hd.sums f]
  · rw [hfd.attrs, ha1]

theorem rankSum_const {n : Nat} {H : Nat → Block} {c : List Nat} (h : ∀ r, r < n → (H r).fchecksum = c) (f : Nat) :
    rankSum n H f = n * c.getD f 0 := by
  unfold rankSum
  have : (List.range n).map (fun r => (H r).fchecksum.getD f 0) = (List.range n).map fun _ => c.getD f 0 := by
    apply List.map_congr_left
    intro r hr
    rw [h r (List.mem_range.mp hr)]
  rw [this, List.map_const', List.sum_replicate_nat, List.length_range]

theorem mpiBroadcast_same {env : Env} {b : Block} (hl : Layout b) (hname : (0 : Byte) ∉ b.basename)
    (hlen : b.basename.length ≤ 8192) (ha : WellAttrs env.m b.attrset) (r : Nat) :
    SameShape b (mpiBroadcast env b r) ∧ (mpiBroadcast env b r).fchecksum = b.fchecksum ∧ Layout (mpiBroadcast env b r) := by
  unfold mpiBroadcast
  split
  · exact ⟨⟨rfl, rfl, rfl, rfl, rfl, rfl, rfl⟩, rfl, hl⟩
  · obtain ⟨hp, hoff⟩ := C34_pack_unpack env env b rfl hl hname hlen ha
    obtain ⟨p1, p2, p3, p4, p5⟩ := hp.shape
    refine ⟨⟨p1, p2, p3, p4, hp.files.1, hoff, p5⟩, hp.files.2, ⟨?_, ?_, ?_, ?_, ?_, ?_⟩⟩
    · rw [hp.files.1, p5]; exact hl.nfile
    · rw [hp.files.2, p5]; exact hl.nck
    · rw [hoff, p5, hp.files.1]; exact hl.foff
    · rw [p4, hp.files.1]; exact hl.size
    · rw [hp.files.1]; exact hl.small
    · rw [hp.files.2]; exact hl.ck32

theorem freshBlock_layout {env : Env} {base dt : CStr} {nmemb : Int} {fsize : List Nat} (hs : fsize.sum < 9223372036854775808) :
    Layout (freshBlock env base dt nmemb fsize) := by
  refine ⟨rfl, List.length_replicate, ?_, runningSums_last fsize (by omega), hs, ?_⟩
  · show runningSums 0 fsize = _
    rw [runningSums_eq fsize 0 (by omega)]
    apply List.map_congr_left
    intro f _
    simp [start, freshBlock, newBlock]
  · intro c hc
    have := (List.mem_replicate.mp hc).2
    omega

/-- What a successful collective create returns and stores. -/
theorem mpiCreateRoot_ok {env : Env} {bf name dt : CStr} {nmemb : Int} {fsize : List Nat} {w0 : World} (hns : NoSilent w0.faults)
    (hlen : (mpiPath bf name).length ≤ 8192) (hmeta : isMeta (mpiPath bf name) = false) :
    wpc (mpiCreateRoot env bf name (some dt) nmemb fsize) w0
      (fun r w' => r.1 ≠ 0 ∨ r = (0, some (mpiBroadcast env (freshBlock env (mpiPath bf name) dt nmemb fsize))) ∧
        ∃ fs, OnlyNewDirs w0.fs fs ∧ w'.fs = flushFS (newBlock env (mpiPath bf name) dt nmemb fsize) [] fs)
      (fun _ => True) := by
  unfold mpiCreateRoot
  rw [wpc_bind]
  apply wpc_mono (wpc_mksubdirR bf name w0)
  · rintro rc w1 ⟨f1, h1, h2, _⟩
    rcases h2 with rfl | rfl
    · simp only [ne_eq, not_true_eq_false, if_false]
      rw [wpc_bind]
      apply wpc_mono (wpc_createInternal hlen hmeta)
      · rintro r w2 ⟨_, _, (rfl | ⟨rfl, _, h4⟩), _⟩
        · exact Or.inl (by decide)
        · exact Or.inr ⟨rfl, w1.fs, h1, h4 (by rw [f1]; exact hns)⟩
      · intro _ _; trivial
    · simp only [ne_eq, show (-1 : Int) ≠ 0 by decide, not_false_eq_true, if_true]
      rw [wpc_pure]
      exact Or.inl (by decide)
  · intro _ _; trivial

/-- **C48** (partial: for a block that these processes have created and not flushed yet; `C48_opened` and
`C48_reflush` say what happens otherwise). The processes create a block where no old attribute file is;
between creation and the first write (`fs0`) at most data files change. After any history of successful
collective writes that wrote at least one row and a collective flush, the checksum of each file is the byte sum
of everything written to it by all processes. -/
theorem C48_created_partial (env : Env) (bf name dt : CStr) (nmemb : Int) (fsize : List Nat) (w0 w1 : World) (H0 H1 : Nat → Block)
    (fs0 fs1 : FS) (w nm n : Nat) (L : List (Nat × List (List Byte)))
    (hc : mpiCreateRoot env bf name (some dt) nmemb fsize w0 = .ok (0, some H0) w1) (hns : NoSilent w0.faults) (hfmt : FmtOk env)
    (hlen : (mpiPath bf name).length ≤ 8192) (hz : (0 : Byte) ∉ mpiPath bf name) (hmeta : isMeta (mpiPath bf name) = false)
    (hdt : PlainDtype (dtypeNormalize env.m dt)) (hm : 0 ≤ nmemb ∧ nmemb < 2147483648) (hnf : fsize.length ≤ 16777216)
    (hs : fsize.sum < 9223372036854775808) (hold : w0.fs.node (fileKey (mpiPath bf name) .attr) = none)
    (hdir : DirOk fs0 (mpiPath bf name))
    (hfs : ∀ id, (∀ f, id ≠ .data f) → fs0.node (fileKey (mpiPath bf name) id) = w1.fs.node (fileKey (mpiPath bf name) id))
    (hnd : w1.fs.node (fileKey (mpiPath bf name) .attr) ≠ some .dir)
    (hw : Writes env (H0 0) w nm n L H0 fs0 H1 fs1) (hne : ∃ e ∈ L, e.2 ≠ []) (hn : 0 < n) :
    ∃ H2 b w2, flushOpen env n H1 ⟨fs1, noFaults, 0⟩ = .ok ((0, H2), 0, some b) w2 ∧ b.fsize = fsize ∧
      (∀ f, f < fsize.length → b.fchecksum.getD f 0 = bytesWritten (H0 0) L f % 4294967296) ∧
      (∀ r, (H2 r).fchecksum = b.fchecksum ∧ (H2 r).dirty = false) := by
  let nb := freshBlock env (mpiPath bf name) dt nmemb fsize
  rcases wpc_ok (mpiCreateRoot_ok hns hlen hmeta) hc with h | ⟨h, fs, hd, hf1⟩
  · exact absurd rfl h
  · injection h with _ h
    injection h with h
    subst h
    have hwa : WellAttrs env.m nb.attrset := ⟨[], (attrsetCreate_inv env).dirty false⟩
    have hl : Layout nb := freshBlock_layout hs
    have hbc := mpiBroadcast_same (env := env) (b := nb) hl hz hlen hwa
    have hview : attrView env.m nb.attrset = findE [] := ((attrsetCreate_inv env).dirty false).view_eq
    have hsv : Savable env nb := by
      have hg : GoodHeader (newBlock env (mpiPath bf name) dt nmemb fsize) := freshBlock_header hdt hm hnf (by
        intro s hs'
        have := le_sum_of_mem' hs'
        omega)
      refine ⟨hfmt, ⟨hg.dt, hg.nmemb0, hg.nmembMax, hg.nfile, hg.nck, hg.nfileMax, hg.sizes, hg.cks⟩, rfl, rfl, hwa, ?_,
        hlen, hmeta⟩
      · intro nm v hv
        rw [hview] at hv
        exact absurd hv (by simp [findE_nil, AttrMap.empty])
    have hv1 : fs0.node (fileKey (mpiPath bf name) .attr) = none := by
      have h1 : w1.fs.node (fileKey (mpiPath bf name) .attr) = fs.node (fileKey (mpiPath bf name) .attr) := by
        rw [hf1]
        exact flushFS_other _ _ _ _ (fileKey_ne (by simp)) (fileKey_ne (by simp))
      rw [hfs .attr (by simp), h1]
      rcases hd (fileKey (mpiPath bf name) .attr) with h | ⟨_, h⟩
      · exact h.trans hold
      · rw [h1] at hnd
        exact absurd h hnd
    have hv2 : fs0.node (fileKey (mpiPath bf name) .attrV2) = some (.file []) := by
      rw [hfs .attrV2 (by simp), hf1]
      exact (flushFS_attr _ _ _).trans (if_pos rfl)
    have hfl : Flushable env fs0 nb := by
      refine ⟨hdir, fun h => absurd h (by simp [nb, freshBlock]), fun _ => ?_⟩
      rw [hview]
      refine ⟨{ attrsetCreate env with dirty := false }, { attrsetCreate env with dirty := false }, ?_, ?_,
        ⟨[], (attrsetCreate_inv env).dirty false⟩, ((attrsetCreate_inv env).dirty false).view_eq⟩
      · unfold readsV1
        rw [show fs0.node (fileKey nb.basename .attr) = none from hv1]
        rfl
      · unfold readsV2 FS.bytes
        rw [show fs0.node (fileKey nb.basename .attrV2) = some (.file []) from hv2]
        rfl
    obtain ⟨H2, b, w2, e, g1, g2, g3, _⟩ := C48_total env nb w nm n L _ H1 fs0 fs1 hw hne hn (hbc 0).1 (hbc 0).2.2 hsv hz hfl
    refine ⟨H2, b, w2, e, g1.fsize, fun f hf => ?_, g3⟩
    rw [g2 f hf, rankSum_const (c := nb.fchecksum) (fun r _ => (hbc r).2.1)]
    have : nb.fchecksum.getD f 0 = 0 := by
      show (List.replicate fsize.length 0).getD f 0 = 0
      rw [List.getD_eq_getElem?_getD, List.getElem?_replicate]
      split <;> rfl
    rw [this, Nat.mul_zero, Nat.zero_add]
    rfl

/-- **C48, blocks that existed before.** If `n` processes open a block, write to it and flush it, the checksum on
disk becomes `n` times the old one plus the bytes written, because every process brings along the old one. -/
theorem C48_opened (env : Env) (bb : Block) (w0 : World) (w nm n : Nat) (hnf : w0.faults = noFaults) (hsv : Savable env bb)
    (hl : Layout bb) (hname : (0 : Byte) ∉ bb.basename) (hdir : DirOk w0.fs bb.basename) (hh : HeaderSays w0.fs bb)
    (ha : AttrsSay env w0.fs bb.basename (attrView env.m bb.attrset)) (hn : 0 < n) :
    ∃ H0 w1, mpiOpen env bb.basename w0 = .ok (0, some H0) w1 ∧ w1.fs = w0.fs ∧
      (∀ r, SameShape bb (H0 r) ∧ Layout (H0 r) ∧ (H0 r).fchecksum = bb.fchecksum) ∧
      ∀ L H1 fs1, Writes env bb w nm n L H0 w0.fs H1 fs1 → (∃ e ∈ L, e.2 ≠ []) →
      ∃ H2 b w2, flushOpen env n H1 ⟨fs1, noFaults, 0⟩ = .ok ((0, H2), 0, some b) w2 ∧
        (∀ f, f < bb.nfile → b.fchecksum.getD f 0 = (n * bb.fchecksum.getD f 0 + bytesWritten bb L f) % 4294967296) ∧
        (∀ r, (H2 r).fchecksum = b.fchecksum) := by
  have hop := wpc_blockOpen_says (env := env) (bb := bb) (w := w0) (C := fun _ => False) hnf hsv.base hsv.notMeta hsv.offsets
    hsv.size hh ha
  obtain ⟨r, w1, e1, g1, _, b0, rfl, k1, k2, k3, k4, k5, k6⟩ := wpc_returns hop (fun _ h => h)
  have hl0 : Layout b0 := by
    refine ⟨?_, ?_, ?_, ?_, ?_, ?_⟩
    · rw [k1.fsize, k1.nfile]; exact hl.nfile
    · rw [k2, k1.nfile]; exact hl.nck
    · rw [k1.foffset, k1.nfile, k1.fsize]; exact hl.foff
    · rw [k1.size, k1.fsize]; exact hl.size
    · rw [k1.fsize]; exact hl.small
    · rw [k2]; exact hl.ck32
  have hbc := mpiBroadcast_same (env := env) (b := b0) hl0 (by rw [k1.base]; exact hname) (by rw [k1.base]; exact hsv.base) k3
  have hS : ∀ r, SameShape bb (mpiBroadcast env b0 r) := fun r =>
    have := (hbc r).1
    ⟨this.dtype.trans k1.dtype, this.nmemb.trans k1.nmemb, this.base.trans k1.base, this.size.trans k1.size,
      this.fsize.trans k1.fsize, this.foffset.trans k1.foffset, this.nfile.trans k1.nfile⟩
  refine ⟨mpiBroadcast env b0, w1, ?_, g1, fun r => ⟨hS r, (hbc r).2.2, (hbc r).2.1.trans k2⟩, ?_⟩
  · show M.bind (blockOpen env bb.basename) _ w0 = _
    unfold M.bind
    rw [e1]
    rfl
  · intro L H1 fs1 hw hne
    have hsv0 : Savable env (mpiBroadcast env b0 0) := by
      show Savable env b0
      refine ⟨hsv.fmt, ⟨?_, ?_, ?_, hl0.nfile, hl0.nck, ?_, ?_, hl0.ck32⟩, ?_, ?_, k3, ?_, ?_, ?_⟩
      · rw [k1.dtype]; exact hsv.header.dt
      · rw [k1.nmemb]; exact hsv.header.nmemb0
      · rw [k1.nmemb]; exact hsv.header.nmembMax
      · rw [k1.nfile]; exact hsv.header.nfileMax
      · rw [k1.fsize]; exact hsv.header.sizes
      · rw [k1.foffset, k1.fsize]; exact hsv.offsets
      · rw [k1.size, k1.foffset]; exact hsv.size
      · rw [k4]; exact hsv.storable
      · rw [k1.base]; exact hsv.base
      · rw [k1.base]; exact hsv.notMeta
    have hfl : Flushable env w0.fs (mpiBroadcast env b0 0) := by
      show Flushable env w0.fs b0
      refine ⟨by rw [k1.base]; exact hdir, fun h => by rw [k6] at h; exact absurd h (by decide), fun _ => ?_⟩
      rw [k1.base, k4]
      exact ha
    obtain ⟨H2, b, w2, e, _, g2, g3, _⟩ := C48_total env bb w nm n L _ H1 w0.fs fs1 hw hne hn (hS 0) (hbc 0).2.2 hsv0 hname hfl
    refine ⟨H2, b, w2, e, fun f hf => ?_, fun r => (g3 r).1⟩
    rw [g2 f hf, rankSum_const (c := bb.fchecksum) (fun r _ => (hbc r).2.1.trans k2)]

/-- **C48, blocks that were flushed before.** After a collective flush (`C48_total`) all processes hold the same
checksums `c`; after more writes and another flush the checksum is `n` times `c` plus the bytes written since. -/
theorem C48_reflush (env : Env) (bb : Block) (w nm n : Nat) (L : List (Nat × List (List Byte))) (H0 H1 : Nat → Block) (fs0 fs1 : FS)
    (c : List Nat) (hc : ∀ r, r < n → (H0 r).fchecksum = c)
    (hw : Writes env bb w nm n L H0 fs0 H1 fs1) (hne : ∃ e ∈ L, e.2 ≠ []) (hn : 0 < n) (hs : SameShape bb (H0 0))
    (hl : Layout (H0 0)) (hsv : Savable env (H0 0)) (hname : (0 : Byte) ∉ bb.basename) (hfl : Flushable env fs0 (H0 0)) :
    ∃ H2 b w2, flushOpen env n H1 ⟨fs1, noFaults, 0⟩ = .ok ((0, H2), 0, some b) w2 ∧
      (∀ f, f < bb.nfile → b.fchecksum.getD f 0 = (n * c.getD f 0 + bytesWritten bb L f) % 4294967296) ∧
      ∀ r, (H2 r).fchecksum = b.fchecksum := by
  obtain ⟨H2, b, w2, e, _, g2, g3, _⟩ := C48_total env bb w nm n L H0 H1 fs0 fs1 hw hne hn hs hl hsv hname hfl
  refine ⟨H2, b, w2, e, fun f hf => ?_, fun r => (g3 r).1⟩
  rw [g2 f hf, rankSum_const hc]

/-- The block of `exRanks` under the name the collective functions give it. -/
def exShared : Block := { exBlock with basename := b!"d/x/", attrset := exB.attrset, fchecksum := [5, 0, 7] }

theorem exShared_layout : Layout exShared := ⟨by decide, by decide, by decide, by decide, by decide, by decide⟩

/-- Handles `H` of a block like `exShared` can be used for the collective write of `exRanks`. -/
theorem exSharedWrite {bb : Block} {H : Nat → Block} (hbb : SameShape exShared bb) (h : ∀ r, r < 3 → SameShape bb (H r) ∧ Layout (H r)) :
    CollectiveWrite exEnv bb 4 1 3 (fun r => { exRanks r with bb := H r }) 1 exRankRows
      (fun r => if r = 2 then 4 else 8) exRankStored := by
  have e := exCollective
  have hb : ∀ r, r < 3 → BlockOk exEnv (H r) 4 1 := by
    intro r hr
    obtain ⟨hs, hl⟩ := h r hr
    have hs := hbb.trans' hs
    have := exBlockOk
    refine ⟨hl, ?_, by decide, ?_, by decide, by decide, by decide, by decide, ?_⟩
    · rw [hs.dtype]; exact this.item
    · rw [hs.nmemb]; exact this.memb
    · rw [hs.fsize]; exact this.offs
  refine ⟨⟨e.procs, hb, fun r hr => (h r hr).1, fun r hr => hbb.pointsTo
    ⟨(e.points r hr).file, (e.points r hr).row, (e.points r hr).nonneg, (e.points r hr).holds⟩, e.dims, e.size, e.strides, ?_, ?_, e.count⟩,
    e.dis, ?_⟩
  · intro r hr h0
    have := e.arr r hr h0
    have b := hb r hr
    exact ⟨b.layout, b.item, b.item0, b.memb, b.memb0, b.felInt, b.buf, b.bufMax, b.offs, this.arr, this.asize, this.anorm,
      this.aitem, this.aitem0, this.abytes⟩
  · rw [hbb.size]; exact e.range
  · rw [hbb.dtype]; exact e.conv

/-- The handle that was flushed. -/
def exSharedD : Block := { exShared with dirty := true }

/-- A disk where `exShared` has been stored. -/
def exSharedW : World := ⟨flushFS exSharedD [] exW.fs, noFaults, 0⟩

theorem exSharedW_attr (id : FileId) (h : id ≠ .header) : exSharedW.fs.node (fileKey exShared.basename id) =
    exW.fs.node (fileKey exShared.basename id) := by
  by_cases h2 : id = .attrV2
  · subst h2
    exact (flushFS_attr exSharedD [] exW.fs).trans (if_neg (by decide))
  · exact flushFS_other exSharedD [] exW.fs _ (fileKey_ne h) (fileKey_ne h2)

theorem exShared_says : HeaderSays exSharedW.fs exShared := by
  have h : exSharedW.fs.node (fileKey exShared.basename .header) = some (.file (headerText exSharedD)) :=
    (flushFS_header exSharedD [] exW.fs).trans (if_pos rfl)
  unfold HeaderSays FS.bytes
  rw [h]
  exact ⟨rfl, parseHeader_headerText exSharedD ⟨exB_good.dt, by decide, by decide, by decide, by decide,
    by decide, by decide, by decide⟩⟩

theorem exShared_attrs : AttrsSay exEnv exSharedW.fs exShared.basename (attrView exEnv.m exShared.attrset) := by
  rw [show attrView exEnv.m exShared.attrset = findE [] from ((attrsetCreate_inv exEnv).dirty false).view_eq]
  obtain ⟨s1, s2, h1, h2, h3, h4⟩ := exAttrsSay
  have e : ∀ id, fileKey exShared.basename id = fileKey b!"d/x" id := by
    intro id
    rw [fileKey_eq, fileKey_eq]
    exact congrArg (· ++ [id.name]) (by decide)
  refine ⟨s1, s2, ?_, ?_, h3, h4⟩
  · have : exSharedW.fs.node (fileKey b!"d/x" .attr) = exW.fs.node (fileKey b!"d/x" .attr) := by
      rw [← e]; exact exSharedW_attr .attr (by simp)
    rw [← h1, ← readsV1_congr this]
    unfold readsV1
    rw [e]
  · have : exSharedW.fs.node (fileKey b!"d/x" .attrV2) = exW.fs.node (fileKey b!"d/x" .attrV2) := by
      rw [← e]; exact exSharedW_attr .attrV2 (by simp)
    rw [← h2, ← readsV2_congr this]
    unfold readsV2
    rw [e]

theorem exShared_dir : DirOk exSharedW.fs exShared.basename := by
  refine ⟨?_, ?_, ?_⟩
  · have h : exSharedW.fs.node (resolve exShared.basename) = exW.fs.node (resolve exShared.basename) :=
      flushFS_other exSharedD [] exW.fs _ (resolve_ne_fileKey _ _) (resolve_ne_fileKey _ _)
    rw [h]
    decide +kernel
  · rw [show exSharedW.fs.node (fileKey exShared.basename .header) = _ from
      (flushFS_header exSharedD [] exW.fs).trans (if_pos rfl)]
    simp
  · rw [exSharedW_attr _ (by simp)]
    decide +kernel

theorem exShared_savable : Savable exEnv exShared :=
  ⟨exFmt, ⟨exB_good.dt, by decide, by decide, by decide, by decide, by decide, by decide, by decide⟩, by decide, by decide,
    exB_savable.attrs, exB_savable.storable, by decide, by decide⟩

/-- A collective write of `exRanks` with these handles succeeds. -/
theorem exShared_writes {bb : Block} {H : Nat → Block} {fs : FS} (hbb : SameShape exShared bb)
    (h : ∀ r, r < 3 → SameShape bb (H r) ∧ Layout (H r)) (hdata : DataFiles fs bb) :
    ∃ H1 fs1, Writes exEnv bb 4 1 3 [(1, allRows 3 exRankRows 1 exRankStored)] H fs H1 fs1 := by
  have hF : NoCrash faultless := by intro r t m; simp [faultless, noFaults]
  obtain ⟨_, _, es, s, _, hrun, _, hout⟩ := write_run (exSharedWrite hbb h) 2 1 (by decide) hF fs
  rcases hout with ⟨st, hst, _⟩ | ⟨hbad, _⟩
  · exact ⟨_, _, .cons (R := fun r => { exRanks r with bb := H r }) (fun r _ => rfl) (exSharedWrite hbb h) (by decide) hF hrun
      (fun r hr => (hst r hr).1) (.nil _ _)⟩
  · exact absurd ⟨fun _ _ => rfl, hdata⟩ hbad

theorem exSharedW_data : DataFiles exSharedW.fs exShared := by
  have : ∀ f < 3, exW.fs.node (fileKey exShared.basename (.data f)) = some (.file []) := by decide +kernel
  intro f hf
  exact ⟨[], (exSharedW_attr _ (by simp)).trans (this f hf)⟩

/-- **C48 is false** for blocks that existed before: the block `exShared` has the checksum 5 of file 0 on disk;
three processes open it, write a row whose bytes add up to 10 to file 0, and flush; the stored checksum is then
25, not 15. -/
theorem C48_false : ∃ H0 w1 H1 fs1, mpiOpen exEnv exShared.basename exSharedW = .ok (0, some H0) w1 ∧
    Writes exEnv exShared 4 1 3 [(1, allRows 3 exRankRows 1 exRankStored)] H0 exSharedW.fs H1 fs1 ∧
    exShared.fchecksum.getD 0 0 + bytesWritten exShared [(1, allRows 3 exRankRows 1 exRankStored)] 0 = 15 ∧
    ∃ H2 b w2, flushOpen exEnv 3 H1 ⟨fs1, noFaults, 0⟩ = .ok ((0, H2), 0, some b) w2 ∧ b.fchecksum.getD 0 0 = 25 := by
  obtain ⟨H0, w1, h1, _, h3, h4⟩ := C48_opened exEnv exShared exSharedW 4 1 3 rfl exShared_savable exShared_layout (by decide)
    exShared_dir exShared_says exShared_attrs (by decide)
  obtain ⟨H1, fs1, hw⟩ := exShared_writes (H := H0) (.rfl' _) (fun r _ => ⟨(h3 r).1, (h3 r).2.1⟩) exSharedW_data
  obtain ⟨H2, b, w2, e, g, _⟩ := h4 _ H1 fs1 hw ⟨_, List.mem_singleton.mpr rfl, by decide⟩
  refine ⟨H0, w1, H1, fs1, h1, hw, by decide, H2, b, w2, e, ?_⟩
  rw [g 0 (by decide)]
  decide

/-- The world after a collective create of three files. -/
def exMade : Res (Int × Option (Nat → Block)) := mpiCreateRoot exEnv b!"d" b!"x" (some b!"i4") 1 [2, 0, 3] exEmpty

/-- After a collective create, a write of 10 in one row of file 0 by three processes and a flush, the checksum
of file 0 is 10. -/
example : ∃ H0 w1 fs0 H1 fs1, exMade = .ok (0, some H0) w1 ∧
    Writes exEnv (H0 0) 4 1 3 [(1, allRows 3 exRankRows 1 exRankStored)] H0 fs0 H1 fs1 ∧
    ∃ H2 b w2, flushOpen exEnv 3 H1 ⟨fs1, noFaults, 0⟩ = .ok ((0, H2), 0, some b) w2 ∧ b.fchecksum.getD 0 0 = 10 := by
  have hns : NoSilent exEmpty.faults := by intro i n; simp [exEmpty, noFaults]
  have hp : mpiPath b!"d" b!"x" = b!"d/x/" := by decide
  obtain ⟨rc, H, w1, e⟩ : ∃ rc H w1, exMade = .ok (rc, H) w1 := by
    have : exMade.val?.isSome = true := by decide +kernel
    cases h : exMade with
    | ok r w1 => exact ⟨r.1, r.2, w1, rfl⟩
    | crash _ => rw [h] at this; cases this
    | ub => rw [h] at this; cases this
    | hang => rw [h] at this; cases this
  have hrc : rc = 0 := by
    have : exMade.val?.map (·.1) = some 0 := by decide +kernel
    rw [e] at this
    exact Option.some.inj this
  subst hrc
  rcases wpc_ok (mpiCreateRoot_ok hns (by rw [hp]; decide) (by rw [hp]; decide)) e with h | ⟨h, fs, hd, hf1⟩
  · exact absurd rfl h
  injection h with _ h
  subst h
  let nb := freshBlock exEnv (mpiPath b!"d" b!"x") b!"i4" 1 [2, 0, 3]
  have hl : Layout nb := freshBlock_layout (by decide)
  have hwa : WellAttrs exEnv.m nb.attrset := ⟨[], (attrsetCreate_inv exEnv).dirty false⟩
  have hbc := mpiBroadcast_same (env := exEnv) (b := nb) hl (by decide) (by decide) hwa
  have hbb : SameShape exShared nb := ⟨by decide, rfl, by decide, by decide, rfl, by decide, rfl⟩
  have hbb0 : SameShape exShared (mpiBroadcast exEnv nb 0) := hbb.trans' (hbc 0).1
  let fs0 := truncFS b!"d/x/" 0 3 w1.fs
  have hkeep : ∀ k, (∀ f, k ≠ fileKey b!"d/x/" (.data f)) → fs0.node k = w1.fs.node k :=
    fun k hk => truncFS_other _ _ _ _ _ (fun f _ _ => hk f)
  have hw1 : (exMade.world exEmpty) = w1 := by rw [e]; rfl
  obtain ⟨H1, fs1, hw⟩ := exShared_writes (fs := fs0) hbb0
    (fun r _ => ⟨(hbc 0).1.symm'.trans' (hbc r).1, (hbc r).2.2⟩) (by
      intro f hf
      rw [hbb0.base]
      exact ⟨[], truncFS_data _ _ _ _ f (by omega) (by rw [hbb0.nfile] at hf; have : exShared.nfile = 3 := rfl; omega)⟩)
  obtain ⟨H2, b, w2, g1, _, g3, _⟩ := C48_created_partial exEnv b!"d" b!"x" b!"i4" 1 [2, 0, 3] exEmpty w1 _ H1 fs0 fs1 4 1 3 _
    e hns exFmt (by rw [hp]; decide) (by rw [hp]; decide) (by rw [hp]; decide) exB_good.dt (by decide) (by decide) (by decide)
    (by decide +kernel)
    (by
      refine ⟨?_, ?_, ?_⟩
      · rw [hkeep _ (fun f => by rw [hp]; exact resolve_ne_fileKey _ _), ← hw1]; decide +kernel
      · rw [hkeep _ (fun f => by rw [hp]; exact fileKey_ne (by simp)), ← hw1]; decide +kernel
      · rw [hkeep _ (fun f => by rw [hp]; exact fileKey_ne (by simp)), ← hw1]; decide +kernel)
    (fun id hid => hkeep _ (fun f => by rw [hp]; exact fileKey_ne (hid f)))
    (by rw [← hw1]; decide +kernel) hw ⟨_, List.mem_singleton.mpr rfl, by decide⟩ (by decide)
  refine ⟨_, w1, fs0, H1, fs1, e, hw, H2, b, w2, g1, ?_⟩
  rw [g3 0 (by decide)]
  decide

/-! ## C61: collective and serial open and create -/

/-- **C61, opening** (partial: not for the block `.`, see `C61_root_open`, and not for a file whose name is
empty). In every world, whatever fails: a collective open ends like `big_file_open_block` does, with the same code; on
success every process holds the handle that `big_file_open_block` returns, except that its name ends in a slash. -/
theorem C61_open_partial (env : Env) (bf name : CStr) (hbf : bf ≠ []) (hlen : (mpiPath bf name).length ≤ 8192)
    (hmeta : isMeta (pathJoin bf name) = false) :
    mpiOpenBlock env bf name = openBlock env bf name >>= fun
      | (0, some bb) => pure (0, some (mpiBroadcast env { bb with basename := mpiPath bf name }))
      | (rc, _) => pure (rc, none) := by
  have hl : (pathJoin bf name).length ≤ 8192 := by
    have : (pathJoin bf name).length ≤ (mpiPath bf name).length := by
      unfold pathJoin mpiPath
      split
      · rename_i h; simp; omega
      · split <;> simp <;> omega
    omega
  unfold mpiOpenBlock mpiOpen openBlock
  rw [blockOpen_named (resolve_mpiPath bf name hbf) hlen hl ((isMeta_mpiPath bf name).trans hmeta.symm) env, bind_mapRes]
  congr 1
  funext x
  obtain ⟨rc, o⟩ := x
  cases o with
  | none =>
    match rc with
    | .ofNat 0 => rfl
    | .ofNat (k + 1) => rfl
    | .negSucc k => rfl
  | some b =>
    dsimp only [Option.map_some]
    by_cases h0 : rc = 0
    · subst h0; rfl
    · match rc, h0 with
      | .ofNat (k + 1), _ => rfl
      | .negSucc k, _ => rfl

/-- **C61 is false for the block `.`**, which holds the attributes of the file itself: it exists and
`big_file_open_block` opens it, but the collective open looks for a header and fails. -/
theorem C61_root_open :
    ((openBlock exEnv b!"d" b!"." exEmpty).val?.map (·.1)) = some 0 ∧
    ((mpiOpenBlock exEnv b!"d" b!"." exEmpty).val?.map (·.1)) = some (-1) := by
  decide +kernel

/-- `big_file_create_block` of `.` makes no header; the collective create makes one in the file's directory. -/
theorem C61_root_create :
    ((createBlock exEnv b!"d" b!"." none 0 [] exEmpty).world exEmpty).fs.node (fileKey b!"d" .header) = none ∧
    (((mpiCreateRoot exEnv b!"d" b!"." none 0 [] exEmpty).world exEmpty).fs.node (fileKey b!"d" .header)).isSome = true := by
  decide +kernel

/-- **C61, creating** (partial: as above, and only if emptying the data files meets no fault). If `big_file_create_block` succeeds in
some world, then in the same world the first part of the collective create succeeds with the same handle on all
processes, but for the slash; and after it, in every interleaving in which the processes empty the data files, no run
is longer than a fixed number of steps, all processes return 0, and then the files are the same as those
`big_file_create_block` leaves. -/
theorem C61_create_partial (env : Env) (bf name dt : CStr) (nmemb : Int) (fsize : List Nat) (w w' : World) (b : Block) (n : Nat)
    (err : Nat → Option CStr) (fail : Nat → CStr) (hbf : bf ≠ [])
    (hlen : (mpiPath bf name).length ≤ 8192) (hmeta : isMeta (pathJoin bf name) = false) (hn : 0 < n) (hn' : n < 2147483648)
    (hf : fsize.length < 2147483648)
    (h : createBlock env bf name (some dt) nmemb fsize w = .ok (0, some b) w') :
    ∃ H w1, mpiCreateRoot env bf name (some dt) nmemb fsize w = .ok (0, some H) w1 ∧
      H = mpiBroadcast env { b with basename := mpiPath bf name } ∧
      ∃ B, ∀ es s, Run faultless n (startTrunc n (mpiPath bf name) 0 fsize.length err fail w1.fs.node) es s → es.length ≤ B ∧
        (s.Stuck faultless n → (∀ r, r < n → ∃ e, (s.thr r).prog = .ret (0, e)) ∧ s.nodes = w'.fs.node) := by
  have hl : (pathJoin bf name).length ≤ 8192 := by
    have : (pathJoin bf name).length ≤ (mpiPath bf name).length := by
      unfold pathJoin mpiPath
      split
      · rename_i h; simp; omega
      · split <;> simp <;> omega
    omega
  have hres := resolve_mpiPath bf name hbf
  have hkey : ∀ id, fileKey (mpiPath bf name) id = fileKey (pathJoin bf name) id := fun id => by rw [fileKey_eq, fileKey_eq, hres]
  unfold createBlock at h
  change M.bind (mksubdirR bf name) _ w = _ at h
  unfold M.bind at h
  cases hmk : mksubdirR bf name w with
  | crash _ => rw [hmk] at h; cases h
  | ub => rw [hmk] at h; cases h
  | hang => rw [hmk] at h; cases h
  | ok rc wa =>
  rw [hmk] at h
  have hwa := wpc_ok (wpc_mksubdirR bf name w) hmk
  have hrc : rc = 0 := by
    refine Decidable.byContradiction fun hrc => ?_
    simp only [ne_eq, hrc, not_false_eq_true, if_true] at h
    injection h with h
    injection h with h
    exact absurd h (by decide)
  subst hrc
  simp only [ne_eq, not_true_eq_false, if_false] at h
  -- the serial create from here
  unfold blockCreate at h
  change M.bind (createInternal env (pathJoin bf name) (some dt) nmemb fsize) _ wa = _ at h
  unfold M.bind at h
  cases hci : createInternal env (pathJoin bf name) (some dt) nmemb fsize wa with
  | crash _ => rw [hci] at h; cases h
  | ub => rw [hci] at h; cases h
  | hang => rw [hci] at h; cases h
  | ok x wb =>
  rw [hci] at h
  have hcr := wpc_ok (wpc_createInternal hl hmeta) hci
  obtain ⟨hfb, _, hx, _⟩ := hcr
  rcases hx with rfl | ⟨rfl, _, hfl⟩
  · change Res.ok _ _ = _ at h
    injection h with h
    injection h with h
    exact absurd h (by decide)
  let nb := freshBlock env (pathJoin bf name) dt nmemb fsize
  change M.bind (truncFiles nb.basename 0 nb.nfile) _ wb = _ at h
  unfold M.bind at h
  cases htr : truncFiles nb.basename 0 nb.nfile wb with
  | crash _ => rw [htr] at h; cases h
  | ub => rw [htr] at h; cases h
  | hang => rw [htr] at h; cases h
  | ok ok wc =>
  rw [htr] at h
  have htw := wpc_ok (wpc_truncFiles nb.basename nb.nfile 0 wb) htr
  cases ok with
  | false =>
    change Res.ok _ _ = _ at h
    injection h with h
    injection h with h
    exact absurd h (by decide)
  | true =>
  change Res.ok _ _ = _ at h
  injection h with h hw
  injection h with _ h
  injection h with h
  subst h hw
  obtain ⟨_, j, _, hfs, hj, _⟩ := htw
  have hj := hj rfl
  subst hj
  refine ⟨mpiBroadcast env (nb.named (mpiPath bf name)), wb, ?_, rfl, ?_⟩
  · unfold mpiCreateRoot
    show M.bind (mksubdirR bf name) _ w = _
    unfold M.bind
    rw [hmk]
    simp only [ne_eq, not_true_eq_false, if_false]
    show M.bind (createInternal env (mpiPath bf name) (some dt) nmemb fsize) _ wa = _
    rw [createInternal_named hres hlen hl ((isMeta_mpiPath bf name).trans hmeta.symm) (hasBlank_mpiPath bf name hbf)]
    unfold M.bind M.mapRes
    simp only [hci]
    rfl
  · obtain ⟨B, hB⟩ := C43_truncate n (mpiPath bf name) 0 fsize.length err fail wb.fs.node faultless hn hn' hf
      (by intro r t m; simp [faultless, noFaults])
    refine ⟨B, fun es s hr => ?_⟩
    obtain ⟨h1, _, _, h4, h5⟩ := hB es s hr
    refine ⟨h1, fun hs => ?_⟩
    obtain ⟨rc, g1, g2, g3⟩ := h5 hs
    have hcan := wpc_ok (truncFiles_can nb.basename nb.nfile 0 wb) htr rfl
    have hb : nb.basename = pathJoin bf name := rfl
    have hnfile : nb.nfile = fsize.length := rfl
    rw [hb, hnfile] at hcan hfs
    have h0 := g3 (fun _ _ => rfl) (fun i hi => by
      rw [hres, hkey, Nat.zero_add]
      exact hcan i (by omega) (by omega))
    subst h0
    refine ⟨g1, ?_⟩
    funext k
    rw [hfs]
    by_cases hk : ∃ i, i < fsize.length ∧ k = fileKey (pathJoin bf name) (.data i)
    · obtain ⟨i, hi, rfl⟩ := hk
      rw [truncFS_data _ _ _ _ i (by omega) (by omega)]
      have := (g2 rfl).1 i hi
      rwa [hkey, Nat.zero_add] at this
    · rw [truncFS_other _ _ _ _ _ (fun f _ hf he => hk ⟨f, by omega, he⟩)]
      exact h4 k (fun i hi he => hk ⟨i, hi, by rw [he, hkey, Nat.zero_add]⟩)

/-- Three processes create the block `d/x` with the file sizes 2, 0 and 3 together. -/
example : ∃ H w1, mpiCreateRoot exEnv b!"d" b!"x" (some b!"i4") 1 [2, 0, 3] exEmpty = .ok (0, some H) w1 ∧
    ∃ B, ∀ es s, Run faultless 3 (startTrunc 3 b!"d/x/" 0 3 (fun _ => none) (fun _ => b!"disk full") w1.fs.node) es s →
      es.length ≤ B ∧ (s.Stuck faultless 3 → (∀ r, r < 3 → ∃ e, (s.thr r).prog = .ret (0, e)) ∧ s.nodes = exW.fs.node) := by
  obtain ⟨b, w', e⟩ : ∃ b w', createBlock exEnv b!"d" b!"x" (some b!"i4") 1 [2, 0, 3] exEmpty = .ok (0, some b) w' := by
    have : exCreate.val?.map (fun r => (r.1, r.2.isSome)) = some (0, true) := by decide +kernel
    unfold exCreate at this
    cases h : createBlock exEnv b!"d" b!"x" (some b!"i4") 1 [2, 0, 3] exEmpty with
    | ok r w' =>
      rw [h] at this
      obtain ⟨rc, o⟩ := r
      have h2 := Option.some.inj this
      injection h2 with h3 h4
      dsimp only at h3 h4
      subst h3
      cases o with
      | none => exact absurd h4 (by decide)
      | some b => exact ⟨b, w', rfl⟩
    | crash _ => rw [h] at this; cases this
    | ub => rw [h] at this; cases this
    | hang => rw [h] at this; cases this
  obtain ⟨H, w1, h1, _, B, h2⟩ := C61_create_partial exEnv b!"d" b!"x" b!"i4" 1 [2, 0, 3] exEmpty w' b 3 (fun _ => none)
    (fun _ => b!"disk full") (by decide) (by decide) (by decide) (by decide) (by decide) (by decide) e
  refine ⟨H, w1, h1, B, fun es s hr => ?_⟩
  have hw : exW.fs = w'.fs := by
    have : exCreate = .ok (0, some b) w' := e
    unfold exW
    rw [this]
    rfl
  rw [hw]
  exact h2 es s (by rwa [show mpiPath b!"d" b!"x" = b!"d/x/" by decide])

/-- Opening the block `d/x` collectively: in the world of `exW` the hypotheses of `C61_open_partial` hold, and the open
succeeds. -/
example : (mpiPath b!"d" b!"x").length ≤ 8192 ∧ isMeta (pathJoin b!"d" b!"x") = false ∧
    ((mpiOpenBlock exEnv b!"d" b!"x" exW).val?.map (·.1)) = some 0 := by
  refine ⟨by decide, by decide, by decide +kernel⟩

/-! ## C47: a collective flush or close reports failures -/

/-- The handle that says what a collective flush is to store: that of process 0, with the sums of the checksums. -/
def flushTarget (n : Nat) (H : Nat → Block) : Block :=
  { H 0 with fchecksum := (List.range (H 0).nfile).map fun f => rankSum n H f % 4294967296 }

/-- **C47**, flush. Some process has an unsaved write. Whatever operations fail (but none loses data silently, see `C16_silent`), a
collective flush returns 0 or -1 on all processes, and if it returns 0 the header file says what the block is, with the sums of the checksums
of all processes, and the attribute files hold the attributes of process 0. If nothing fails it returns 0. -/
theorem C47_flush_reports (env : Env) (n : Nat) (H : Nat → Block) (w : World) (hns : NoSilent w.faults) (hsv : Savable env (H 0))
    (hfl : Flushable env w.fs (H 0)) (hd : ∃ r, r < n ∧ (H r).dirty = true) :
    wpc (mpiFlush env n H) w
      (fun x w' => (x.1 = 0 ∨ x.1 = -1) ∧ (w.faults = noFaults → x.1 = 0) ∧ (x.1 = 0 → HeaderSays w'.fs (flushTarget n H) ∧
        AttrsSay env w'.fs (H 0).basename (attrView env.m (H 0).attrset)))
      (fun _ => w.faults ≠ noFaults) := by
  obtain ⟨es, hi⟩ := hsv.attrs
  let root := reducedRoot n H
  have hroot : root.dirty = true := by
    obtain ⟨r, hr, hdr⟩ := hd
    exact List.any_eq_true.mpr ⟨r, List.mem_range.mpr hr, hdr⟩
  have hsv' : Savable env root := reducedRoot_savable hsv
  have hsync : Synced env w.fs root := ⟨fun h => by rw [hroot] at h; exact absurd h (by decide), hfl.attrs⟩
  have hold := hfl.old
  rw [hi.view_eq] at hold ⊢
  obtain ⟨txt, s1, hlin, _, hh, ha⟩ := flushFS_says (bb := root) hsv' hi hold hsync
  unfold mpiFlush
  rw [wpc_bind]
  apply wpc_mono (wpc_blockFlush env root txt s1 w hlin)
  · rintro ⟨rc, bb'⟩ w1 ⟨_, _, k3, k4, k5⟩
    have hdone : rc = 0 → HeaderSays w1.fs (flushTarget n H) ∧ AttrsSay env w1.fs (H 0).basename (findE es) := by
      intro h0
      rw [(k4 h0).2 hns]
      exact ⟨hh, ha⟩
    by_cases hrc : rc = 0
    · subst hrc
      simp only [ne_eq, not_true_eq_false, if_false]
      rw [wpc_pure]
      exact ⟨Or.inl rfl, fun _ => rfl, fun _ => hdone rfl⟩
    · simp only [ne_eq, hrc, not_false_eq_true, if_true]
      rw [wpc_pure]
      exact ⟨k3, fun h => k5 h hfl.dir, hdone⟩
  · rintro w1 ⟨h, _⟩
    exact h

/-- **C47**, close: the same code as the flush that it makes. -/
theorem C47_close_reports (env : Env) (n : Nat) (H : Nat → Block) (w : World) (hns : NoSilent w.faults) (hsv : Savable env (H 0))
    (hfl : Flushable env w.fs (H 0)) (hd : ∃ r, r < n ∧ (H r).dirty = true) :
    wpc (mpiClose env n H) w
      (fun rc w' => (rc = 0 ∨ rc = -1) ∧ (w.faults = noFaults → rc = 0) ∧ (rc = 0 → HeaderSays w'.fs (flushTarget n H) ∧
        AttrsSay env w'.fs (H 0).basename (attrView env.m (H 0).attrset)))
      (fun _ => w.faults ≠ noFaults) := by
  unfold mpiClose
  rw [wpc_bind]
  apply wpc_mono (C47_flush_reports env n H w hns hsv hfl hd)
  · rintro ⟨rc, H'⟩ w1 h
    rw [wpc_pure]
    exact h
  · intro _ h; exact h

/-- Three handles of the block `exShared`; process 1 has an unsaved write. -/
def exDirtyOne (r : Nat) : Block := if r = 1 then { exShared with dirty := true, fchecksum := [10, 0, 7] } else exShared

theorem exDirtyOne_flushable : Flushable exEnv exSharedW.fs (exDirtyOne 0) := by
  refine ⟨exShared_dir, fun h => absurd h (by decide), fun _ => ?_⟩
  exact exShared_attrs

example := C47_close_reports exEnv 3 exDirtyOne ⟨exSharedW.fs, exFail, 0⟩ exFail_noSilent exShared_savable exDirtyOne_flushable
  ⟨1, by decide, by decide⟩

-- the failure of opening the header or of writing it is reported
example : ∀ i < 2, (mpiClose exEnv 3 exDirtyOne ⟨exSharedW.fs, fun t => if t = i then .fail else .none, 0⟩).val? = some (-1) := by
  decide +kernel

example : (flushTarget 3 exDirtyOne).fchecksum = [20, 0, 21] := by decide +kernel

end Verif
