import Verif.Proof.PyMpi
import Verif.Props.Python
import Verif.Props.RecordsAll
/-!
# C85: arrays that are distributed over processes
-/

set_option autoImplicit false

namespace Verif

open Spec

variable {env : Env} {K : Kind} {A : Content} {bb : Block} {w : World} {n : Nat} {H : Nat → Block} {src : Nat → PySource}

/-- The handle of rank 0 after the checksums were summed. -/
theorem reduced_holds {Y : Nat → Block} {bd : Block} {fs fs' : FS} (hn : 0 < n) (h : Holds env K (H 0) fs A) (hd : (H 0).dirty = false)
    (hs : ∀ r, r < n → SameShape bd (H r)) (hz : ∀ r, r < n → ∀ f, (H r).fchecksum.getD f 0 = 0)
    (hlen : ∀ i, i < (joinedRows n src).length → ((joinedRows n src).getD i []).length = K.nm * K.w) (hsz : (joinedRows n src).length ≤ A.size)
    (hfs : fs'.node = putList env.m bd 0 (joinedRows n src) fs.node)
    (hY : ∀ r, r < n → ∃ nd1 nd2, Wrote env.m (H r) (Y r) (joinedRows r src).length (srcRows (src r) 0) nd1 nd2) :
    Holds env K (reducedRoot n Y) fs' { A with rows := fun r => if r < (joinedRows n src).length then some ((joinedRows n src).getD r []) else A.rows r } := by
  have hrs := h.rowSize
  have h1 := h.rowsPut 0 (joinedRows n src) (by omega) (fun i hi => by rw [hlen i hi, hrs]) (fs' := fs')
    (by rw [hfs, putList_shape (hs 0 hn)])
  simp only [Nat.zero_le, true_and, Nat.zero_add, Nat.sub_zero] at h1
  obtain ⟨_, _, w0⟩ := hY 0 hn
  have hm : Mate env (H 0) (Y 0) := ⟨w0.shape, w0.layout, by rw [w0.attrs]; exact h.savable.attrs, by rw [w0.attrs], by rw [w0.attrs]⟩
  have hm2 := reducedRoot_mate (n := n) h hm
  refine h1.handle hm2 fun hdirty => ?_
  have hnone : ∀ r, r < n → (Y r).dirty = false := by
    have : (List.range n).any (fun r => (Y r).dirty) = false := hdirty
    rw [List.any_eq_false] at this
    intro r hr
    simpa using this r (List.mem_range.mpr hr)
  have hnil : ∀ r, r < n → srcRows (src r) 0 = [] := by
    intro r hr
    obtain ⟨_, _, wr⟩ := hY r hr
    have := wr.dirty
    rw [hnone r hr] at this
    cases hl : srcRows (src r) 0 with
    | nil => rfl
    | cons a l => rw [hl] at this; simp at this
  have hh := h1.header hd
  have hck : (reducedRoot n Y).fchecksum = (H 0).fchecksum := by
    have hnf : (Y 0).nfile = (H 0).nfile := w0.shape.nfile
    apply List.ext_getElem?
    intro f
    have l1 : (reducedRoot n Y).fchecksum.length = (H 0).nfile := by
      show (reducedChecksums n Y).length = _
      simp [reducedChecksums, hnf]
    have l2 := h.ok.layout.nck
    by_cases hf : f < (H 0).nfile
    · have e1 := reducedChecksums_get n Y f (by rw [hnf]; exact hf)
      have e2 := hz 0 hn f
      have e3 : rankSum n Y f % 4294967296 = 0 := by
        have : ∀ k, k ≤ n → rankSum k Y f % 4294967296 = 0 := by
          intro k
          induction k with
          | zero => intro _; rfl
          | succ k ih =>
            intro hk
            have g1 := ih (by omega)
            obtain ⟨_, _, wk⟩ := hY k (by omega)
            rw [hnil k (by omega)] at wk
            have g2 := wrote_nil wk f (hz k (by omega) f)
            rw [rankSum_succ]
            omega
        exact this n (Nat.le_refl _)
      rw [e3] at e1
      have e1 : (reducedRoot n Y).fchecksum.getD f 0 = 0 := e1
      rw [List.getD_eq_getElem?_getD, List.getElem?_eq_getElem (by omega)] at e1 e2
      rw [List.getElem?_eq_getElem (by omega), List.getElem?_eq_getElem (by omega)]
      simp only [Option.getD_some] at e1 e2
      rw [e1, e2]
    · rw [List.getElem?_eq_none (by omega), List.getElem?_eq_none (by omega)]
  unfold HeaderSays at hh ⊢
  rw [hm2.shape.base, hm2.shape.dtype, hm2.shape.nmemb, hm2.shape.nfile, hm2.shape.fsize, hck]
  exact hh

/-- The rows of the joined array. -/
theorem joined_rows (hs : ∀ r, r < n → SourceOk env K (src r)) (i : Nat) (hi : i < (joinedRows n src).length) :
    ((joinedRows n src).getD i []).length = K.nm * K.w := by
  rw [List.getD_eq_getElem?_getD, List.getElem?_eq_getElem hi, Option.getD_some]
  have hm := List.getElem_mem hi
  generalize (joinedRows n src)[i] = x at hm
  unfold joinedRows at hm
  simp only [List.mem_flatMap, List.mem_range, List.mem_map] at hm
  obtain ⟨r, hr, k, hk, rfl⟩ := hm
  exact (hs r hr).rows k hk

/-- Rank 0 makes the block and flushes it. -/
theorem createRoot_ok {bf name : CStr} {nf : Nat} (h : CanCreate env K w bf name (joined n src) nf) (hn : 0 < n) (hs : SourceOk env K (src 0)) :
    ∃ b2 w2, pyCreateRoot env bf name (src 0) nf (joined n src).size w = .ok none w2 ∧ w2.faults = noFaults ∧ b2.basename = pathJoin bf name ∧
      b2.dirty = false ∧ (∀ f, b2.fchecksum.getD f 0 = 0) ∧ Holds env K b2 w2.fs (Content.fresh (pySizes nf (joined n src).size)) := by
  obtain ⟨b1, w1, e1, hb1, hd1, nf1, h1⟩ := h.created
  have hck1 : ∀ f, b1.fchecksum.getD f 0 = 0 := by
    obtain ⟨w1', e1'⟩ := createBlock_succeeds (env := env) (dt := (joined n src).dtype) (nmemb := pyItems (joined n src).inner)
      (fsize := pySizes nf (joined n src).size) (name := name) h.faults h.file h.dir h.short h.notMeta h.noBlank h.room
    rw [e1'] at e1
    injection e1 with e1 _
    injection e1 with _ e1
    injection e1 with e1
    subst e1
    intro f
    rw [List.getD_eq_getElem?_getD]
    cases hx : (freshBlock env (pathJoin bf name) (joined n src).dtype (pyItems (joined n src).inner)
      (pySizes nf (joined n src).size)).fchecksum[f]? with
    | none => rfl
    | some x => exact List.eq_of_mem_replicate (List.mem_of_getElem? hx)
  obtain ⟨b2, w2, e2, nf2, s2, c2, d2, _, h2⟩ := h1.flushes nf1
  have hroot : pyCreateRoot env bf name (src 0) nf (joined n src).size w = .ok none w2 := by
    unfold pyCreateRoot
    have hinner : ¬ 1 < (src 0).inner.length := by
      rcases hs.inner with ⟨h1, _⟩ | h1 <;> rw [h1] <;> simp
    rw [if_neg (by rintro ⟨k1, k2⟩; rcases h.files with h5 | h5 <;> omega), if_neg hinner]
    show M.bind (createBlock env bf name (some (src 0).dtype) (pyItems (src 0).inner) (pySizes nf (joined n src).size)) _ w = _
    rw [M.bind, show createBlock env bf name (some (src 0).dtype) (pyItems (src 0).inner) (pySizes nf (joined n src).size) w =
      .ok (0, some b1) w1 from e1]
    show M.bind (blockFlush env b1) _ w1 = _
    rw [M.bind, e2]
    rfl
  have hA2 : (Content.fresh (pySizes nf (joined n src).size)).next env K .flush = Content.fresh (pySizes nf (joined n src).size) := by
    simp [Content.next, Content.fresh]
  rw [hA2] at h2
  exact ⟨b2, w2, hroot, nf2, s2.base.trans hb1, d2, fun f => by rw [c2]; exact hck1 f, h2⟩

/-- **C85** (partial: nothing fails, the arrays of all processes have the same dtype, no files of an older block are in the way, and the
memory limit is at least 1024 rows; see `C85_root_fails` and `C85_small_limit`). `FileMPI.create_from_array`, called by `n`
processes, each with its part of a distributed array: however the file operations of the processes are interleaved, every process gets a
column that holds the rows of the parts one after another in rank order, in the number of files asked for. Everything is on disk,
and the checksums are those of a block that one process wrote. -/
theorem C85_create_from_array_partial (env : Env) (K : Kind) (n : Nat) (bf name : CStr) (src : Nat → PySource) (nfile : Option Nat)
    (memorylimit : Nat) (buf : Int) (mem : Nat → Mem) (w : World) (hn : 0 < n)
    (h : CanCreate env K w bf name (joined n src) (pyNfile nfile (joined n src).size)) (hs : ∀ r, r < n → SourceOk env K (src r))
    (hname : (0 : Byte) ∉ pathJoin bf name) (hlim : 1024 * (K.w * K.nm) ≤ memorylimit) :
    (createFromArrayAll env n bf name src nfile memorylimit buf mem).Ensures faultless w fun x w' => w'.faults = noFaults ∧
      OnDisk env K w'.fs (pathJoin bf name) (ofSource (joined n src) (pyNfile nfile (joined n src).size)) ∧
      ∀ r, r < n → ∃ b, x r = .ok b ∧ b.basename = pathJoin bf name ∧
        Holds env K b w'.fs (ofSource (joined n src) (pyNfile nfile (joined n src).size)) ∧
        ∀ f, f < b.nfile → b.fchecksum.getD f 0 = rowsSum b 0 (joined n src).row f (joined n src).size % 4294967296 := by
  have hpos : 0 < K.w * K.nm := Nat.mul_pos h.item0 h.memb0
  have hrb : ∀ r, r < n → pyRowBytes env (src r) = K.w * K.nm := by
    intro r hr
    unfold pyRowBytes
    rw [(hs r hr).item, Int.toNat_natCast]
    unfold pyItems
    rcases (hs r hr).inner with ⟨h1, h2⟩ | h1
    · rw [h1, h2]; rfl
    · rw [h1]; rfl
  have hL : 0 < pyItemlimit memorylimit (K.w * K.nm) := by
    unfold pyItemlimit
    have h1 : 1024 ≤ memorylimit / (K.w * K.nm) := (Nat.le_div_iff_mul_le hpos).mpr hlim
    generalize memorylimit / (K.w * K.nm) = q at *
    omega
  have hsize : ((List.range n).map fun r => (src r).size).sum = (joined n src).size := (joinedRows_length n src).symm
  have hsum := pySizes_sum _ _ h.files
  unfold createFromArrayAll
  dsimp only
  rw [hsize]
  rw [goOn_none (fun r hr => if_neg (by rw [hrb r hr]; omega))]
  generalize hnf0 : pyNfile nfile (joined n src).size = nf at *
  -- rank 0 makes the block
  obtain ⟨b2, w2, hroot, nf2, hbase2, d2, hck2, h2⟩ := createRoot_ok h hn (hs 0 hn)
  apply Phases.ensures_bind
  refine Phases.ensures_alone hroot ?_
  rw [goOn_none (fun r _ => by split <;> rfl)]
  -- all open it
  refine mpiOpen_ok hn h2 hbase2 rfl rfl d2 nf2 ?_
  intro H w3 f3 nf3 hH
  -- all write
  have hfresh : (Content.fresh (pySizes nf (joined n src).size)).size = (joined n src).size := hsum
  have hloops : LoopsOk env K n src (fun r => pyItemlimit memorylimit (pyRowBytes env (src r))) H b2 := by
    refine ⟨hs, fun r hr => by rw [hrb r hr]; exact hL, fun r hr => (hH r hr).2.2.2.ok, fun r hr => (hH r hr).2.2.2.kind,
      fun r hr => (hH r hr).1, ?_⟩
    rw [h2.size, hfresh]
    exact Nat.le_refl _
  obtain ⟨B, Y, hB⟩ := loops_all hloops buf mem (nd := w3.fs.node) (by
    have : DataFiles w2.fs b2 := h2.data
    rw [← f3] at this
    exact this)
  apply Phases.ensures_bind
  refine Phases.ensures_together (fun r _ => rfl) ⟨B, fun es s hrun => ⟨(hB es s hrun).1, fun hst => ?_⟩⟩
  obtain ⟨g1, g2, g3⟩ := (hB es s hrun).2 hst
  refine ⟨Y, g1, fun out dom _ hout => ?_⟩
  have hz : ∀ r, r < n → ∀ f, (H r).fchecksum.getD f 0 = 0 := by
    intro r hr f
    rw [(hH r hr).2.1]
    exact hck2 f
  have hsh : ∀ r, r < n → SameShape b2 (H r) := fun r hr => (hH r hr).1
  have hwrote : ∀ r, r < n → ∃ nd1 nd2, Wrote env.m (H r) (out r).2.1 (joinedRows r src).length (srcRows (src r) 0) nd1 nd2 := by
    intro r hr
    rw [hout r hr]
    exact (g3 r hr).2
  have h4 := reduced_holds (Y := fun r => (out r).2.1) (fs' := ⟨s.nodes, dom⟩) hn (hH 0 hn).2.2.2 (hH 0 hn).2.2.1 hsh hz
    (joined_rows hs) (Nat.le_of_eq hfresh.symm) (by rw [← f3]; exact g2) hwrote
  have hsums : ∀ f, f < b2.nfile → (reducedRoot n fun r => (out r).2.1).fchecksum.getD f 0 =
      rowsSum b2 0 (joined n src).row f (joined n src).size % 4294967296 := by
    intro f hf
    obtain ⟨_, _, w0⟩ := hwrote 0 hn
    show (reducedChecksums n fun r => (out r).2.1).getD f 0 = _
    rw [reducedChecksums_get _ _ _ (by rw [w0.shape.nfile, (hsh 0 hn).nfile]; exact hf), rankSum_joined hsh hz hwrote f n (Nat.le_refl _)]
    rfl
  -- rank 0 flushes
  have hshape : SameShape b2 (reducedRoot n fun r => (out r).2.1) := by
    obtain ⟨_, _, w0⟩ := hwrote 0 hn
    have := (hsh 0 hn).trans' w0.shape
    exact ⟨this.1, this.2, this.3, this.4, this.5, this.6, this.7⟩
  obtain ⟨b5, w5, e5, nf5, s5, c5, d5, _, h5⟩ := Spec.Holds.flushes (w := ⟨⟨s.nodes, dom⟩, w3.faults, w3.clock⟩) h4 nf3
  have hcont : Content.next env K { Content.fresh (pySizes nf (joined n src).size) with
      rows := fun r => if r < (joinedRows n src).length then some ((joinedRows n src).getD r []) else
        (Content.fresh (pySizes nf (joined n src).size)).rows r } .flush = ofSource (joined n src) nf := by
    have hsum' : (pySizes nf (joinedRows n src).length).sum = (joinedRows n src).length := hsum
    simp [Content.next, Content.fresh, ofSource, hsum', pySizes_length, joined]
  rw [hcont] at h5
  have hflush : pyMpiFlush env n (fun r => (out r).2.1) ⟨⟨s.nodes, dom⟩, w3.faults, w3.clock⟩ = .ok (0, mpiBroadcast env b5) w5 := by
    unfold pyMpiFlush
    show M.bind (blockFlush env (reducedRoot n fun r => (out r).2.1)) _ _ = _
    rw [M.bind, e5]
    rfl
  have s25 : SameShape b2 b5 := hshape.trans' s5
  have hbase5 : b5.basename = pathJoin bf name := s25.base.trans hbase2
  apply Phases.ensures_bind
  refine Phases.ensures_alone hflush ?_
  dsimp only
  rw [if_neg (by simp)]
  rw [goOn_none (fun r hr => by rw [hout r hr, (g3 r hr).1])]
  -- all open it again
  refine mpiOpen_ok hn h5 hbase5 rfl rfl d5 nf5 ?_
  intro H' w6 f6 nf6 hH'
  apply Phases.ensures_bind
  refine Phases.ensures_alone (dropRanks_clean (fun r => ?_) n) ?_
  · unfold mpiBroadcast
    split
    · exact ⟨d5, h5.pending⟩
    · have k := (C34_pack_unpack env env b5 rfl h5.ok.layout (by rw [hbase5]; exact hname) h5.savable.base h5.savable.attrs).1
      exact ⟨k.dirty.1.trans d5, k.dirty.2.trans h5.pending⟩
  · apply Phases.ensures_pure
    refine ⟨nf6, ⟨rfl, rfl, b5, hbase5, d5, by rw [f6]; exact h5⟩, fun r hr => ⟨H' r, rfl, ?_, ?_, ?_⟩⟩
    · exact (hH' r hr).1.base.trans hbase5
    · rw [f6]; exact (hH' r hr).2.2.2
    · intro f hf
      have hsr : SameShape b2 (H' r) := s25.trans' (hH' r hr).1
      rw [(hH' r hr).2.1, c5, hsums f (by rw [← hsr.nfile]; exact hf), hsr.rowsSum]

/-- Rank 0 fails to make the block, for whatever reason: it raises the exception, and the other processes wait for it for ever. -/
theorem C85_root_fails (env : Env) (n : Nat) (bf name : CStr) (src : Nat → PySource) (nfile : Option Nat)
    (memorylimit : Nat) (buf : Int) (mem : Nat → Mem) (w w' : World) (e : PyExc) (F : Nat → Nat → Fault) (hn : 2 ≤ n)
    (hrb : ∀ r, r < n → pyRowBytes env (src r) ≠ 0)
    (he : pyCreateRoot env bf name (src 0) (pyNfile nfile (joined n src).size) (joined n src).size w = .ok (some e) w')
    (Q : (Nat → Except PyExc Block) → World → Prop) :
    ¬ (createFromArrayAll env n bf name src nfile memorylimit buf mem).Ensures F w Q := by
  have hsize : ((List.range n).map fun r => (src r).size).sum = (joined n src).size := (joinedRows_length n src).symm
  unfold createFromArrayAll
  dsimp only
  rw [hsize, goOn_none (fun r hr => if_neg (hrb r hr))]
  intro h
  obtain ⟨x, w1, e1, h1⟩ := ensures_alone_elim h
  rw [he] at e1
  injection e1 with e1 e2
  subst e1 e2
  unfold pyGoOn at h1
  rw [if_neg (by
    rw [List.all_eq_true]
    intro hc
    have := hc 0 (List.mem_range.mpr (by omega))
    simp at this), if_neg (by
    rw [List.all_eq_true]
    intro hc
    have := hc 1 (List.mem_range.mpr (by omega))
    simp at this)] at h1
  exact h1

/-- Asked for no files at all, one process raises `ValueError`, as it does without MPI; several processes never return. Neither touches a
file. -/
theorem C85_no_files (env : Env) (n : Nat) (bf name : CStr) (src : Nat → PySource) (memorylimit : Nat) (buf : Int) (mem : Nat → Mem)
    (w : World) (F : Nat → Nat → Fault) (hrb : ∀ r, r < n → pyRowBytes env (src r) ≠ 0) (hsize : (joined n src).size ≠ 0) :
    (n = 1 → (createFromArrayAll env n bf name src (some 0) memorylimit buf mem).Ensures F w fun x w' => w' = w ∧ ∃ e, x 0 = .error e ∧ e = .valueError) ∧
    (2 ≤ n → ∀ Q, ¬ (createFromArrayAll env n bf name src (some 0) memorylimit buf mem).Ensures F w Q) := by
  have hroot : pyCreateRoot env bf name (src 0) (pyNfile (some 0) (joined n src).size) (joined n src).size w = .ok (some .valueError) w := by
    unfold pyCreateRoot
    rw [if_pos ⟨rfl, hsize⟩]
    rfl
  refine ⟨?_, fun hn Q => C85_root_fails env n bf name src (some 0) memorylimit buf mem w w _ F hn hrb hroot Q⟩
  intro h1
  subst h1
  have hs : ((List.range 1).map fun r => (src r).size).sum = (joined 1 src).size := (joinedRows_length 1 src).symm
  unfold createFromArrayAll
  dsimp only
  rw [hs, goOn_none (fun r hr => if_neg (hrb r hr))]
  apply Phases.ensures_bind
  refine Phases.ensures_alone hroot ?_
  exact ⟨rfl, .valueError, rfl, rfl⟩

/-- With a memory limit of less than 1024 rows every process raises `ValueError`. The block has been created, without a row. -/
theorem C85_small_limit (env : Env) (K : Kind) (n : Nat) (bf name : CStr) (src : Nat → PySource) (nfile : Option Nat)
    (memorylimit : Nat) (buf : Int) (mem : Nat → Mem) (w : World) (hn : 0 < n)
    (h : CanCreate env K w bf name (joined n src) (pyNfile nfile (joined n src).size)) (hs : ∀ r, r < n → SourceOk env K (src r))
    (hlim : memorylimit < 1024 * (K.w * K.nm)) :
    (createFromArrayAll env n bf name src nfile memorylimit buf mem).Ensures faultless w fun x w' =>
      (∀ r, r < n → ∃ e, x r = .error e ∧ e = .valueError) ∧
      OnDisk env K w'.fs (pathJoin bf name) (Content.fresh (pySizes (pyNfile nfile (joined n src).size) (joined n src).size)) := by
  have hpos : 0 < K.w * K.nm := Nat.mul_pos h.item0 h.memb0
  have hrb : ∀ r, r < n → pyRowBytes env (src r) = K.w * K.nm := by
    intro r hr
    unfold pyRowBytes
    rw [(hs r hr).item, Int.toNat_natCast]
    unfold pyItems
    rcases (hs r hr).inner with ⟨h1, h2⟩ | h1
    · rw [h1, h2]; rfl
    · rw [h1]; rfl
  have hL : pyItemlimit memorylimit (K.w * K.nm) = 0 := by
    unfold pyItemlimit
    have h1 : memorylimit / (K.w * K.nm) < 1024 := (Nat.div_lt_iff_lt_mul hpos).mpr hlim
    generalize memorylimit / (K.w * K.nm) = q at *
    omega
  have hsize : ((List.range n).map fun r => (src r).size).sum = (joined n src).size := (joinedRows_length n src).symm
  have hsum := pySizes_sum _ _ h.files
  unfold createFromArrayAll
  dsimp only
  rw [hsize]
  rw [goOn_none (fun r hr => if_neg (by rw [hrb r hr]; omega))]
  generalize hnf0 : pyNfile nfile (joined n src).size = nf at *
  obtain ⟨b2, w2, e2, nf2, hb2, d2, hck, h2⟩ := createRoot_ok h hn (hs 0 hn)
  apply Phases.ensures_bind
  refine Phases.ensures_alone e2 ?_
  rw [goOn_none (fun r _ => by split <;> rfl)]
  refine mpiOpen_ok hn h2 hb2 rfl rfl d2 nf2 ?_
  intro H w3 f3 nf3 hH
  apply Phases.ensures_bind
  refine Phases.ensures_together (P' := fun r => .ret (.error .valueError, H r, mem r)) (fun r hr => by
    unfold pyLoopP
    rw [hrb r hr, if_pos hL]
    rfl) ⟨0, fun es s hrun => ?_⟩
  cases hrun with
  | cons hst _ =>
    cases hst with
    | file r op k t a nd hr ht he => cases ht
    | coll c hne hall =>
      exfalso
      obtain ⟨r, hr⟩ := List.exists_mem_of_ne_nil _ hne
      have := (hall r hr).2
      simp [Verif.startAll, Prog.WaitsAt] at this
  | nil =>
  refine ⟨Nat.le_refl _, fun _ => ⟨_, fun r _ => rfl, fun out dom _ hout => ?_⟩⟩
  have hnone : ∀ k, joinedRows k (fun r => ({ src r with size := 0 } : PySource)) = [] := by
    intro k
    apply List.eq_nil_of_length_eq_zero
    rw [joinedRows_length]
    induction k with
    | zero => rfl
    | succ k ih => rw [List.range_succ, List.map_append, List.sum_append, ih]; rfl
  have h4 := reduced_holds (src := fun r => { src r with size := 0 }) (bd := b2) (Y := fun r => (out r).2.1) (fs' := ⟨w3.fs.node, dom⟩) hn
    (hH 0 hn).2.2.2 (hH 0 hn).2.2.1 (fun r hr => (hH r hr).1) (fun r hr f => by rw [(hH r hr).2.1]; exact hck f)
    (fun i hi => by rw [hnone] at hi; cases hi) (by rw [hnone]; exact Nat.zero_le _) (by rw [hnone, f3]; rfl) (fun r hr => by
      rw [hout r hr]
      exact ⟨w3.fs.node, w3.fs.node, .refl (hH r hr).2.2.2.ok.layout _ _⟩)
  rw [hnone] at h4
  have h4 : Holds env K (reducedRoot n fun r => (out r).2.1) ⟨w3.fs.node, dom⟩ (Content.fresh (pySizes nf (joined n src).size)) := by
    simpa using h4
  obtain ⟨b5, w5, e5, nf5, s5, c5, d5, _, h5⟩ := Spec.Holds.flushes (w := ⟨⟨w3.fs.node, dom⟩, w3.faults, w3.clock⟩) h4 nf3
  have hflush : pyMpiFlush env n (fun r => (out r).2.1) ⟨⟨w3.fs.node, dom⟩, w3.faults, w3.clock⟩ = .ok (0, mpiBroadcast env b5) w5 := by
    unfold pyMpiFlush
    show M.bind (blockFlush env (reducedRoot n fun r => (out r).2.1)) _ _ = _
    rw [M.bind, e5]
    rfl
  apply Phases.ensures_bind
  refine Phases.ensures_alone hflush ?_
  dsimp only
  rw [if_neg (by simp)]
  unfold pyGoOn
  rw [if_neg (by
    rw [List.all_eq_true]
    intro hc
    have := hc 0 (List.mem_range.mpr hn)
    dsimp only at this
    rw [hout 0 hn] at this
    simp at this), if_pos (by
    rw [List.all_eq_true]
    intro r hr
    dsimp only
    rw [hout r (List.mem_range.mp hr)]
    rfl)]
  apply Phases.ensures_pure
  refine ⟨fun r hr => ⟨_, rfl, by dsimp only; rw [hout r hr]; rfl⟩, ⟨rfl, rfl, b5, ?_, d5, ?_⟩⟩
  · have hb : (reducedRoot n fun r => (out r).2.1).basename = (H 0).basename := by
      show ((out 0).2.1).basename = _
      rw [hout 0 hn]
    exact s5.base.trans (hb.trans ((hH 0 hn).1.base.trans hb2))
  · have hA2 : (Content.fresh (pySizes nf (joined n src).size)).next env K .flush = Content.fresh (pySizes nf (joined n src).size) := by
      simp [Content.next, Content.fresh]
    rw [hA2] at h5
    exact h5

/-- Three processes with 1500, no and 1000 rows. -/
def exPyParts (r : Nat) : PySource :=
  if r = 0 then { exPySource with size := 1500 }
  else if r = 1 then { exPySource with size := 0 }
  else { exPySource with size := 1000, row := fun i => exPySource.row (1500 + i) }

theorem exPyParts_ok (r : Nat) : SourceOk exEnv exKind (exPyParts r) := by
  unfold exPyParts
  split
  · exact ⟨by decide, by decide, Or.inl ⟨rfl, rfl⟩, fun _ _ => rfl⟩
  · split <;> exact ⟨by decide, by decide, Or.inl ⟨rfl, rfl⟩, fun _ _ => rfl⟩

theorem joined_size (n : Nat) (src : Nat → PySource) : (joined n src).size = ((List.range n).map fun r => (src r).size).sum :=
  joinedRows_length n src

theorem joined_source (n : Nat) (src : Nat → PySource) (hn : 0 < n) (h : ∀ r, r < n → SourceOk env K (src r)) :
    (joined n src).dtype = (src 0).dtype ∧ SourceOk env K (joined n src) :=
  ⟨rfl, (h 0 hn).dtype, (h 0 hn).item, (h 0 hn).inner, fun i hi => joined_rows h i hi⟩

attribute [local irreducible] joined joinedRows createFromArrayAll

theorem exJoined_size : (joined 3 exPyParts).size = 2500 := by
  rw [joined_size]
  simp [exPyParts, List.range_succ]

theorem pyNfile_some (k size : Nat) : pyNfile (some k) size = k := rfl

theorem exCanCreate_of {src : PySource} (h1 : src.dtype = b!"i4") (h2 : SourceOk exEnv exKind src) (h3 : src.size = 2500) :
    CanCreate exEnv exKind exTreeWorld b!"d" b!"z" src 3 where
  fmt := exFmt
  faults := rfl
  file := by decide
  dir := by decide
  short := by decide
  notMeta := by decide
  noBlank := by decide
  room := exCopy_room
  plain := by rw [h1]; exact exB_good.dt
  source := h2
  item0 := by decide
  memb0 := by decide
  rowInt := by decide
  buf := by decide
  bufMax := by decide
  files := Or.inl (by decide)
  filesMax := by decide
  bytes := by rw [h3]; decide

theorem exCanCreate_all : CanCreate exEnv exKind exTreeWorld b!"d" b!"z" (joined 3 exPyParts) 3 := by
  obtain ⟨h1, h2⟩ := joined_source 3 exPyParts (by decide) (fun r _ => exPyParts_ok r)
  exact exCanCreate_of (by rw [h1]; simp [exPyParts, exPySource]) h2 exJoined_size

/-- The example of C85: three processes make a block of three files from their parts, in pieces of 1024 rows. -/
example : (createFromArrayAll exEnv 3 b!"d" b!"z" exPyParts (some 3) 5000 500 (fun _ => exMem)).Ensures faultless exTreeWorld fun x w' =>
    ∀ r, r < 3 → ∃ b, x r = .ok b ∧ Holds exEnv exKind b w'.fs (ofSource (joined 3 exPyParts) 3) := by
  have key := C85_create_from_array_partial exEnv exKind 3 b!"d" b!"z" exPyParts (some 3) 5000 500 (fun _ => exMem) exTreeWorld
    (by decide) (by rw [pyNfile_some]; exact exCanCreate_all) (fun r _ => exPyParts_ok r) (by decide) (by decide)
  simp only [pyNfile_some] at key
  refine Phases.ensures_mono key ?_
  rintro x w' ⟨_, _, h⟩ r hr
  obtain ⟨b, h1, _, h2, _⟩ := h r hr
  exact ⟨b, h1, h2⟩

/-- With 4000 bytes of memory all three raise `ValueError`; asked for no files, they wait for ever. -/
example : ((createFromArrayAll exEnv 3 b!"d" b!"z" exPyParts (some 3) 4000 500 (fun _ => exMem)).Ensures faultless exTreeWorld fun x _ =>
      ∀ r, r < 3 → ∃ e, x r = .error e ∧ e = .valueError) ∧
    ∀ Q, ¬ (createFromArrayAll exEnv 3 b!"d" b!"z" exPyParts (some 0) 5000 500 (fun _ => exMem)).Ensures faultless exTreeWorld Q := by
  have key := C85_small_limit exEnv exKind 3 b!"d" b!"z" exPyParts (some 3) 4000 500 (fun _ => exMem) exTreeWorld
    (by decide) (by rw [pyNfile_some]; exact exCanCreate_all) (fun r _ => exPyParts_ok r) (by decide)
  refine ⟨Phases.ensures_mono key (fun x w' h => h.1), ?_⟩
  exact (C85_no_files exEnv 3 b!"d" b!"z" exPyParts 5000 500 (fun _ => exMem) exTreeWorld faultless (by decide)
    (by rw [exJoined_size]; decide)).2 (by decide)

end Verif
