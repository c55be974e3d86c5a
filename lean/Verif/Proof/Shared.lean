import Verif.Spec.Shared
import Verif.Proof.Phases
import Verif.Proof.Copy
import Verif.Props.MpiBlock
/-!
# A block shared by several processes
-/

set_option autoImplicit false

namespace Verif

open Spec

variable {env : Env} {K : Kind} {bb : Block} {A : Content} {w : World} {n : Nat} {H : Nat → Block}

/-! ## Handles -/

/-- Another handle of the same block. -/
theorem Spec.Holds.handle {bb' : Block} {fs : FS} (h : Holds env K bb fs A) (m : Mate env bb bb')
    (hh : bb'.dirty = false → HeaderSays fs bb') : Holds env K bb' fs A := by
  have hv : attrView env.m bb'.attrset = A.attrs := m.view.trans h.attrs
  refine ⟨h.ok.shape m.shape m.layout, by rw [m.shape.dtype]; exact h.kind, m.shape.size.trans h.size, m.shape.nfile.trans h.nfile,
    h.savable.shape m.shape m.layout m.attrs (by rw [hv]; exact h.tame.1.storable), hv, m.pending.trans h.pending, h.tame, ?_, hh,
    ?_, ?_, ?_, ?_, ?_⟩
  · rw [m.shape.base]; exact h.saved
  · rw [m.shape.base]; exact h.dir
  · rw [m.shape.base]; exact h.noOld
  · rw [m.shape.base]; exact h.noDirs
  · exact (m.shape.dataFiles _).mpr h.data
  · intro r bytes hr
    rw [m.shape.row, m.shape.stored]
    exact h.rows r bytes hr

theorem Spec.Mate.refl (h : Holds env K bb w.fs A) : Mate env bb bb :=
  ⟨.rfl' _, h.ok.layout, h.savable.attrs, rfl, rfl⟩

/-- Mates of a handle whose attributes were kept. -/
theorem Spec.Mate.trans {b1 b2 b3 : Block} (h : Mate env b1 b2) (g : Mate env b2 b3) : Mate env b1 b3 :=
  ⟨h.shape.trans' g.shape, g.layout, g.attrs, g.view.trans h.view, g.pending.trans h.pending⟩

/-- What the other processes receive. -/
theorem mate_broadcast {b : Block} (hl : Layout b) (hname : (0 : Byte) ∉ b.basename) (hlen : b.basename.length ≤ 8192)
    (ha : WellAttrs env.m b.attrset) (r : Nat) : Mate env b (mpiBroadcast env b r) := by
  obtain ⟨h1, _, h3⟩ := mpiBroadcast_same hl hname hlen ha r
  unfold mpiBroadcast at h1 h3 ⊢
  split
  · exact ⟨.rfl' _, hl, ha, rfl, rfl⟩
  · rename_i hr
    rw [if_neg hr] at h1 h3
    obtain ⟨hp, _⟩ := C34_pack_unpack env env b rfl hl hname hlen ha
    exact ⟨h1, h3, hp.well, hp.attrs, hp.dirty.2⟩

/-- What is known after one collective operation: the answers, the content, that other files are as before, and
that the name of the block is. -/
structure MDone (env : Env) (K : Kind) (n : Nat) (H : Nat → Block) (w : World) (A : Content) (op : MOp)
    (x : (Nat → BAns) × (Nat → Block)) (w' : World) : Prop where
  faults : w'.faults = w.faults
  ans : A.answersAll env K n op x.1
  holds : HoldsAll env K (op.procs n) x.2 w'.fs (A.nextAll env K n op)
  out : SameOutside (H 0).basename w.fs w'.fs
  base : (x.2 0).basename = (H 0).basename
  tree : TreeOk w.fs → Later w.fs w'.fs

/-! ## Rows -/

/-- Rows of the right length have been put to files that are there. -/
theorem Spec.Holds.rowsPut {fs fs' : FS} (h : Holds env K bb fs A) (p : Nat) (l : List (List Byte)) (hp : p + l.length ≤ A.size)
    (hlen : ∀ i, i < l.length → (l.getD i []).length = rowSize env.m bb) (hfs : fs'.node = putList env.m bb p l fs.node) :
    Holds env K bb fs' { A with rows := fun r => if p ≤ r ∧ r < p + l.length then some (l.getD (r - p) []) else A.rows r } := by
  have hfile : ∀ i, i < l.length → IsFile fs (fileKey bb.basename (.data (rowFile bb (p + i)))) := by
    intro i hi
    apply h.data
    have hL := h.ok.layout
    have := locate_lt bb.fsize (p + i) (by rw [← hL.size, h.size]; omega)
    rw [← hL.nfile]
    exact this.1
  have hput : fs'.node = (putRows env.m bb fs p (fun i => l.getD i []) l.length).node := by
    rw [hfs]
    exact putRows_node rfl
  have hnode : ∀ k, (∀ f, k ≠ fileKey bb.basename (.data f)) → fs'.node k = fs.node k := by
    intro k hk
    rw [hput]
    exact node_putRows_other _ _ _ _ _ _ _ (fun i _ => hk _)
  have hrow : ∀ r, row env.m fs' bb r = row env.m (putRows env.m bb fs p (fun i => l.getD i []) l.length) bb r := by
    intro r
    unfold row FS.bytes
    rw [hput]
  have hisf : ∀ k, IsFile fs' k ↔ IsFile fs k := by
    intro k
    rw [← isFile_putRows env.m bb fs p (fun i => l.getD i []) l.length]
    unfold IsFile
    rw [hput]
  refine ⟨h.ok, h.kind, h.size, h.nfile, h.savable, h.attrs, h.pending, h.tame, ?_, ?_, ?_, ?_, ?_, ?_, ?_⟩
  · intro hpend
    obtain ⟨s1, s2, k1, k2, k3, k4⟩ := h.saved hpend
    refine ⟨s1, s2, ?_, ?_, k3, k4⟩
    · rw [readsV1_congr (hnode _ (fun f => fileKey_ne (by simp)))]; exact k1
    · rw [readsV2_congr (hnode _ (fun f => fileKey_ne (by simp)))]; exact k2
  · intro hd
    have := h.header hd
    unfold HeaderSays at this ⊢
    rw [bytes_congr (hnode (fileKey bb.basename .header) (fun f => fileKey_ne (by simp))),
      hnode (fileKey bb.basename .header) (fun f => fileKey_ne (by simp))]
    exact this
  · refine ⟨?_, ?_, ?_⟩
    · rw [hnode _ (fun f => resolve_ne_fileKey _ _)]; exact h.dir.dir
    · rw [hnode _ (fun f => fileKey_ne (by simp))]; exact h.dir.header
    · rw [hnode _ (fun f => fileKey_ne (by simp))]; exact h.dir.attr
  · rw [hnode _ (fun f => fileKey_ne (by simp))]; exact h.noOld
  · intro f hf
    by_cases hn : IsFile fs (fileKey bb.basename (.data f))
    · obtain ⟨d', hd'⟩ := (hisf _).mpr hn
      rw [hd'] at hf
      cases hf
    · apply h.noDirs f
      rw [← hf, hput, node_putRows_other]
      intro i hi he
      exact hn (he ▸ hfile i hi)
  · intro f hf
    exact (hisf _).mpr (h.data f hf)
  · intro r bytes hr
    by_cases hc : p ≤ r ∧ r < p + l.length
    · simp only [if_pos hc] at hr
      have hr := Option.some.inj hr
      have := row_putRows_in env.m bb fs p _ _ hlen hfile (r - p) (by omega)
      rw [← hrow, show p + (r - p) = r by omega] at this
      refine ⟨by show r < A.size; omega, by rw [this]; exact hr, ?_⟩
      unfold Stored
      rw [this]
      exact hlen _ (by omega)
    · simp only [if_neg hc] at hr
      obtain ⟨g1, g2, g3⟩ := h.rows r bytes hr
      have : row env.m fs' bb r = row env.m fs bb r := by
        rw [hrow]
        exact row_putRows_out env.m bb fs p _ _ (fun i hi => by rw [hlen i hi]; exact Nat.le_refl _) r (by omega) g3
      refine ⟨g1, this.trans g2, ?_⟩
      unfold Stored
      rw [this]
      exact g3

/-! ## Transfers -/

/-- The row number `i` of all rows belongs to one process. -/
theorem rowsBefore_split (rows : Nat → Nat) {n i : Nat} (h : i < rowsBefore rows n) :
    ∃ r, r < n ∧ ∃ j, j < rows r ∧ i = rowsBefore rows r + j := by
  induction n with
  | zero => simp [rowsBefore] at h
  | succ n ih =>
    have e : rowsBefore rows (n + 1) = rowsBefore rows n + rows n := by
      unfold rowsBefore
      rw [List.range_succ, List.map_append, List.sum_append]
      simp
    by_cases hi : i < rowsBefore rows n
    · obtain ⟨r, hr, j, hj, rfl⟩ := ih hi
      exact ⟨r, by omega, j, hj, rfl⟩
    · exact ⟨n, by omega, i - rowsBefore rows n, by omega, by omega⟩

section
variable {arr : Nat → Arr} {mem : Nat → Mem} {sw : Nat → Nat} {p : Nat} {fs : FS}

/-- The state of a process after it has moved its pointer. -/
def xferRank (H : Nat → Block) (arr : Nat → Arr) (mem : Nat → Mem) (ptr : Nat → Ptr) (r : Nat) : Rank :=
  ⟨H r, ptr r, arr r, mem r, none, b!"transfer failed"⟩

/-- Every process can move its pointer to a row of the block. -/
theorem seek_all (h : Holds env K bb fs A) (hm : ∀ r, r < n → Mate env bb (H r)) (hp : p ≤ A.size) :
    ∃ ptr : Nat → Ptr, ∀ r, r < n → seek (H r) ⟨0, 0, 0⟩ p = some (0, ptr r) ∧ PointsTo bb (ptr r) p := by
  have : ∀ r, ∃ q, r < n → seek (H r) ⟨0, 0, 0⟩ p = some (0, q) ∧ PointsTo bb q p := by
    intro r
    by_cases hr : r < n
    · have m := hm r hr
      have hs := m.layout.small
      have hz : (H r).size = A.size := m.shape.size.trans h.size
      rw [m.layout.size] at hz
      obtain ⟨q, h1, h2⟩ := (seek_row m.layout p (by omega)).1 (by rw [m.layout.size]; omega)
      exact ⟨q, fun _ => ⟨h1, m.shape.symm'.pointsTo h2⟩⟩
    · exact ⟨⟨0, 0, 0⟩, fun hr' => absurd hr' hr⟩
  exact ⟨fun r => (this r).choose, fun r hr => (this r).choose_spec hr⟩

/-- The conditions of a collective transfer are met. -/
theorem collective_of (h : Holds env K bb fs A) (hn : 0 < n ∧ n < 2147483648) (hm : ∀ r, r < n → Mate env bb (H r))
    (hin : p + rowsBefore (rowsOf K arr) n ≤ A.size) (hcount : rowsBefore (rowsOf K arr) n < 2147483648)
    (ha : ∀ r, r < n → ShareOk env K (arr r) (sw r)) (ptr : Nat → Ptr) (hptr : ∀ r, r < n → PointsTo bb (ptr r) p) :
    Collective env bb K.w K.nm n (xferRank H arr mem ptr) p (rowsOf K arr) sw := by
  refine ⟨hn, fun r hr => h.ok.shape (hm r hr).shape (hm r hr).layout, fun r hr => (hm r hr).shape, hptr,
    fun r hr => (ha r hr).dims, fun r hr => (ha r hr).size, fun r hr => (ha r hr).strides, ?_, by rw [h.size]; exact hin, hcount⟩
  intro r hr h0
  exact ((ha r hr).arr h0).xferOk (h.ok.shape (hm r hr).shape (hm r hr).layout)

theorem write_all (h : HoldsAll env K n H w.fs A) (conc : Int) (thr : Nat)
    (hl : A.legalAll env K n (.write p arr mem sw conc thr)) :
    (runMOp env n H (.write p arr mem sw conc thr)).Ensures faultless w (MDone env K n H w A (.write p arr mem sw conc thr)) := by
  obtain ⟨hn0, hn1, bb, hh, hz, hd, hm⟩ := h
  obtain ⟨hin, hcount, hconc, ha⟩ := hl
  obtain ⟨ptr, hptr⟩ := seek_all (p := p) hh hm (by omega)
  let stored : Nat → Nat → List Byte := fun r e => (toBlock env K (arr r) (mem r) (sw r) e).getD []
  have hcw : CollectiveWrite env bb K.w K.nm n (xferRank H arr mem ptr) p (rowsOf K arr) sw stored := by
    refine ⟨collective_of hh ⟨hn0, hn1⟩ hm hin hcount (fun r hr => (ha r hr).1) ptr (fun r hr => (hptr r hr).2),
      fun r hr => (ha r hr).2.1, fun r hr e he => ?_⟩
    have he' : e < (arr r).size := by rw [(ha r hr).1.size]; exact he
    obtain ⟨b, hb⟩ := Option.isSome_iff_exists.mp ((ha r hr).2.2 e he')
    show convElem env.m env.fo (dtypeNormalize env.m bb.dtype) (arr r).dtype (peek (mem r) (elemAddr (arr r) e) (sw r)) =
      some ((toBlock env K (arr r) (mem r) (sw r) e).getD [])
    rw [hb, hh.kind]
    exact hb
  have hgath : gathered env K n arr mem sw = allRows n (rowsOf K arr) K.nm stored := rfl
  have hglen := allRows_length n (rowsOf K arr) K.nm stored
  unfold runMOp
  dsimp only
  apply Phases.ensures_bind
  apply Phases.ensures_together (P' := fun r => mpiWriteP env n conc thr r (xferRank H arr mem ptr r))
  · intro r hr
    unfold xferP
    rw [(hptr r hr).1]
    rfl
  · have hF : NoCrash faultless := by intro r t m; simp [faultless, noFaults]
    obtain ⟨B, hB⟩ := write_runs hcw conc thr hconc hF w.fs
    refine ⟨B, fun es s hr => ⟨(hB es s hr).1, fun hs => ?_⟩⟩
    rcases (hB es s hr).2.2 hs with ⟨st, hst, _, hdt, _, hnod⟩ | ⟨hbad, _⟩
    · refine ⟨fun r => (0, st r), fun r hr => (hst r hr).1, fun out dom hlat ho => ?_⟩
      apply Phases.ensures_pure
      refine ⟨rfl, fun r hr => ?_, ⟨hn0, hn1, bb, ?_, hz, ?_, ?_⟩, ?_, ?_, hlat⟩
      · dsimp only
        rw [ho r hr]
        exact ⟨rfl, (hst r hr).2.mem⟩
      · have := hh.rowsPut (fs' := ⟨s.nodes, dom⟩) p (gathered env K n arr mem sw) (by rw [hgath, hglen]; exact hin) ?_ hnod
        · rw [show (gathered env K n arr mem sw).length = rowsBefore (rowsOf K arr) n from hglen] at this
          exact this
        · intro i hi
          have hrs : rowSize env.m bb = K.w * K.nm := by
            have hs := (hm 0 hn0).shape
            rw [← (hcw.block 0 hn0).dummy.rowSize]
            exact (hs.rowSize _).symm
          have hx : (gathered env K n arr mem sw).getD i [] ∈ allRows n (rowsOf K arr) K.nm stored := by
            rw [List.getD_eq_getElem?_getD, List.getElem?_eq_getElem hi]
            exact List.getElem_mem hi
          obtain ⟨r, hr, hx⟩ := List.mem_flatMap.mp hx
          rw [hrs]
          exact hcw.row_length (List.mem_range.mp hr) _ hx
      · intro hdd
        obtain ⟨r, hr, hd'⟩ := hd hdd
        refine ⟨r, hr, ?_⟩
        dsimp only
        rw [ho r hr]
        exact (hst r hr).2.dirty hd'
      · intro r hr
        dsimp only
        rw [ho r hr]
        have d := (hst r hr).2
        have m := hm r hr
        have e : (st r).bb.attrset = (H r).attrset := d.attrs
        exact ⟨d.shape, d.layout, by rw [e]; exact m.attrs, by rw [e]; exact m.view, by rw [e]; exact m.pending⟩
      · rw [(hm 0 hn0).shape.base]
        exact fun k hk => (hB es s hr).2.1.other k (fun f _ => hk _)
      · dsimp only
        rw [ho 0 hn0, (hm 0 hn0).shape.base]
        exact (hst 0 hn0).2.shape.base
    · exact absurd ⟨fun _ _ => rfl, hh.data⟩ hbad

/-- Reading changes neither files nor handles. -/
theorem read_all_keeps (h : HoldsAll env K n H w.fs A) (conc : Int) (thr : Nat)
    (hl : A.legalAll env K n (.read p arr mem sw conc thr)) :
    (runMOp env n H (.read p arr mem sw conc thr)).Ensures faultless w fun x w' => MDone env K n H w A (.read p arr mem sw conc thr) x w' ∧
      w'.fs.node = w.fs.node ∧ ∀ r, r < n → x.2 r = H r := by
  obtain ⟨hn0, hn1, bb, hh, hz, hd, hm⟩ := h
  obtain ⟨hin, hcount, hconc, ha⟩ := hl
  obtain ⟨ptr, hptr⟩ := seek_all (p := p) hh hm (by omega)
  have hnm := hh.ok.memb0
  let out : Nat → Nat → List Byte := fun r e =>
    (((A.rows (p + rowsBefore (rowsOf K arr) r + e / K.nm)).bind fun bytes => fromBlock env K (arr r) bytes (e % K.nm))).getD []
  have hout : ∀ r, r < n → ∀ e, e < rowsOf K arr r * K.nm → ∃ bytes,
      A.rows (p + rowsBefore (rowsOf K arr) r + e / K.nm) = some bytes ∧
      fromBlock env K (arr r) bytes (e % K.nm) = some (out r e) := by
    intro r hr e he
    have hi : e / K.nm < rowsOf K arr r := (Nat.div_lt_iff_lt_mul hnm).mpr he
    obtain ⟨bytes, h1, h2⟩ := (ha r hr).2.2.2 (e / K.nm) hi
    obtain ⟨b, hb⟩ := Option.isSome_iff_exists.mp (h2 (e % K.nm) (Nat.mod_lt _ hnm))
    refine ⟨bytes, h1, ?_⟩
    show _ = some ((((A.rows (p + rowsBefore (rowsOf K arr) r + e / K.nm)).bind
      fun bytes => fromBlock env K (arr r) bytes (e % K.nm))).getD [])
    rw [h1]
    simp only [Option.bind_some]
    rw [hb]
    rfl
  have hcr : CollectiveRead env w.fs bb K.w K.nm n (xferRank H arr mem ptr) p (rowsOf K arr) sw out := by
    refine ⟨collective_of hh ⟨hn0, hn1⟩ hm hin hcount (fun r hr => (ha r hr).1) ptr (fun r hr => (hptr r hr).2),
      fun r hr => (ha r hr).2.1, fun r hr h0 => by rw [hh.kind]; exact (ha r hr).2.2.1 h0, fun r hr e he _ => ?_⟩
    obtain ⟨bytes, h1, h2⟩ := hout r hr e he
    unfold elemOfRows
    rw [(hh.rows _ _ h1).2.1, hh.kind]
    exact h2
  have hstored : ∀ i, i < rowsBefore (rowsOf K arr) n → Stored env.m w.fs bb (p + i) := by
    intro i hi
    obtain ⟨r, hr, j, hj, rfl⟩ := rowsBefore_split (rowsOf K arr) hi
    obtain ⟨bytes, h1, _⟩ := (ha r hr).2.2.2 j hj
    have := (hh.rows _ _ h1).2.2
    rw [show p + (rowsBefore (rowsOf K arr) r + j) = p + rowsBefore (rowsOf K arr) r + j by omega]
    exact this
  unfold runMOp
  dsimp only
  apply Phases.ensures_bind
  apply Phases.ensures_together (P' := fun r => mpiReadP env n conc thr r (xferRank H arr mem ptr r))
  · intro r hr
    unfold xferP
    rw [(hptr r hr).1]
    rfl
  · have hF : NoCrash faultless := by intro r t m; simp [faultless, noFaults]
    obtain ⟨B, hB⟩ := read_runs hcr conc thr hconc hF (.inl ⟨fun _ _ => rfl, hstored⟩)
    refine ⟨B, fun es s hr => ⟨(hB es s hr).1, fun hs => ?_⟩⟩
    obtain ⟨_, hnod, hfin⟩ := hB es s hr
    rcases hfin hs with ⟨st, hst⟩ | ⟨hbad, _⟩
    · refine ⟨fun r => (0, st r), fun r hr => (hst r hr).1, fun o dom hlat ho => ?_⟩
      apply Phases.ensures_pure
      have hbb : ∀ r, r < n → (st r).bb = H r := fun r hr => by rw [(hst r hr).2.same]; rfl
      refine ⟨⟨rfl, fun r hr => ?_, ⟨hn0, hn1, bb, ?_, hz, ?_, ?_⟩, fun k _ => congrFun hnod k, ?_, hlat⟩, hnod, fun r hr => ?_⟩
      rotate_right
      · dsimp only
        rw [ho r hr]
        exact hbb r hr
      · dsimp only
        rw [ho r hr]
        refine ⟨rfl, fun i hi j hj => ?_, fun y hy => (hst r hr).2.frame y hy⟩
        have he : i * K.nm + j < rowsOf K arr r * K.nm := by
          calc i * K.nm + j < i * K.nm + K.nm := by omega
            _ = (i + 1) * K.nm := (Nat.succ_mul _ _).symm
            _ ≤ _ := Nat.mul_le_mul_right _ hi
        obtain ⟨bytes, h1, h2⟩ := hout r hr (i * K.nm + j) he
        have hdv : (i * K.nm + j) / K.nm = i := by
          rw [Nat.mul_comm, Nat.mul_add_div hnm, Nat.div_eq_of_lt hj]; rfl
        have hmd : (i * K.nm + j) % K.nm = j := by
          rw [Nat.mul_comm, Nat.mul_add_mod, Nat.mod_eq_of_lt hj]
        rw [hdv] at h1
        rw [hmd] at h2
        exact ⟨bytes, h1, by rw [h2]; exact congrArg some ((hst r hr).2.elems _ he).symm⟩
      · show Holds env K bb ⟨s.nodes, dom⟩ A
        exact hh.congr (by show s.nodes _ = _; rw [hnod]) (fun id => by show s.nodes _ = _; rw [hnod])
      · intro hdd
        obtain ⟨r, hr, hd'⟩ := hd hdd
        refine ⟨r, hr, ?_⟩
        dsimp only
        rw [ho r hr]
        exact (congrArg Block.dirty (hbb r hr)).trans hd'
      · intro r hr
        dsimp only
        rw [ho r hr]
        show Mate env bb (st r).bb
        rw [hbb r hr]
        exact hm r hr
      · dsimp only
        rw [ho 0 hn0]
        exact congrArg Block.basename (hbb 0 hn0)
    · exact absurd ⟨fun _ _ => rfl, hstored⟩ hbad

theorem read_all (h : HoldsAll env K n H w.fs A) (conc : Int) (thr : Nat)
    (hl : A.legalAll env K n (.read p arr mem sw conc thr)) :
    (runMOp env n H (.read p arr mem sw conc thr)).Ensures faultless w (MDone env K n H w A (.read p arr mem sw conc thr)) :=
  Phases.ensures_mono (read_all_keeps h conc thr hl) fun _ _ d => d.1

end

/-! ## Flush, close and open -/

/-- A flush of a handle. -/
theorem Spec.Holds.flushes (h : Holds env K bb w.fs A) (hnf : w.faults = noFaults) :
    ∃ b' w', blockFlush env bb w = .ok (0, b') w' ∧ w'.faults = noFaults ∧ SameShape bb b' ∧ b'.fchecksum = bb.fchecksum ∧
      b'.dirty = false ∧ SameOutside bb.basename w.fs w'.fs ∧ Holds env K b' w'.fs (A.next env K .flush) := by
  obtain ⟨txt, s1, k1, _, _, _⟩ := h.flush_says
  obtain ⟨⟨rc, bb'⟩, w1, e1, f1, _, _, l1, l2⟩ := wpc_returns (wpc_blockFlush env bb txt s1 w k1) (fun _ hc => hc.1 hnf)
  have hrc : rc = 0 := l2 hnf h.dir
  subst hrc
  obtain ⟨hbb, hfs⟩ := l1 rfl
  have hfs := hfs (by rw [hnf]; intro i n; simp [noFaults])
  simp only at hbb
  subst hbb
  obtain ⟨x, b2, w2, e2, d⟩ := flush_step h hnf
  unfold runBOp at e2
  simp only [bind, M.bind] at e2
  rw [e1] at e2
  injection e2 with e2 e3
  injection e2 with _ e2
  subst e3 e2
  refine ⟨_, _, e1, f1.trans hnf, ⟨rfl, rfl, rfl, rfl, rfl, rfl, rfl⟩, rfl, rfl, fun k hk => ?_, d.holds⟩
  rw [hfs]
  exact flushFS_other bb txt w.fs k (hk _) (hk _)

theorem blockFlush_noHeader (h : bb.dirty = false) : blockFlush env bb =
    if bb.attrset.dirty = true then (do
      let (rc, s) ← writeAttrsV2 env bb.attrset bb.basename
      if rc ≠ 0 then pure (-1, { bb with attrset := s })
      else pure (0, { bb with attrset := { s with dirty := false } }))
    else pure (0, bb) := by
  unfold blockFlush flushHeader
  rw [if_neg (by rw [h]; simp)]
  rfl

/-- A flush that does not write the header does not care about the checksums. -/
theorem blockFlush_ck (h : bb.dirty = false) (c : List Nat) :
    blockFlush env { bb with fchecksum := c } = M.mapRes (fun x => (x.1, { x.2 with fchecksum := c })) (blockFlush env bb) := by
  rw [blockFlush_noHeader h, blockFlush_noHeader (bb := { bb with fchecksum := c }) h, mapRes_ite, mapRes_bind]
  dsimp only
  split
  · congr 1
    funext x
    rw [mapRes_ite]
    rfl
  · rfl

theorem reducedRoot_mate {fs : FS} (h : Holds env K bb fs A) (m : Mate env bb (H 0)) : Mate env bb (reducedRoot n H) := by
  have hs : SameShape bb (reducedRoot n H) :=
    ⟨m.shape.dtype, m.shape.nmemb, m.shape.base, m.shape.size, m.shape.fsize, m.shape.foffset, m.shape.nfile⟩
  refine ⟨hs, hs.layout h.ok.layout ?_ ?_, m.attrs, m.view, m.pending⟩
  · show (reducedChecksums n H).length = (H 0).nfile
    simp [reducedChecksums]
  · intro c hc
    obtain ⟨f, _, rfl⟩ := List.mem_map.mp (show c ∈ reducedChecksums n H from hc)
    exact Nat.mod_lt _ (by decide)

/-- What rank 0 does in a collective flush. -/
theorem root_flushes (h : Holds env K bb w.fs A) (hnf : w.faults = noFaults) (hn : 0 < n)
    (hd : bb.dirty = true → ∃ r, r < n ∧ (H r).dirty = true) (hm : ∀ r, r < n → Mate env bb (H r)) :
    ∃ b' b'' w', blockFlush env (reducedRoot n H) w = .ok (0, b'') w' ∧ w'.faults = noFaults ∧
      SameOutside bb.basename w.fs w'.fs ∧ Holds env K b' w'.fs (A.next env K .flush) ∧ b'.dirty = false ∧
      SameShape bb b' ∧ Mate env b' b'' := by
  have m := reducedRoot_mate (n := n) h (hm 0 hn)
  cases hr : (reducedRoot n H).dirty with
  | true =>
    have h1 := h.handle m (fun hf => by rw [hr] at hf; cases hf)
    obtain ⟨b', w', e, hf, hs, _, hdd, ho, hh⟩ := h1.flushes hnf
    rw [m.shape.base] at ho
    exact ⟨b', b', w', e, hf, ho, hh, hdd, m.shape.trans' hs, .rfl' _, hh.ok.layout, hh.savable.attrs, rfl, rfl⟩
  | false =>
    have hb : bb.dirty = false := by
      cases hbd : bb.dirty with
      | false => rfl
      | true =>
        obtain ⟨r, hr1, hr2⟩ := hd hbd
        have : (reducedRoot n H).dirty = true := List.any_eq_true.mpr ⟨r, List.mem_range.mpr hr1, hr2⟩
        rw [hr] at this
        cases this
    let b1 : Block := { reducedRoot n H with fchecksum := bb.fchecksum }
    have hs1 : SameShape bb b1 := ⟨m.shape.dtype, m.shape.nmemb, m.shape.base, m.shape.size, m.shape.fsize, m.shape.foffset, m.shape.nfile⟩
    have m1 : Mate env bb b1 :=
      ⟨hs1, hs1.layout h.ok.layout (by show bb.fchecksum.length = _; rw [hs1.nfile]; exact h.ok.layout.nck) h.ok.layout.ck32,
        m.attrs, m.view, m.pending⟩
    have h1 : Holds env K b1 w.fs A := by
      apply h.handle m1
      intro _
      have := h.header hb
      unfold HeaderSays at this ⊢
      rw [hs1.base, hs1.dtype, hs1.nmemb, hs1.nfile, hs1.fsize]
      exact this
    obtain ⟨b', w', e, hf, hs, _, hdd, ho, hh⟩ := h1.flushes hnf
    rw [hs1.base] at ho
    let b2 : Block := { b' with fchecksum := (reducedRoot n H).fchecksum }
    have e2 : blockFlush env (reducedRoot n H) w = .ok (0, b2) w' := by
      have := blockFlush_ck (env := env) (bb := b1) hr (reducedRoot n H).fchecksum
      refine (congrFun this w).trans ?_
      unfold M.mapRes
      rw [e]
    refine ⟨b', b2, w', e2, hf, ho, hh, hdd, hs1.trans' hs, ⟨⟨rfl, rfl, rfl, rfl, rfl, rfl, rfl⟩, ?_, hh.savable.attrs, rfl, rfl⟩⟩
    refine SameShape.layout (bb := b') ⟨rfl, rfl, rfl, rfl, rfl, rfl, rfl⟩ hh.ok.layout ?_ m.layout.ck32
    show (reducedRoot n H).fchecksum.length = b'.nfile
    rw [m.layout.nck, hs.nfile]

theorem flush_all (h : HoldsAll env K n H w.fs A) (hnf : w.faults = noFaults) :
    (runMOp env n H .flush).Ensures faultless w (MDone env K n H w A .flush) := by
  obtain ⟨hn0, hn1, bb, hh, hz, hd, hm⟩ := h
  obtain ⟨b', b'', w', e, hf, hso, h', hdd, hs, m'⟩ := root_flushes hh hnf hn0 hd hm
  have hb : b''.basename = bb.basename := m'.shape.base.trans hs.base
  unfold runMOp
  apply Phases.ensures_bind
  apply Phases.ensures_alone (a := (0, mpiBroadcast env b'')) (w' := w')
  · unfold mpiFlush
    simp only [bind, M.bind]
    rw [e]
    rfl
  · apply Phases.ensures_pure
    refine ⟨hf.trans hnf.symm, fun r _ => rfl, ⟨hn0, hn1, b', h', by rw [hs.base]; exact hz, fun hd' => (by rw [hdd] at hd'; cases hd'), fun r _ => ?_⟩, ?_, ?_, fun ht => ?_⟩
    · exact m'.trans (mate_broadcast m'.layout (by rw [hb]; exact hz) (by rw [hb]; exact hh.savable.base) m'.attrs r)
    · rw [(hm 0 hn0).shape.base]; exact hso
    · rw [(hm 0 hn0).shape.base, ← hb]
      show (mpiBroadcast env b'' 0).basename = _
      unfold mpiBroadcast
      rw [if_pos rfl]
    · exact wlp_ok (blockFlush_keeps env _ w ht) e

/-- A collective close leaves the content on disk. -/
theorem close_all (h : HoldsAll env K n H w.fs A) (hnf : w.faults = noFaults) :
    ∃ w', mpiClose env n H w = .ok 0 w' ∧ w'.faults = noFaults ∧ SameOutside (H 0).basename w.fs w'.fs ∧
      OnDisk env K w'.fs (H 0).basename A.closed ∧ (TreeOk w.fs → Later w.fs w'.fs) := by
  obtain ⟨hn0, hn1, bb, hh, hz, hd, hm⟩ := h
  obtain ⟨b', b'', w', e, hf, ho, h', hdd, hs, m'⟩ := root_flushes hh hnf hn0 hd hm
  have hb0 : (H 0).basename = bb.basename := (hm 0 hn0).shape.base
  refine ⟨w', ?_, hf, by rw [hb0]; exact ho, ?_, fun ht => wlp_ok (blockFlush_keeps env _ w ht) e⟩
  · unfold mpiClose mpiFlush
    simp only [bind, M.bind]
    rw [e]
    rfl
  · obtain ⟨w2, e2, hf2, _, hd2⟩ := h'.closes hf
    have hclean : b'.attrset.dirty = false := by
      rw [h'.pending]
      simp only [Content.next]
      cases hp : A.pending with
      | true => simp
      | false => simp [hp]
    rw [blockClose_clean hdd hclean] at e2
    injection e2 with _ e2
    subst e2
    rw [hb0, ← hs.base]
    have hA : (A.next env K .flush).closed = A.closed := by
      unfold Content.closed Content.next
      cases hp : A.pending <;> simp [hp]
    rw [← hA]
    exact hd2

/-- A collective open of a block on disk. -/
theorem open_all {base : CStr} (h : OnDisk env K w.fs base A) (hnf : w.faults = noFaults) (hz : (0 : Byte) ∉ base) {n : Nat}
    (hn : 0 < n ∧ n < 2147483648) :
    ∃ H w', mpiOpen env base w = .ok (0, some H) w' ∧ w'.fs = w.fs ∧ w'.faults = noFaults ∧ HoldsAll env K n H w'.fs A ∧
      (H 0).basename = base := by
  obtain ⟨b, w', e, hfs, hf, hb, hd, hh⟩ := h.opens hnf
  refine ⟨mpiBroadcast env b, w', ?_, hfs, hf, ⟨hn.1, hn.2, b, by rw [hfs]; exact hh, by rw [hb]; exact hz, ?_, fun r _ => ?_⟩, ?_⟩
  · unfold mpiOpen
    simp only [bind, M.bind]
    rw [e]
    rfl
  · intro hdd
    rw [hd] at hdd
    cases hdd
  · exact mate_broadcast hh.ok.layout (by rw [hb]; exact hz) hh.savable.base hh.savable.attrs r
  · show (mpiBroadcast env b 0).basename = base
    unfold mpiBroadcast
    rw [if_pos rfl]
    exact hb

theorem reopen_all (h : HoldsAll env K n H w.fs A) (hnf : w.faults = noFaults) {n' : Nat} (hl : A.legalAll env K n (.reopen n')) :
    (runMOp env n H (.reopen n')).Ensures faultless w (MDone env K n H w A (.reopen n')) := by
  have hz : (0 : Byte) ∉ (H 0).basename := by
    obtain ⟨hn0, _, bb, _, hz, _, hm⟩ := h
    rw [(hm 0 hn0).shape.base]
    exact hz
  obtain ⟨w1, e1, f1, hso, hd1, ht1⟩ := close_all h hnf
  obtain ⟨H', w2, e2, hfs2, f2, hh, hb2⟩ := open_all hd1 f1 hz hl
  have hA : A.closed = A.nextAll env K n (.reopen n') := rfl
  unfold runMOp
  apply Phases.ensures_bind
  apply Phases.ensures_alone e1
  apply Phases.ensures_bind
  apply Phases.ensures_alone e2
  exact Phases.ensures_pure ⟨f2.trans hnf.symm, fun r _ => rfl, hh, by rw [hfs2]; exact hso, hb2, by rw [hfs2]; exact ht1⟩

/-! ## Attributes -/

theorem attr_all (h : HoldsAll env K n H w.fs A) (op : AttrOp) (hl : A.legalAll env K n (.attr op)) :
    (runMOp env n H (.attr op)).Ensures faultless w (MDone env K n H w A (.attr op)) := by
  obtain ⟨hn0, hn1, bb, hh, hz, hd, hm⟩ := h
  have hone : ∀ b, Mate env bb b → ∃ x s', attrStep env b.attrset op = some (x, s') ∧ AnsOk env.m env.fo A.attrs op x ∧
      WellAttrs env.m s' ∧ attrView env.m s' = attrNext env.m A.attrs op ∧ s'.dirty = (A.pending || op.isSet) := by
    intro b m
    obtain ⟨es, hi⟩ := m.attrs
    have hes : findE es = A.attrs := hi.view_eq.symm.trans (m.view.trans hh.attrs)
    have h1 := hl.1
    rw [← hes] at h1
    obtain ⟨ans, s', es', e1, hi', hn, ha⟩ := attrStep_spec hi op h1
    have hd := attrStep_dirty hi op h1 e1
    rw [hes] at hn ha
    exact ⟨ans, s', e1, ha, ⟨es', hi'⟩, hi'.view_eq.trans hn, by rw [hd, m.pending, hh.pending]⟩
  obtain ⟨x0, b0, w0, e0, d0⟩ := attr_step (w := ⟨w.fs, noFaults, 0⟩) hh rfl op hl
  obtain ⟨xb, sb, eb, _, hwb, hvb, hdb⟩ := hone bb ⟨.rfl' _, hh.ok.layout, hh.savable.attrs, rfl, rfl⟩
  have hb0 : b0 = { bb with attrset := sb } ∧ w0 = ⟨w.fs, noFaults, 0⟩ := by
    unfold runBOp at e0
    dsimp only at e0
    rw [eb] at e0
    injection e0 with e0 e1
    injection e0 with _ e0
    exact ⟨e0.symm, e1.symm⟩
  obtain ⟨rfl, rfl⟩ := hb0
  have hch : ∀ r, ∃ y : AttrAns × AttrSet, r < n → attrStep env (H r).attrset op = some y ∧ AnsOk env.m env.fo A.attrs op y.1 ∧
      WellAttrs env.m y.2 ∧ attrView env.m y.2 = attrNext env.m A.attrs op ∧ y.2.dirty = (A.pending || op.isSet) := by
    intro r
    by_cases hr : r < n
    · obtain ⟨x, s', h1, h2⟩ := hone _ (hm r hr)
      exact ⟨(x, s'), fun _ => ⟨h1, h2⟩⟩
    · exact ⟨(xb, sb), fun hr' => absurd hr' hr⟩
  let y : Nat → AttrAns × AttrSet := fun r => (hch r).choose
  have hy := fun r hr => (hch r).choose_spec hr
  unfold runMOp
  apply Phases.ensures_bind
  apply Phases.ensures_together (P' := fun r => .ret (y r))
  · intro r hr
    rw [(hy r hr).1]
    rfl
  · refine ⟨0, fun es s hr => ?_⟩
    have hs : es = [] ∧ s = startAll (fun r => .ret (y r)) w.fs.node := by
      cases hr with
      | nil => exact ⟨rfl, rfl⟩
      | cons h _ =>
        cases h with
        | file r op k t a nd hr ht he => cases ht
        | coll c hne hall =>
          obtain ⟨r, hr⟩ := List.exists_mem_of_ne_nil _ hne
          exact absurd (hall r hr).2 (by simp [startAll, Prog.WaitsAt])
    obtain ⟨rfl, rfl⟩ := hs
    refine ⟨Nat.le_refl _, fun _ => ⟨y, fun r _ => rfl, fun out dom hlat ho => ?_⟩⟩
    apply Phases.ensures_pure
    refine ⟨rfl, fun r hr => ?_, ⟨hn0, hn1, { bb with attrset := sb }, ?_, hz, hd, fun r hr => ?_⟩, fun _ _ => rfl, rfl, hlat⟩
    · dsimp only
      rw [ho r hr]
      exact ⟨_, rfl, (hy r hr).2.1⟩
    · exact d0.holds.congr rfl (fun _ => rfl)
    · dsimp only
      rw [ho r hr]
      have m := hm r hr
      obtain ⟨_, _, g1, g2, g3⟩ := hy r hr
      have hs : SameShape { bb with attrset := sb } { H r with attrset := (y r).2 } :=
        ⟨m.shape.dtype, m.shape.nmemb, m.shape.base, m.shape.size, m.shape.fsize, m.shape.foffset, m.shape.nfile⟩
      exact ⟨hs, SameShape.layout (bb := H r) ⟨rfl, rfl, rfl, rfl, rfl, rfl, rfl⟩ m.layout m.layout.nck m.layout.ck32, g1,
        g2.trans hvb.symm, g3.trans hdb.symm⟩

/-! ## Grow -/

theorem growInternal_mate {b1 b2 : Block} {fs : FS} (m : Mate env b1 b2) {sizes : List Nat}
    (h : Holds env K (growInternal b1 sizes) fs A) : Mate env (growInternal b1 sizes) (growInternal b2 sizes) := by
  have hs : SameShape (growInternal b1 sizes) (growInternal b2 sizes) := by
    have e : b2.fsize ++ sizes = b1.fsize ++ sizes := by rw [m.shape.fsize]
    refine ⟨m.shape.dtype, m.shape.nmemb, m.shape.base, ?_, e, ?_, ?_⟩
    · show (runningSums 0 (b2.fsize ++ sizes)).getLastD 0 = (runningSums 0 (b1.fsize ++ sizes)).getLastD 0
      rw [e]
    · show runningSums 0 (b2.fsize ++ sizes) = runningSums 0 (b1.fsize ++ sizes)
      rw [e]
    · show sizes.length + b2.nfile = sizes.length + b1.nfile
      rw [m.shape.nfile]
  refine ⟨hs, hs.layout h.ok.layout ?_ ?_, m.attrs, m.view, m.pending⟩
  · show (b2.fchecksum ++ List.replicate sizes.length 0).length = sizes.length + b2.nfile
    rw [List.length_append, m.layout.nck, List.length_replicate, Nat.add_comm]
  · intro c hc
    rcases List.mem_append.mp (show c ∈ b2.fchecksum ++ List.replicate sizes.length 0 from hc) with hc | hc
    · exact m.layout.ck32 c hc
    · rw [(List.mem_replicate.mp hc).2]
      decide

theorem grow_all (h : HoldsAll env K n H w.fs A) (sizes : List Nat) (hl : A.legalAll env K n (.grow sizes)) :
    (runMOp env n H (.grow sizes)).Ensures faultless w (MDone env K n H w A (.grow sizes)) := by
  obtain ⟨hn0, hn1, bb, hh, hz, hd, hm⟩ := h
  have hcnt : sizes.length < 2147483648 := by have := hl.2.2; omega
  obtain ⟨x0, b0, w0, e0, d0⟩ := grow_step (w := ⟨w.fs, noFaults, 0⟩) hh rfl sizes hl
  obtain ⟨bo, w1, e1, f1, j, hj, hfs, hbj, hok⟩ :=
    wpc_returns (wpc_truncFiles bb.basename sizes.length bb.nfile ⟨w.fs, noFaults, 0⟩) (fun _ hc => hc.1 rfl)
  have hb := hok rfl hh.dir.dir (fun f _ _ => hh.noDirs f)
  subst hb
  have hj := hbj rfl
  subst hj
  have hb0 : b0 = growInternal bb sizes ∧ w0 = w1 := by
    unfold runBOp blockGrow at e0
    simp only [bind, M.bind] at e0
    rw [e1] at e0
    injection e0 with e0 e1
    injection e0 with _ e0
    exact ⟨e0.symm, e1.symm⟩
  obtain ⟨rfl, rfl⟩ := hb0
  have m0 := growInternal_mate (hm 0 hn0) d0.holds
  have hz' : (0 : Byte) ∉ (growInternal (H 0) sizes).basename := by rw [m0.shape.base]; exact hz
  have hbr : ∀ r, Mate env (growInternal bb sizes) (mpiGrowRoot env H sizes r) := fun r =>
    m0.trans (mate_broadcast m0.layout hz' (by rw [m0.shape.base]; exact hh.savable.base) m0.attrs r)
  show Phases.Ensures faultless (Phases.together n (fun r =>
    mpiTruncP n r (mpiGrowRoot env H sizes r).basename (H r).nfile sizes.length none b!"cannot open") >>= fun out =>
      (pure (fun r => ⟨(out r).1, env.junk, none⟩, mpiGrowRoot env H sizes) : Phases ((Nat → BAns) × (Nat → Block)))) w _
  apply Phases.ensures_bind
  apply Phases.ensures_together (P' := fun r => mpiTruncP n r bb.basename bb.nfile sizes.length none b!"cannot open")
  · intro r hr
    rw [(hbr r).shape.base, (hm r hr).shape.nfile]
    rfl
  · have hF : NoCrash faultless := by intro r t m; simp [faultless, noFaults]
    obtain ⟨B, hB⟩ := C43_truncate n bb.basename bb.nfile sizes.length (fun _ => none) (fun _ => b!"cannot open") w.fs.node faultless
      hn0 hn1 hcnt hF
    refine ⟨B, fun es s hr => ⟨(hB es s hr).1, fun hs => ?_⟩⟩
    obtain ⟨_, _, _, hother, hst⟩ := hB es s hr
    obtain ⟨rc, hret, hdone, hrc⟩ := hst hs
    have hrc : rc = 0 := hrc (fun _ _ => rfl) (fun i _ => ⟨hh.dir.dir, hh.noDirs _⟩)
    subst hrc
    obtain ⟨hnew, _⟩ := hdone rfl
    have hch : ∀ r, ∃ e, r < n → (s.thr r).prog = .ret ((0 : Int), e) := by
      intro r
      by_cases hr : r < n
      · obtain ⟨e, he⟩ := hret r hr
        exact ⟨e, fun _ => he⟩
      · exact ⟨none, fun hr' => absurd hr' hr⟩
    have hnodes : s.nodes = w0.fs.node := by
      funext k
      rw [hfs]
      by_cases hk : ∃ i, i < sizes.length ∧ k = fileKey bb.basename (.data (bb.nfile + i))
      · obtain ⟨i, hi, rfl⟩ := hk
        rw [hnew i hi, truncFS_data _ _ _ _ _ (by omega) (by omega)]
      · rw [hother k (fun i hi he => hk ⟨i, hi, he⟩), truncFS_other]
        intro f h1 h2 he
        exact hk ⟨f - bb.nfile, by omega, by rw [he]; congr; omega⟩
    refine ⟨fun r => (0, (hch r).choose), fun r hr => (hch r).choose_spec hr, fun out dom hlat ho => ?_⟩
    apply Phases.ensures_pure
    refine ⟨rfl, fun r hr => ?_, ⟨hn0, hn1, growInternal bb sizes, ?_, hz, fun _ => ⟨0, hn0, ?_⟩, fun r hr => hbr r⟩, ?_, ?_, hlat⟩
    · dsimp only
      rw [ho r hr]
    · refine d0.holds.congr ?_ (fun id => ?_)
      · show s.nodes _ = _; rw [hnodes]
      · show s.nodes _ = _; rw [hnodes]
    · show (mpiGrowRoot env H sizes 0).dirty = true
      unfold mpiGrowRoot mpiBroadcast
      rw [if_pos rfl]
      rfl
    · rw [(hm 0 hn0).shape.base]
      exact fun k hk => hother k (fun i _ => hk _)
    · exact (hbr 0).shape.base.trans (hm 0 hn0).shape.base.symm

/-- **One collective operation.** -/
theorem mop_step (h : HoldsAll env K n H w.fs A) (hnf : w.faults = noFaults) (op : MOp) (hl : A.legalAll env K n op) :
    (runMOp env n H op).Ensures faultless w (MDone env K n H w A op) := by
  cases op with
  | write p arr mem sw conc thr => exact write_all h conc thr hl
  | read p arr mem sw conc thr => exact read_all h conc thr hl
  | grow sizes => exact grow_all h sizes hl
  | attr op => exact attr_all h op hl
  | flush => exact flush_all h hnf
  | reopen n' => exact reopen_all h hnf hl

end Verif
