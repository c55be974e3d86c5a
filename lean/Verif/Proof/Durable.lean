import Verif.Spec.Durable
import Verif.Proof.Object
/-!
# Operations that may fail or be killed
-/

set_option autoImplicit false

namespace Verif

open Spec

variable {env : Env} {K : Kind} {bb : Block} {S : Durable} {w : World}

/-! ## Files -/

theorem node_writeFile_dir (fs : FS) (k k' : Key) (o : Nat) (bs : List Byte) (h : fs.node k' ≠ some .dir) :
    (fs.writeFile k o bs).node k' ≠ some .dir := by
  unfold FS.writeFile
  split
  · dsimp only
    split
    · simp
    · exact h
  · exact h

theorem node_putRows_dir (m : Machine) (bb : Block) (fs : FS) (p : Nat) (rows : Nat → List Byte) (n : Nat) (k : Key)
    (h : fs.node k ≠ some .dir) : (putRows m bb fs p rows n).node k ≠ some .dir := by
  induction n with
  | zero => exact h
  | succ n ih => exact node_writeFile_dir _ _ _ _ _ ih

/-- A change of data files only. -/
structure DataOnly (base : CStr) (nfile : Nat) (fs fs' : FS) : Prop where
  other : ∀ k, (∀ f, k ≠ fileKey base (.data f)) → fs'.node k = fs.node k
  files : ∀ f, f < nfile → IsFile fs (fileKey base (.data f)) → IsFile fs' (fileKey base (.data f))
  noDirs : ∀ f, fs.node (fileKey base (.data f)) ≠ some .dir → fs'.node (fileKey base (.data f)) ≠ some .dir

theorem DataOnly.refl (base : CStr) (n : Nat) (fs : FS) : DataOnly base n fs fs :=
  ⟨fun _ _ => rfl, fun _ _ h => h, fun _ h => h⟩

theorem putRows_dataOnly (m : Machine) (bb : Block) (fs : FS) (p : Nat) (rows : Nat → List Byte) (n : Nat) :
    DataOnly bb.basename bb.nfile fs (putRows m bb fs p rows n) :=
  ⟨fun _ hk => node_putRows_other _ _ _ _ _ _ _ (fun _ _ => hk _), fun _ _ h => (isFile_putRows _ _ _ _ _ _ _).mpr h,
    fun _ h => node_putRows_dir _ _ _ _ _ _ _ h⟩

theorem torn_dataOnly {m : Machine} {fs fs' : FS} {p n : Nat} {rows : Nat → List Byte} (h : Torn m bb fs fs' p rows n) :
    DataOnly bb.basename bb.nfile fs fs' := by
  refine ⟨fun k hk => torn_node_other m bb fs fs' p n rows h k (fun _ _ => hk _), ?_, ?_⟩
  · obtain ⟨j, k, _, _, rfl⟩ := h
    intro f _ hf
    exact (isFile_putRow _ _ _ _ _ _).mpr ((isFile_putRows _ _ _ _ _ _ _).mpr hf)
  · obtain ⟨j, k, _, _, rfl⟩ := h
    intro f hf
    exact node_writeFile_dir _ _ _ _ _ (node_putRows_dir _ _ _ _ _ _ _ hf)

theorem truncFS_dataOnly (bb : Block) (fs : FS) (j : Nat) :
    DataOnly bb.basename bb.nfile fs (truncFS bb.basename bb.nfile j fs) := by
  refine ⟨fun k hk => truncFS_other _ _ _ _ _ (fun f _ _ => hk f), ?_, ?_⟩
  · intro f hf h
    unfold IsFile
    rw [truncFS_other _ _ _ _ _ (fun f' h1 _ => fileKey_ne (by simp; omega))]
    exact h
  · intro f hf
    by_cases hc : bb.nfile ≤ f ∧ f < bb.nfile + j
    · rw [truncFS_data _ _ _ _ f hc.1 hc.2]; simp
    · rw [truncFS_other _ _ _ _ _ (fun f' h1 h2 => fileKey_ne (by simp; omega))]
      exact hf

theorem attrsSay_congr {fs fs' : FS} {base : CStr} {A : AttrMap} (h1 : fs'.node (fileKey base .attr) = fs.node (fileKey base .attr))
    (h2 : fs'.node (fileKey base .attrV2) = fs.node (fileKey base .attrV2)) (h : AttrsSay env fs base A) :
    AttrsSay env fs' base A := by
  obtain ⟨s1, s2, k1, k2, k3, k4⟩ := h
  exact ⟨s1, s2, by rw [readsV1_congr h1]; exact k1, by rw [readsV2_congr h2]; exact k2, k3, k4⟩

theorem headerSays_congr {fs fs' : FS} {bb : Block}
    (h : fs'.node (fileKey bb.basename .header) = fs.node (fileKey bb.basename .header)) (hh : HeaderSays fs bb) :
    HeaderSays fs' bb := by
  unfold HeaderSays at hh ⊢
  rw [bytes_congr h, h]
  exact hh

/-- The header clause for another handle and another disk. -/
theorem Spec.HoldsD.header_shape {fs fs' : FS} {bb' : Block} (h : HoldsD env K bb fs S) (hd : bb'.dtype = bb.dtype)
    (hn : bb'.nmemb = bb.nmemb) (hb : bb'.basename = bb.basename) (hnf : bb.nfile ≤ bb'.nfile)
    (hfs : ∀ k, k ≤ bb.nfile → bb'.fsize.take k = bb.fsize.take k)
    (hnode : fs'.node (fileKey bb.basename .header) = fs.node (fileKey bb.basename .header)) :
    ∀ n k, S.stored = some (n, k) → k ≤ bb'.nfile ∧ n = (bb'.fsize.take k).sum ∧ ∃ ck : List Nat, ck.length = k ∧
      (∀ c ∈ ck, c < 4294967296) ∧ HeaderSays fs' { bb' with nfile := k, fsize := bb'.fsize.take k, fchecksum := ck } := by
  intro n k hs
  obtain ⟨h1, h2, ck, h3, h4, h5⟩ := h.header n k hs
  refine ⟨by omega, by rw [hfs k h1]; exact h2, ck, h3, h4, ?_⟩
  unfold HeaderSays at h5 ⊢
  dsimp only at h5 ⊢
  rw [hd, hn, hb, hfs k h1, bytes_congr hnode, hnode]
  exact h5

/-- Data files changed. -/
theorem Spec.HoldsD.dataChange {fs fs' : FS} {bb' : Block} (h : HoldsD env K bb fs S) (hs : SameShape bb bb') (hl : Layout bb')
    (ha : bb'.attrset = bb.attrset) (hd : bb'.dirty = true) (hfs : DataOnly bb.basename bb.nfile fs fs')
    (rows : Nat → Option (List Byte))
    (hrows : ∀ r bytes, rows r = some bytes → r < S.now.size ∧ row env.m fs' bb r = bytes ∧ Stored env.m fs' bb r) :
    HoldsD env K bb' fs' { S with now := { S.now with rows := rows } } := by
  have hm : ∀ id : FileId, (∀ f, id ≠ .data f) → fs'.node (fileKey bb.basename id) = fs.node (fileKey bb.basename id) :=
    fun id hid => hfs.other _ (fun f => fileKey_ne (hid f))
  have hview : attrView env.m bb'.attrset = S.now.attrs := by rw [ha]; exact h.attrs
  refine ⟨h.ok.shape hs hl, by rw [hs.dtype]; exact h.kind, hs.size.trans h.size, hs.nfile.trans h.nfile,
    h.savable.shape hs hl (by rw [ha]; exact h.savable.attrs) (by rw [hview]; exact h.tame.1.storable), hview,
    by rw [ha]; exact h.pending, h.tame, ?_, ?_, ?_, ?_, ?_, ?_, ?_, ?_⟩
  · intro hk
    rw [hs.base]
    exact attrsSay_congr (hm _ (by simp)) (hm _ (by simp)) (h.saved hk)
  · intro h0; rw [hd] at h0; cases h0
  · exact h.header_shape hs.dtype hs.nmemb hs.base (by rw [hs.nfile]; exact Nat.le_refl _) (fun k _ => by rw [hs.fsize])
      (hm _ (by simp))
  · rw [hs.base]
    refine ⟨?_, ?_, ?_⟩
    · rw [hfs.other _ (fun f => resolve_ne_fileKey _ _)]; exact h.dir.dir
    · rw [hm _ (by simp)]; exact h.dir.header
    · rw [hm _ (by simp)]; exact h.dir.attr
  · rw [hs.base, hm _ (by simp)]; exact h.noOld
  · intro f
    rw [hs.base]
    exact hfs.noDirs f (h.noDirs f)
  · intro hw f hf
    rw [hs.base]
    rw [hs.nfile] at hf
    exact hfs.files f hf (h.data hw f hf)
  · intro r bytes hr
    obtain ⟨g1, g2, g3⟩ := hrows r bytes hr
    refine ⟨g1, by rw [hs.row]; exact g2, ?_⟩
    unfold Stored
    rw [hs.row, hs.rowSize]
    exact g3

theorem dirtied_shape (bb : Block) : SameShape bb { bb with dirty := true } := ⟨rfl, rfl, rfl, rfl, rfl, rfl, rfl⟩

theorem dirtied_layout (h : Layout bb) : Layout { bb with dirty := true } := (dirtied_shape bb).layout h h.nck h.ck32

/-- Nothing but the header flag of the handle changed. -/
theorem Spec.HoldsD.dirtied {fs fs' : FS} (h : HoldsD env K bb fs S) (hfs : DataOnly bb.basename bb.nfile fs fs')
    (rows : Nat → Option (List Byte))
    (hrows : ∀ r bytes, rows r = some bytes → r < S.now.size ∧ row env.m fs' bb r = bytes ∧ Stored env.m fs' bb r) :
    HoldsD env K { bb with dirty := true } fs' { S with now := { S.now with rows := rows } } :=
  h.dataChange (dirtied_shape bb) (dirtied_layout h.ok.layout) rfl rfl hfs rows hrows

/-! ## The operations -/

/-- What is known after an operation that may fail. -/
structure StepMay (env : Env) (K : Kind) (bb : Block) (S : Durable) (op : BOp) (w : World) (r : BAns × Block) (w' : World) : Prop where
  base : r.2.basename = bb.basename
  faults : w'.faults = w.faults
  out : ∃ S', S.Outcome env K op r.1 S' ∧ HoldsD env K r.2 w'.fs S'

/-- What is known when the process was killed. -/
def KilledMay (env : Env) (K : Kind) (bb : Block) (S : Durable) (op : BOp) (w' : World) : Prop :=
  ∃ S' b, S.Killed K op S' ∧ b.basename = bb.basename ∧ HoldsD env K b w'.fs S'

theorem write_may (h : HoldsD env K bb w.fs S) (p : Nat) (a : Arr) (mem : Mem) (sw : Nat)
    (hl : S.now.legal env K (.write p a mem sw)) :
    wpc (runBOp env bb (.write p a mem sw)) w (StepMay env K bb S (.write p a mem sw) w)
      (KilledMay env K bb S (.write p a mem sw)) := by
  obtain ⟨hp, ha, hdis, hconv⟩ := hl
  have hx := ha.xferOk h.ok
  have hL := h.ok.layout
  unfold runBOp
  dsimp only
  by_cases hin : p + a.size / K.nm ≤ S.now.size
  · obtain ⟨q, hq, hpt⟩ := (seek_row hL p hp).1 (by rw [h.size]; exact Nat.le_trans (Nat.le_add_right _ _) hin)
    rw [hq, M.lift_some_bind]
    simp only [ne_eq, not_true_eq_false, if_false]
    have hw : LegalWrite env bb q a mem p K.w sw K.nm (fun e => (toBlock env K a mem sw e).getD []) := by
      refine ⟨hx, hdis, hpt, by rw [h.size]; exact hin, fun e he => ?_⟩
      obtain ⟨b, hb⟩ := Option.isSome_iff_exists.mp (hconv hin e he)
      show _ = some ((toBlock env K a mem sw e).getD [])
      rw [hb, h.kind]
      exact hb
    have hlen := fun i hi => hw.row_length i hi
    have htorn : ∀ fs', Torn env.m bb w.fs fs' p (rowOfElems (fun e => (toBlock env K a mem sw e).getD []) K.nm) (a.size / K.nm) →
        ∀ r bytes, (S.now.forget p (a.size / K.nm)).rows r = some bytes →
          r < S.now.size ∧ row env.m fs' bb r = bytes ∧ Stored env.m fs' bb r := by
      intro fs' ht r bytes hr
      simp only [Content.forget] at hr
      split at hr
      · cases hr
      · rename_i hc
        obtain ⟨g1, g2, g3⟩ := h.rows r bytes hr
        have := torn_rows_out env.m bb w.fs fs' p _ _ ht (fun i hi => by rw [hlen i hi]; exact Nat.le_refl _) r (by omega) g3
        refine ⟨g1, this.trans g2, ?_⟩
        unfold Stored
        rw [this]
        exact g3
    rw [wpc_bind]
    apply wpc_mono (hw.spec w)
    · intro x w1 d
      rw [wpc_pure]
      refine ⟨d.shape.base, d.faults, ?_⟩
      by_cases hrc : x.rc = 0
      · obtain ⟨hfs, hfile, _⟩ := d.done hrc
        refine ⟨_, Durable.Outcome.done _ _ ?_, ?_⟩
        · simp only [Content.answers]
          rw [if_pos hin]
          exact ⟨hrc, d.native⟩
        · have hnext : S.next env K (.write p a mem sw) = { S with now := { S.now with
              rows := fun r =>
                if p ≤ r ∧ r < p + a.size / K.nm then some (arrayRow env K a mem sw (r - p)) else S.now.rows r } } := by
            simp only [Durable.next, Content.next]
            rw [if_pos hin]
          rw [hnext]
          apply h.dataChange d.shape d.layout d.attrs d.dirty (by rw [hfs]; exact putRows_dataOnly _ _ _ _ _ _)
          intro r bytes hr
          by_cases hc : p ≤ r ∧ r < p + a.size / K.nm
          · simp only [if_pos hc] at hr
            have hr := Option.some.inj hr
            have := row_putRows_in env.m bb w.fs p _ _ hlen hfile (r - p) (by omega)
            rw [← hfs, show p + (r - p) = r by omega] at this
            refine ⟨by omega, by rw [this]; exact hr, ?_⟩
            unfold Stored
            rw [this]
            exact hlen _ (by omega)
          · simp only [if_neg hc] at hr
            obtain ⟨g1, g2, g3⟩ := h.rows r bytes hr
            have : row env.m w1.fs bb r = row env.m w.fs bb r := by
              rw [hfs]
              exact row_putRows_out env.m bb w.fs p _ _ (fun i hi => by rw [hlen i hi]; exact Nat.le_refl _) r (by omega) g3
            refine ⟨g1, this.trans g2, ?_⟩
            unfold Stored
            rw [this]
            exact g3
      · obtain ⟨hrc, ht, _⟩ := d.failed hrc
        exact ⟨_, Durable.Outcome.write p a mem sw _ hrc hin d.native d.memframe,
          h.dataChange d.shape d.layout d.attrs d.dirty (torn_dataOnly ht) _ (htorn _ ht)⟩
    · rintro w1 ⟨ht, _⟩
      exact ⟨_, { bb with dirty := true }, Durable.Killed.write p a mem sw hin, rfl, h.dirtied (torn_dataOnly ht) _ (htorn _ ht)⟩
  · have hnext : S.next env K (.write p a mem sw) = S := by
      simp only [Durable.next, Content.next]
      rw [if_neg hin]
    have hans : ∀ x : BAns, x.rc = -1 → x.mem = mem → S.now.answers env K (.write p a mem sw) x := by
      intro x h1 h2
      simp only [Content.answers]
      rw [if_neg hin]
      exact ⟨h1, h2⟩
    by_cases hps : p ≤ S.now.size
    · obtain ⟨q, hq, hpt⟩ := (seek_row hL p hp).1 (by rw [h.size]; omega)
      rw [hq, M.lift_some_bind]
      simp only [ne_eq, not_true_eq_false, if_false]
      have e1 := blockWrite_range env bb a K.w sw K.nm hx q p mem w hpt (by rw [← hL.size, h.size]; exact hps)
        (by rw [← hL.size, h.size]; omega)
      rw [wpc_bind]
      unfold wpc
      rw [e1]
      refine ⟨rfl, rfl, S, ?_, ?_⟩
      · have := Durable.Outcome.done (S := S) _ _ (hans ⟨-1, mem, none⟩ rfl rfl)
        rw [hnext] at this
        exact this
      · exact h.dirtied (DataOnly.refl _ _ _) S.now.rows h.rows
    · rw [(seek_row hL p hp).2 (by rw [h.size]; omega), M.lift_some_bind]
      refine ⟨rfl, rfl, S, ?_, h⟩
      have := Durable.Outcome.done (S := S) _ _ (hans ⟨-1, mem, none⟩ rfl rfl)
      rw [hnext] at this
      exact this

theorem read_may (h : HoldsD env K bb w.fs S) (p : Nat) (a : Arr) (mem : Mem) (sw : Nat)
    (hl : S.now.legal env K (.read p a mem sw)) :
    wpc (runBOp env bb (.read p a mem sw)) w (StepMay env K bb S (.read p a mem sw) w)
      (KilledMay env K bb S (.read p a mem sw)) := by
  obtain ⟨hp, ha, hdis, hsup, hconv⟩ := hl
  have hx := ha.xferOk h.ok
  have hL := h.ok.layout
  have hnm := h.ok.memb0
  unfold runBOp
  dsimp only
  by_cases hin : p + a.size / K.nm ≤ S.now.size
  · obtain ⟨q, hq, hpt⟩ := (seek_row hL p hp).1 (by rw [h.size]; exact Nat.le_trans (Nat.le_add_right _ _) hin)
    rw [hq, M.lift_some_bind]
    simp only [ne_eq, not_true_eq_false, if_false]
    let out : Nat → List Byte := fun e =>
      (((S.now.rows (p + e / K.nm)).bind fun bytes => fromBlock env K a bytes (e % K.nm))).getD []
    have hout : ∀ e, e < a.size / K.nm * K.nm → ∃ bytes, S.now.rows (p + e / K.nm) = some bytes ∧
        fromBlock env K a bytes (e % K.nm) = some (out e) := by
      intro e he
      have hi : e / K.nm < a.size / K.nm := (Nat.div_lt_iff_lt_mul hnm).mpr he
      obtain ⟨bytes, h1, h2⟩ := hconv hin (e / K.nm) hi
      obtain ⟨b, hb⟩ := Option.isSome_iff_exists.mp (h2 (e % K.nm) (Nat.mod_lt _ hnm))
      refine ⟨bytes, h1, ?_⟩
      show _ = some ((((S.now.rows (p + e / K.nm)).bind fun bytes => fromBlock env K a bytes (e % K.nm))).getD [])
      rw [h1]
      simp only [Option.bind_some]
      rw [hb]
      rfl
    have hr : LegalRead env w.fs bb q a p K.w sw K.nm out := by
      refine ⟨hx, hpt, by rw [h.size]; exact hin, by rw [h.kind]; exact hsup, fun e he _ => ?_⟩
      obtain ⟨bytes, h1, h2⟩ := hout e he
      unfold elemOfRows
      rw [(h.rows _ _ h1).2.1, h.kind]
      exact h2
    rw [wpc_bind]
    apply wpc_mono (hr.spec (wd := w) (mem := mem))
    · intro x w1 d
      rw [wpc_pure]
      have hH : HoldsD env K x.bb w1.fs S := by rw [d.same, d.fs]; exact h
      have hfr : ∀ y, ¬ InElems a sw 0 (a.size / K.nm * K.nm) y → x.mem y = mem y :=
        fun y hy => d.memframe y (by simpa using hy)
      refine ⟨by rw [d.same], d.faults, S, ?_, hH⟩
      by_cases hrc : x.rc = 0
      · apply Durable.Outcome.done (S := S)
        simp only [Content.answers]
        rw [if_pos hin]
        refine ⟨hrc, fun i hi j hj => ?_, hfr⟩
        have he : i * K.nm + j < a.size / K.nm * K.nm := by
          calc i * K.nm + j < i * K.nm + K.nm := by omega
            _ = (i + 1) * K.nm := (Nat.succ_mul _ _).symm
            _ ≤ _ := Nat.mul_le_mul_right _ hi
        obtain ⟨bytes, h1, h2⟩ := hout (i * K.nm + j) he
        have hdv : (i * K.nm + j) / K.nm = i := by
          rw [Nat.mul_comm, Nat.mul_add_div hnm, Nat.div_eq_of_lt hj]; rfl
        have hmd : (i * K.nm + j) % K.nm = j := by
          rw [Nat.mul_comm, Nat.mul_add_mod, Nat.mod_eq_of_lt hj]
        rw [hdv] at h1
        rw [hmd] at h2
        have := (d.done hrc).2.2 hdis (i * K.nm + j) he
        simp only [Nat.zero_mul, Nat.zero_add] at this
        exact ⟨bytes, h1, by rw [h2, this]⟩
      · exact Durable.Outcome.read p a mem sw _ (d.failed hrc).1 hfr
    · rintro w1 ⟨hfs, _⟩
      exact ⟨S, bb, Durable.Killed.read p a mem sw, rfl, by rw [hfs]; exact h⟩
  · have hout : S.Outcome env K (.read p a mem sw) ⟨-1, mem, none⟩ S := by
      apply Durable.Outcome.done (S := S)
      simp only [Content.answers]
      rw [if_neg hin]
      exact ⟨trivial, trivial⟩
    by_cases hps : p ≤ S.now.size
    · obtain ⟨q, hq, hpt⟩ := (seek_row hL p hp).1 (by rw [h.size]; omega)
      rw [hq, M.lift_some_bind]
      simp only [ne_eq, not_true_eq_false, if_false]
      have e1 := blockRead_range env bb a K.w sw K.nm hx q p mem w hpt (by rw [← hL.size, h.size]; exact hps)
        (by rw [← hL.size, h.size]; omega)
      rw [wpc_bind]
      unfold wpc
      rw [e1]
      exact ⟨rfl, rfl, S, hout, h⟩
    · rw [(seek_row hL p hp).2 (by rw [h.size]; omega), M.lift_some_bind]
      exact ⟨rfl, rfl, S, hout, h⟩

/-- The handle has grown. -/
theorem Spec.HoldsD.grown {fs fs' : FS} (h : HoldsD env K bb fs S) (sizes : List Nat) (hl : S.now.legal env K (.grow sizes)) (j : Nat)
    (hfs : fs' = truncFS bb.basename bb.nfile j fs) (wh : Bool) (hw : wh = true → S.whole = true ∧ j = sizes.length) :
    HoldsD env K (growInternal bb sizes) fs' { S with now := S.now.next env K (.grow sizes), whole := wh } := by
  obtain ⟨hs1, hs2, hs3⟩ := hl
  have hL := h.ok.layout
  have hsz : bb.fsize.sum = S.now.size := by rw [← hL.size]; exact h.size
  have g := growInternal_grown hL (grow := sizes) (by rw [hsz]; exact hs1)
  have hdo : DataOnly bb.basename bb.nfile fs fs' := by rw [hfs]; exact truncFS_dataOnly bb fs j
  have hm : ∀ id : FileId, (∀ f, id ≠ .data f) → fs'.node (fileKey bb.basename id) = fs.node (fileKey bb.basename id) :=
    fun id hid => hdo.other _ (fun f => fileKey_ne (hid f))
  have hsv := h.savable
  have hsum : (growInternal bb sizes).fsize.sum = S.now.size + sizes.sum := by rw [g.fsize, List.sum_append, hsz]
  refine ⟨⟨g.layout, h.ok.item, h.ok.item0, h.ok.memb, h.ok.memb0, h.ok.felInt, h.ok.buf, h.ok.bufMax,
      by rw [hsum]; exact hs2⟩, h.kind, by rw [g.size, h.size]; rfl, by rw [g.nfile, h.nfile]; rfl,
    ⟨hsv.fmt, ⟨hsv.header.dt, hsv.header.nmemb0, hsv.header.nmembMax, g.layout.nfile, g.layout.nck,
        by rw [g.nfile, h.nfile]; exact hs3, ?_, g.layout.ck32⟩, rfl, rfl, hsv.attrs, hsv.storable, hsv.base, hsv.notMeta⟩,
    h.attrs, h.pending, h.tame, ?_, (fun hd => nomatch hd), ?_, ?_, ?_, ?_, ?_, ?_⟩
  · intro s hs
    have := mem_le_sum hs
    omega
  · intro hk
    rw [g.base]
    exact attrsSay_congr (hm _ (by simp)) (hm _ (by simp)) (h.saved hk)
  · apply h.header_shape g.dtype g.nmemb g.base (by rw [g.nfile]; omega) _ (hm _ (by simp))
    intro k hk
    rw [g.fsize, List.take_append_of_le_length (by rw [hL.nfile]; exact hk)]
  · refine ⟨?_, ?_, ?_⟩
    · exact (hdo.other _ (fun f => resolve_ne_fileKey _ _)).trans h.dir.dir
    · rw [g.base, hm _ (by simp)]; exact h.dir.header
    · rw [g.base, hm _ (by simp)]; exact h.dir.attr
  · exact (hm _ (by simp)).trans h.noOld
  · intro f
    rw [g.base]
    exact hdo.noDirs f (h.noDirs f)
  · intro hwh f hf
    obtain ⟨h1, h2⟩ := hw hwh
    rw [g.nfile] at hf
    rw [g.base]
    by_cases hc : bb.nfile ≤ f
    · exact ⟨[], by rw [hfs]; exact truncFS_data _ _ _ _ f hc (by omega)⟩
    · exact hdo.files f (by omega) (h.data h1 f (by omega))
  · intro r bytes hr
    obtain ⟨g1, g2, g3⟩ := h.rows r bytes hr
    have hrow : row env.m fs' (growInternal bb sizes) r = row env.m fs bb r := by
      rw [hfs]
      exact g.row_kept hL _ (by rw [h.size]; exact g1)
    refine ⟨by show r < S.now.size + sizes.sum; omega, hrow.trans g2, ?_⟩
    unfold Stored
    rw [hrow]
    exact g3

theorem Spec.HoldsD.killedGrow {fs : FS} (h : HoldsD env K bb fs S) (j : Nat) :
    HoldsD env K { bb with dirty := true } (truncFS bb.basename bb.nfile j fs) S := by
  apply h.dirtied (truncFS_dataOnly bb fs j) S.now.rows
  intro r bytes hr
  obtain ⟨g1, g2, g3⟩ := h.rows r bytes hr
  have hL := h.ok.layout
  have hf : rowFile bb r < bb.nfile := by
    rw [← hL.nfile]
    exact (locate_lt bb.fsize r (by rw [← hL.size, h.size]; exact g1)).1
  have hrow : row env.m (truncFS bb.basename bb.nfile j fs) bb r = row env.m fs bb r := by
    unfold row
    rw [bytes_congr (truncFS_other _ _ _ _ _ (fun f h1 _ => fileKey_ne (by simp; omega)))]
  refine ⟨g1, hrow.trans g2, ?_⟩
  unfold Stored
  rw [hrow]
  exact g3

theorem grow_may (h : HoldsD env K bb w.fs S) (sizes : List Nat) (hl : S.now.legal env K (.grow sizes)) :
    wpc (runBOp env bb (.grow sizes)) w (StepMay env K bb S (.grow sizes) w) (KilledMay env K bb S (.grow sizes)) := by
  unfold runBOp blockGrow
  dsimp only
  rw [wpc_bind, wpc_bind]
  apply wpc_mono (wpc_truncFiles bb.basename sizes.length bb.nfile w)
  · rintro b w1 ⟨f1, j, hj, hfs, hbj, _⟩
    cases b with
    | true =>
      simp only [if_true]
      rw [wpc_pure, wpc_pure]
      exact ⟨rfl, f1, _, Durable.Outcome.done _ _ rfl, h.grown sizes hl j hfs S.whole (fun hw => ⟨hw, hbj rfl⟩)⟩
    | false =>
      simp only [Bool.false_eq_true, if_false]
      rw [wpc_pure, wpc_pure]
      exact ⟨rfl, f1, _, Durable.Outcome.grow sizes _ rfl, h.grown sizes hl j hfs false (fun hw => nomatch hw)⟩
  · rintro w1 ⟨_, j, _, hfs⟩
    exact ⟨S, { bb with dirty := true }, Durable.Killed.grow sizes, rfl, by rw [hfs]; exact h.killedGrow j⟩

theorem attr_may (h : HoldsD env K bb w.fs S) (op : AttrOp) (hl : S.now.legal env K (.attr op)) :
    wpc (runBOp env bb (.attr op)) w (StepMay env K bb S (.attr op) w) (KilledMay env K bb S (.attr op)) := by
  obtain ⟨h1, h2⟩ := hl
  obtain ⟨es, hi⟩ := h.savable.attrs
  have hes : findE es = S.now.attrs := hi.view_eq.symm.trans h.attrs
  rw [← hes] at h1 h2
  obtain ⟨ans, s', es', e1, hi', hn, ha⟩ := attrStep_spec hi op h1
  have hd := attrStep_dirty hi op h1 e1
  rw [hes] at hn ha h2
  have hview : attrView env.m s' = attrNext env.m S.now.attrs op := hi'.view_eq.trans hn
  have hs : SameShape bb { bb with attrset := s' } := ⟨rfl, rfl, rfl, rfl, rfl, rfl, rfl⟩
  have hl' : Layout { bb with attrset := s' } := hs.layout h.ok.layout h.ok.layout.nck h.ok.layout.ck32
  unfold runBOp
  dsimp only
  rw [e1, M.lift_some_bind]
  refine ⟨rfl, rfl, _, Durable.Outcome.done _ _ ⟨ans, rfl, ha⟩, ?_⟩
  refine ⟨h.ok.shape hs hl', h.kind, h.size, h.nfile,
    h.savable.shape hs hl' ⟨es', hi'⟩ (by rw [hview]; exact h2.storable), hview, ?_, ⟨h2, h.tame.2⟩, h.saved, h.clean,
    ?_, h.dir, h.noOld, h.noDirs, h.data, h.rows⟩
  · show s'.dirty = (S.now.pending || op.isSet)
    rw [hd, h.pending]
  · exact h.header_shape rfl rfl rfl (Nat.le_refl _) (fun _ _ => rfl) rfl

/-! ## Flush -/

/-- The header half of a flush, complete. -/
def headerFS (bb : Block) (fs : FS) : FS :=
  if bb.dirty then fs.set (fileKey bb.basename .header) (.file (headerText bb)) else fs

/-- The header half of a flush, interrupted. -/
def HeaderTorn (bb : Block) (fs fs' : FS) : Prop :=
  fs' = fs ∨ ∃ n, fs' = fs.set (fileKey bb.basename .header) (.file ((headerText bb).take n))

/-- The handle after a flush that wrote the header, whatever happened to the attributes. -/
def cleaned (bb : Block) : Block := { bb with dirty := false, attrset := { bb.attrset with dirty := false } }

theorem wpc_writeAttrsV2_set (s : AttrSet) (base : CStr) (txt : CStr) (w : World)
    (hl : attrLines env s.list { s with dirty := false } = some (txt, { s with dirty := false })) :
    wpc (writeAttrsV2 env s base) w (fun r _ => r.2 = { s with dirty := false }) (fun _ => True) := by
  unfold writeAttrsV2
  simp only
  rw [wpc_bind]
  unfold openAFile
  apply wpc_fopen_w
  · intro b w1 _ _ _ _
    cases b with
    | false => simp only [Bool.false_eq_true, if_false]; rw [wpc_pure]
    | true =>
      simp only [if_true]
      rw [hl, M.lift_some_bind]
      simp only
      rw [wpc_bind]
      apply wpc_writeText
      · intro b2 w2 _ _ _ _
        cases b2 with
        | false => simp only [Bool.false_eq_true, if_false]; rw [wpc_pure]
        | true => simp only [if_true]; rw [wpc_pure]
      · intro _ _ _ _; trivial
  · intro _ _ _; trivial

theorem wpc_flushHeader_bb (bb : Block) (w : World) :
    wpc (flushHeader bb) w (fun r _ => r.1 = false → r.2 = bb ∧ bb.dirty = true) (fun _ => True) := by
  unfold flushHeader
  by_cases hd : bb.dirty = true
  · rw [if_pos hd, wpc_bind]
    unfold openAFile
    apply wpc_fopen_w
    · intro b w1 _ _ _ _
      cases b with
      | false => simp only [Bool.false_eq_true, if_false]; rw [wpc_pure]; exact fun _ => ⟨rfl, hd⟩
      | true =>
        simp only [if_true]
        rw [wpc_bind]
        apply wpc_writeText
        · intro b2 w2 _ _ _ _
          cases b2 with
          | false => simp only [Bool.false_eq_true, if_false]; rw [wpc_pure]; exact fun _ => ⟨rfl, hd⟩
          | true => simp only [if_true]; rw [wpc_pure]; intro h; cases h
        · intro _ _ _ _; trivial
    · intro _ _ _; trivial
  · rw [if_neg hd, wpc_pure]
    intro h; cases h

/-- **Flush**, all cases. -/
theorem wpc_blockFlush_cases (bb : Block) (txt : CStr) (w : World) (hns : NoSilent w.faults)
    (hl : bb.attrset.dirty = true →
      attrLines env bb.attrset.list { bb.attrset with dirty := false } = some (txt, { bb.attrset with dirty := false })) :
    wpc (blockFlush env bb) w
      (fun r w' => w'.faults = w.faults ∧
        ((r.1 = 0 ∧ r.2 = cleaned bb ∧ w'.fs = flushFS bb txt w.fs) ∨
        (r.1 = -1 ∧ r.2 = bb ∧ bb.dirty = true ∧ HeaderTorn bb w.fs w'.fs) ∨
        (r.1 = -1 ∧ r.2 = cleaned bb ∧ bb.attrset.dirty = true ∧
          Rewritten (headerFS bb w.fs) w'.fs (fileKey bb.basename .attrV2) txt)))
      (fun w' => HeaderTorn bb w.fs w'.fs ∨
        bb.attrset.dirty = true ∧ Rewritten (headerFS bb w.fs) w'.fs (fileKey bb.basename .attrV2) txt) := by
  have hcl : bb.attrset.dirty = false → { bb with dirty := false } = cleaned bb := by
    intro h
    unfold cleaned
    cases hb : bb.attrset
    rw [hb] at h
    cases h
    rw [← hb]
  unfold blockFlush
  rw [wpc_bind]
  apply wpc_mono (wpc_and (wpc_flushHeader bb w) (wpc_flushHeader_bb bb w))
  · rintro ⟨ok, bb1⟩ w1 ⟨⟨hf1, h1, h2, _⟩, h4⟩
    simp only at h2 h4
    cases ok with
    | false =>
      simp only [Bool.not_false, if_true]
      rw [wpc_pure]
      obtain ⟨rfl, hd⟩ := h4 rfl
      refine ⟨hf1, Or.inr (Or.inl ⟨rfl, rfl, hd, ?_⟩)⟩
      rcases h1 with h | ⟨_, n, h⟩
      · exact Or.inl h
      · exact Or.inr ⟨n, h⟩
    | true =>
      obtain ⟨rfl, g2⟩ := h2 rfl
      have g2 : w1.fs = headerFS bb w.fs := g2 hns
      simp only [Bool.not_true, Bool.false_eq_true, if_false]
      by_cases hda : bb.attrset.dirty = true
      · rw [if_pos hda]
        have hl := hl hda
        rw [wpc_bind]
        apply wpc_mono (wpc_and (wpc_writeAttrsV2 env bb.attrset bb.basename txt _ w1 hl)
          (wpc_writeAttrsV2_set bb.attrset bb.basename txt w1 hl))
        · rintro ⟨rc, s⟩ w2 ⟨⟨k1, k2, k3, k4, _⟩, k6⟩
          simp only at k3 k4 k6
          subst k6
          rcases k3 with rfl | rfl
          · simp only [ne_eq, not_true_eq_false, if_false]
            rw [wpc_pure]
            refine ⟨k1.trans hf1, Or.inl ⟨rfl, rfl, ?_⟩⟩
            rw [(k4 rfl).2 (by rw [hf1]; exact hns), g2]
            simp [flushFS, headerFS, hda]
          · simp only [ne_eq, show (-1 : Int) ≠ 0 by decide, not_false_eq_true, if_true]
            rw [wpc_pure]
            rw [g2] at k2
            exact ⟨k1.trans hf1, Or.inr (Or.inr ⟨rfl, rfl, hda, k2⟩)⟩
        · rintro w2 ⟨⟨_, k2⟩, _⟩
          rw [g2] at k2
          exact Or.inr ⟨hda, k2⟩
      · rw [if_neg hda, wpc_pure]
        refine ⟨hf1, Or.inl ⟨rfl, hcl (by simpa using hda), ?_⟩⟩
        rw [g2]
        simp [flushFS, headerFS, hda]
  · rintro w1 ⟨⟨_, h2⟩, _⟩
    refine Or.inl ?_
    rcases h2 with h | ⟨_, n, h⟩
    · exact Or.inl h
    · exact Or.inr ⟨n, h⟩

theorem headerFS_other (bb : Block) (fs : FS) (k : Key) (h : k ≠ fileKey bb.basename .header) :
    (headerFS bb fs).node k = fs.node k := by
  unfold headerFS
  split
  · exact FS.set_other _ _ _ _ h
  · rfl

theorem flushFS_eq (bb : Block) (txt : CStr) (fs : FS) : flushFS bb txt fs =
    if bb.attrset.dirty then (headerFS bb fs).set (fileKey bb.basename .attrV2) (.file txt) else headerFS bb fs := rfl

/-- Metadata files changed: what is still to be shown is what they say. -/
theorem Spec.HoldsD.metaChange {fs fs' : FS} {bb' : Block} {A' : Content} {st : Option (Nat × Nat)} {ak : Bool}
    (h : HoldsD env K bb fs S) (hs : SameShape bb bb') (hl : Layout bb') (hsz : A'.size = S.now.size)
    (hnf : A'.nfile = S.now.nfile) (hrows : A'.rows = S.now.rows) (hat : A'.attrs = S.now.attrs)
    (hw : bb'.attrset = { bb.attrset with dirty := A'.pending })
    (hnode : ∀ k, k ≠ fileKey bb.basename .header → k ≠ fileKey bb.basename .attrV2 → fs'.node k = fs.node k)
    (hdir : fs'.node (fileKey bb.basename .header) ≠ some .dir ∧ fs'.node (fileKey bb.basename .attrV2) ≠ some .dir)
    (hsay : ak = true → Tame env.m A'.saved ∧ AttrsSay env fs' bb.basename A'.saved)
    (hclean : bb'.dirty = false → st = some (S.now.size, S.now.nfile) ∧ HeaderSays fs' bb')
    (hhead : ∀ n k, st = some (n, k) → k ≤ bb'.nfile ∧ n = (bb'.fsize.take k).sum ∧ ∃ ck : List Nat, ck.length = k ∧
      (∀ c ∈ ck, c < 4294967296) ∧ HeaderSays fs' { bb' with nfile := k, fsize := bb'.fsize.take k, fchecksum := ck }) :
    HoldsD env K bb' fs' ⟨A', st, ak, S.whole⟩ := by
  have hdata : ∀ f, fs'.node (fileKey bb.basename (.data f)) = fs.node (fileKey bb.basename (.data f)) :=
    fun f => hnode _ (fileKey_ne (by simp)) (fileKey_ne (by simp))
  obtain ⟨es, hi⟩ := h.savable.attrs
  have hi' : AttrInv env.m bb'.attrset es := by rw [hw]; exact hi.dirty _
  have hview : attrView env.m bb'.attrset = S.now.attrs := by rw [hi'.view_eq, ← hi.view_eq]; exact h.attrs
  refine ⟨h.ok.shape hs hl, by rw [hs.dtype]; exact h.kind, by rw [hs.size]; exact h.size.trans hsz.symm,
    by rw [hs.nfile]; exact h.nfile.trans hnf.symm, h.savable.shape hs hl ⟨es, hi'⟩ (by rw [hview]; exact h.tame.1.storable),
    hview.trans hat.symm, by rw [hw], ⟨by rw [hat]; exact h.tame.1, fun hk => (hsay hk).1⟩,
    fun hk => by rw [hs.base]; exact (hsay hk).2, ?_, hhead, ?_, ?_, ?_, ?_, ?_⟩
  · intro hd
    obtain ⟨h1, h2⟩ := hclean hd
    exact ⟨by rw [hsz, hnf]; exact h1, h2⟩
  · rw [hs.base]
    refine ⟨?_, hdir.1, hdir.2⟩
    rw [hnode _ (resolve_ne_fileKey _ _) (resolve_ne_fileKey _ _)]
    exact h.dir.dir
  · rw [hs.base, hnode _ (fileKey_ne (by simp)) (fileKey_ne (by simp))]
    exact h.noOld
  · intro f
    rw [hs.base, hdata]
    exact h.noDirs f
  · intro hwh f hf
    unfold IsFile
    rw [hs.base, hdata]
    exact h.data hwh f (by rw [← hs.nfile]; exact hf)
  · intro r bytes hr
    have hr : S.now.rows r = some bytes := by rw [← hrows]; exact hr
    obtain ⟨g1, g2, g3⟩ := h.rows r bytes hr
    have hrow : row env.m fs' bb' r = row env.m fs bb r := by
      rw [hs.row]
      unfold row
      rw [bytes_congr (hdata _)]
    refine ⟨by show r < A'.size; rw [hsz]; exact g1, hrow.trans g2, ?_⟩
    unfold Stored
    rw [hrow, hs.rowSize]
    exact g3

/-- The complete header half of a flush makes the header say what the handle says. -/
theorem Spec.HoldsD.headerFS_says {fs : FS} (h : HoldsD env K bb fs S) : HeaderSays (headerFS bb fs) bb := by
  unfold headerFS
  split
  · unfold HeaderSays FS.bytes
    rw [FS.set_node]
    exact ⟨rfl, parseHeader_headerText bb h.savable.header⟩
  · rename_i hd
    exact (h.clean (by simpa using hd)).2

theorem headerSays_stored {fs : FS} {bb bb' : Block} (hs : SameShape bb bb') (_hck : bb'.fchecksum = bb.fchecksum)
    (hL : Layout bb) (hh : HeaderSays fs bb) : ∀ n k, some (bb.size, bb.nfile) = some (n, k) → k ≤ bb'.nfile ∧
      n = (bb'.fsize.take k).sum ∧ ∃ ck : List Nat, ck.length = k ∧ (∀ c ∈ ck, c < 4294967296) ∧
      HeaderSays fs { bb' with nfile := k, fsize := bb'.fsize.take k, fchecksum := ck } := by
  intro n k he
  injection he with he
  injection he with h1 h2
  subst h1 h2
  have ht : bb'.fsize.take bb.nfile = bb.fsize := by
    rw [hs.fsize]
    exact List.take_of_length_le (by rw [hL.nfile]; exact Nat.le_refl _)
  refine ⟨by rw [hs.nfile]; exact Nat.le_refl _, by rw [ht]; exact hL.size, bb.fchecksum, hL.nck, hL.ck32, ?_⟩
  unfold HeaderSays at hh ⊢
  dsimp only
  rw [ht, hs.dtype, hs.nmemb, hs.base]
  exact hh

theorem cleaned_shape (bb : Block) : SameShape bb (cleaned bb) := ⟨rfl, rfl, rfl, rfl, rfl, rfl, rfl⟩

/-- The text of the attribute file that a flush writes. -/
theorem Spec.HoldsD.attrText {fs : FS} (h : HoldsD env K bb fs S) : ∃ txt,
    (bb.attrset.dirty = true →
      attrLines env bb.attrset.list { bb.attrset with dirty := false } = some (txt, { bb.attrset with dirty := false })) ∧
    (bb.attrset.dirty = true → AttrsSay env (flushFS bb txt fs) bb.basename S.now.attrs) := by
  by_cases hd : bb.attrset.dirty = true
  · obtain ⟨es, hi⟩ := h.savable.attrs
    have hes : findE es = S.now.attrs := hi.view_eq.symm.trans h.attrs
    obtain ⟨txt, s1, k1, ⟨es1, _, _, k2⟩, k4⟩ := flushFS_attrs h.savable.fmt h.savable.storable hi
      (fun _ => noOld_ok (env := env) h.noOld _) (fun h0 => by rw [hd] at h0; cases h0)
    obtain ⟨rfl, _⟩ := k2 (fun e he => (h.tame.1 e.name e.val (by rw [← hes]; exact findE_mem hi.sorted he)).2)
    exact ⟨txt, k1, fun _ => by rw [← hes]; exact k4⟩
  · exact ⟨[], fun h0 => absurd h0 hd, fun h0 => absurd h0 hd⟩

theorem Spec.HoldsD.flushedOk {fs : FS} (h : HoldsD env K bb fs S) {txt : CStr}
    (hsay : bb.attrset.dirty = true → AttrsSay env (flushFS bb txt fs) bb.basename S.now.attrs) :
    HoldsD env K (cleaned bb) (flushFS bb txt fs) S.flushed := by
  have hL := h.ok.layout
  have hs := cleaned_shape bb
  have hl : Layout (cleaned bb) := hs.layout hL hL.nck hL.ck32
  have hh : HeaderSays (flushFS bb txt fs) bb := by
    apply headerSays_congr _ h.headerFS_says
    rw [flushFS_eq]
    split
    · exact FS.set_other _ _ _ _ (fileKey_ne (by simp))
    · rfl
  have hA : S.flushed = ⟨S.flushed.now, some (S.now.size, S.now.nfile), S.attrsKnown || S.now.pending, S.whole⟩ := rfl
  rw [hA]
  have hnow : S.flushed.now = { S.now with saved := if S.now.pending then S.now.attrs else S.now.saved, pending := false } := by
    simp only [Durable.flushed]
    cases hp : S.now.pending with
    | true => rfl
    | false => cases hc : S.now; rw [hc] at hp; cases hp; rfl
  rw [hnow]
  refine h.metaChange hs hl rfl rfl rfl rfl rfl (fun k h1 h2 => flushFS_other bb txt fs k h1 h2) (flush_notDir txt fs h.dir) ?_ ?_ ?_
  · intro hk
    cases hp : S.now.pending with
    | true =>
      simp only [if_true]
      exact ⟨h.tame.1, hsay (h.pending.trans hp)⟩
    | false =>
      rw [hp, Bool.or_false] at hk
      simp only [Bool.false_eq_true, if_false]
      refine ⟨h.tame.2 hk, attrsSay_congr ?_ ?_ (h.saved hk)⟩
      · exact flushFS_other bb txt fs _ (fileKey_ne (by simp)) (fileKey_ne (by simp))
      · rw [flushFS_attr, h.pending, hp]
        rfl
  · intro _
    exact ⟨rfl, hh⟩
  · have := headerSays_stored hs rfl hL hh
    rw [h.size, h.nfile] at this
    exact this

theorem Spec.HoldsD.headerTorn {fs fs' : FS} (h : HoldsD env K bb fs S) (ht : HeaderTorn bb fs fs') :
    HoldsD env K { bb with dirty := true } fs' { S with stored := none } := by
  have hL := h.ok.layout
  have hother : ∀ k, k ≠ fileKey bb.basename .header → fs'.node k = fs.node k := by
    intro k hk
    rcases ht with rfl | ⟨n, rfl⟩
    · rfl
    · exact FS.set_other _ _ _ _ hk
  refine h.metaChange (A' := S.now) (dirtied_shape bb) (dirtied_layout hL) rfl rfl rfl rfl ?_ (fun k h1 _ => hother k h1) ⟨?_, ?_⟩ ?_
    (fun h0 => nomatch h0) (fun n k h0 => nomatch h0)
  · show bb.attrset = _
    rw [← h.pending]
  · rcases ht with rfl | ⟨n, rfl⟩
    · exact h.dir.header
    · rw [FS.set_node]; simp
  · rw [hother _ (fileKey_ne (by simp))]; exact h.dir.attr
  · intro hk
    exact ⟨h.tame.2 hk, attrsSay_congr (hother _ (fileKey_ne (by simp))) (hother _ (fileKey_ne (by simp))) (h.saved hk)⟩

theorem Spec.HoldsD.attrsTorn {fs fs' : FS} (h : HoldsD env K bb fs S) {txt : CStr}
    (ht : Rewritten (headerFS bb fs) fs' (fileKey bb.basename .attrV2) txt) :
    HoldsD env K (cleaned bb) fs' S.attrsLost := by
  have hL := h.ok.layout
  have hs := cleaned_shape bb
  have hl : Layout (cleaned bb) := hs.layout hL hL.nck hL.ck32
  have hother : ∀ k, k ≠ fileKey bb.basename .attrV2 → fs'.node k = (headerFS bb fs).node k := by
    intro k hk
    rcases ht with rfl | ⟨n, rfl⟩
    · rfl
    · exact FS.set_other _ _ _ _ hk
  have hh : HeaderSays fs' bb := headerSays_congr (hother _ (fileKey_ne (by simp))) h.headerFS_says
  refine h.metaChange (A' := { S.now with pending := false }) hs hl rfl rfl rfl rfl rfl
    (fun k h1 h2 => (hother k h2).trans (headerFS_other bb fs k h1)) ⟨?_, ?_⟩ (fun h0 => nomatch h0) (fun _ => ⟨rfl, hh⟩) ?_
  · rw [hother _ (fileKey_ne (by simp))]
    unfold headerFS
    split
    · rw [FS.set_node]; simp
    · exact h.dir.header
  · rcases ht with rfl | ⟨n, rfl⟩
    · rw [headerFS_other _ _ _ (fileKey_ne (by simp))]; exact h.dir.attr
    · rw [FS.set_node]; simp
  · have := headerSays_stored hs rfl hL hh
    rw [h.size, h.nfile] at this
    exact this

theorem flush_may (h : HoldsD env K bb w.fs S) (hns : NoSilent w.faults) :
    wpc (runBOp env bb .flush) w (StepMay env K bb S .flush w) (KilledMay env K bb S .flush) := by
  obtain ⟨txt, k1, k2⟩ := h.attrText
  unfold runBOp
  dsimp only
  rw [wpc_bind]
  apply wpc_mono (wpc_blockFlush_cases bb txt w hns k1)
  · rintro ⟨rc, bb'⟩ w1 ⟨f1, (⟨h1, h2, h3⟩ | ⟨h1, h2, h3, h4⟩ | ⟨h1, h2, h3, h4⟩)⟩
    · simp only at h1 h2
      subst h1 h2
      rw [wpc_pure]
      exact ⟨rfl, f1, _, Durable.Outcome.done .flush _ rfl, by rw [h3]; exact h.flushedOk k2⟩
    · simp only at h1 h2
      subst h1 h2
      rw [wpc_pure]
      refine ⟨rfl, f1, _, Durable.Outcome.flush _ rfl, ?_⟩
      have := h.headerTorn h4
      have e : { bb' with dirty := true } = bb' := by cases bb'; cases h3; rfl
      rw [e] at this
      exact this
    · simp only at h1 h2
      subst h1 h2
      rw [wpc_pure]
      exact ⟨rfl, f1, _, Durable.Outcome.attrs _ rfl (h.pending.symm.trans h3), h.attrsTorn h4⟩
  · rintro w1 (h1 | ⟨h1, h2⟩)
    · exact ⟨_, { bb with dirty := true }, Durable.Killed.flush, rfl, h.headerTorn h1⟩
    · exact ⟨_, cleaned bb, Durable.Killed.attrs (h.pending.symm.trans h1), rfl, h.attrsTorn h2⟩

/-- **One operation, which may fail or be killed.** -/
theorem bop_may (h : HoldsD env K bb w.fs S) (hns : NoSilent w.faults) (op : BOp) (hl : S.legal env K op) :
    wpc (runBOp env bb op) w (StepMay env K bb S op w) (KilledMay env K bb S op) := by
  cases op with
  | write p a mem sw => exact write_may h p a mem sw hl
  | read p a mem sw => exact read_may h p a mem sw hl
  | grow sizes => exact grow_may h sizes hl
  | attr op => exact attr_may h op hl
  | flush => exact flush_may h hns
  | reopen => exact hl.elim

end Verif
