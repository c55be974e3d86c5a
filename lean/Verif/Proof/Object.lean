import Verif.Spec.Object
import Verif.Props.Grow
import Verif.Props.AttrDisk
import Verif.Proof.RecordIO
/-!
# A block as an array of rows with attributes
-/

set_option autoImplicit false

namespace Verif

open Spec

variable {env : Env} {K : Kind} {bb : Block} {A : Content} {w : World}

theorem Spec.ArrayOk.xferOk {a : Arr} {sw : Nat} (h : ArrayOk env a sw) (hb : BlockOk env bb K.w K.nm) :
    XferOk env bb a K.w sw K.nm :=
  ⟨hb.layout, hb.item, hb.item0, hb.memb, hb.memb0, hb.felInt, hb.buf, hb.bufMax, hb.offs, h.arr, h.asize, h.anorm, h.aitem,
    h.aitem0, h.abytes⟩

theorem Spec.BlockOk.shape {bb' : Block} {w nm : Nat} (hs : SameShape bb bb') (h : BlockOk env bb w nm) (hl : Layout bb') :
    BlockOk env bb' w nm :=
  ⟨hl, by rw [hs.dtype]; exact h.item, h.item0, by rw [hs.nmemb]; exact h.memb, h.memb0, h.felInt, h.buf, h.bufMax,
    by rw [hs.fsize]; exact h.offs⟩

/-- `Savable` for a handle of the same shape. -/
theorem Spec.Savable.shape {bb' : Block} (h : Savable env bb) (hs : SameShape bb bb') (hl : Layout bb')
    (ha : WellAttrs env.m bb'.attrset) (hst : AllStorable (attrView env.m bb'.attrset)) : Savable env bb' :=
  ⟨h.fmt, ⟨by rw [hs.dtype]; exact h.header.dt, by rw [hs.nmemb]; exact h.header.nmemb0,
    by rw [hs.nmemb]; exact h.header.nmembMax, hl.nfile, hl.nck, by rw [hs.nfile]; exact h.header.nfileMax,
    by rw [hs.fsize]; exact h.header.sizes, hl.ck32⟩, by rw [hs.foffset, hs.fsize]; exact h.offsets,
    by rw [hs.size, hs.foffset]; exact h.size, ha, hst, by rw [hs.base]; exact h.base, by rw [hs.base]; exact h.notMeta⟩

theorem Spec.Tame.storable {m : Machine} {M : AttrMap} (h : Tame m M) : AllStorable M := fun name v hv => (h name v hv).1

/-- Without an attribute file of the old format, nothing can come back from it. -/
theorem noOld_ok {fs : FS} {base : CStr} (h : fs.node (fileKey base .attr) = none) (M : AttrMap) : OldOk env fs base M := by
  refine ⟨{ attrsetCreate env with dirty := false }, ?_, ⟨[], (attrsetCreate_inv env).dirty false⟩, ?_⟩
  · unfold readsV1
    rw [h]
    rfl
  · intro name _
    rw [((attrsetCreate_inv env).dirty false).view_eq]
    rfl

theorem mem_le_sum {xs : List Nat} {x : Nat} (h : x ∈ xs) : x ≤ xs.sum := by
  induction xs with
  | nil => cases h
  | cons y ys ih =>
    simp only [List.sum_cons]
    rcases List.mem_cons.mp h with h | h
    · omega
    · have := ih h; omega

theorem seek_row (h : Layout bb) (r : Nat) (hr : r < 9223372036854775808) :
    (r ≤ bb.size → ∃ p, seek bb ⟨0, 0, 0⟩ r = some (0, p) ∧ PointsTo bb p r) ∧
    (bb.size < r → seek bb ⟨0, 0, 0⟩ r = some (-1, ⟨0, 0, 0⟩)) := by
  have hs := h.size
  refine ⟨fun hle => ?_, fun hlt => ?_⟩
  · obtain ⟨p, h1, h2, _⟩ := seek_nat bb h ⟨0, 0, 0⟩ r (by omega)
    exact ⟨p, h1, h2⟩
  · exact seek_out bb h ⟨0, 0, 0⟩ r ⟨by omega, by omega⟩ (by omega)

/-! ## One operation -/

/-- The sizes of the files after an operation. -/
def sizesAfter (sizes : List Nat) : BOp → List Nat
  | .grow new => sizes ++ new
  | _ => sizes

/-- What an operation does to the data files. -/
def DataEffect (env : Env) (K : Kind) (bb : Block) (A : Content) (fs fs' : FS) : BOp → Prop
  | .write p a mem sw => fs' = if p + a.size / K.nm ≤ A.size then
      putRows env.m bb fs p (arrayRow env K a mem sw) (a.size / K.nm) else fs
  | .grow sizes => fs' = truncFS bb.basename bb.nfile sizes.length fs
  | _ => ∀ f, fs'.node (fileKey bb.basename (.data f)) = fs.node (fileKey bb.basename (.data f))

/-- Operations after which the header file is up to date. -/
def Spec.BOp.cleans : BOp → Bool
  | .flush => true
  | .reopen => true
  | _ => false

/-- What is known after one operation. -/
structure StepDone (env : Env) (K : Kind) (bb : Block) (A : Content) (w : World) (op : BOp) (x : BAns) (bb' : Block)
    (w' : World) : Prop where
  base : bb'.basename = bb.basename
  faults : w'.faults = noFaults
  ans : A.answers env K op x
  holds : Holds env K bb' w'.fs (A.next env K op)
  sizes : bb'.fsize = sizesAfter bb.fsize op
  effect : DataEffect env K bb A w.fs w'.fs op
  clean : op.cleans = true → bb'.dirty = false

theorem write_step (h : Holds env K bb w.fs A) (hnf : w.faults = noFaults) (p : Nat) (a : Arr) (mem : Mem) (sw : Nat)
    (hl : A.legal env K (.write p a mem sw)) :
    ∃ x bb' w', runBOp env bb (.write p a mem sw) w = .ok (x, bb') w' ∧ StepDone env K bb A w (.write p a mem sw) x bb' w' := by
  obtain ⟨hp, ha, hdis, hconv⟩ := hl
  have hx := ha.xferOk h.ok
  have hL := h.ok.layout
  by_cases hin : p + a.size / K.nm ≤ A.size
  · obtain ⟨q, hq, hpt⟩ := (seek_row hL p hp).1 (by rw [h.size]; exact Nat.le_trans (Nat.le_add_right _ _) hin)
    have hw : LegalWrite env bb q a mem p K.w sw K.nm (fun e => (toBlock env K a mem sw e).getD []) := by
      refine ⟨hx, hdis, hpt, by rw [h.size]; exact hin, fun e he => ?_⟩
      obtain ⟨b, hb⟩ := Option.isSome_iff_exists.mp (hconv hin e he)
      show _ = some ((toBlock env K a mem sw e).getD [])
      rw [hb, h.kind]
      exact hb
    obtain ⟨x, w1, e1, d⟩ := wpc_returns (hw.spec w) (fun _ hc => hc.2 hnf)
    have hrc := d.succeeds hnf h.data
    obtain ⟨hfs, hfile, _⟩ := d.done hrc
    have hlen := fun i hi => hw.row_length i hi
    refine ⟨⟨x.rc, x.mem, none⟩, x.bb, w1, ?_, ⟨d.shape.base, d.faults.trans hnf, ?_, ?_, d.shape.fsize, by
      simp only [DataEffect]; rw [if_pos hin]; exact hfs, nofun⟩⟩
    · unfold runBOp
      show M.bind (M.lift _) _ w = _
      rw [hq]
      show M.bind (blockWrite env bb q a mem) _ w = _
      unfold M.bind
      rw [e1]
      rfl
    · simp only [Content.answers]
      rw [if_pos hin]
      exact ⟨hrc, d.native⟩
    · have hview : attrView env.m x.bb.attrset = A.attrs := by rw [d.attrs]; exact h.attrs
      have hnode : ∀ k, (∀ f, k ≠ fileKey bb.basename (.data f)) → w1.fs.node k = w.fs.node k := by
        intro k hk
        rw [hfs]
        exact node_putRows_other _ _ _ _ _ _ _ (fun i _ => hk _)
      have hnext : A.next env K (.write p a mem sw) = { A with
          rows := fun r =>
            if p ≤ r ∧ r < p + a.size / K.nm then some (arrayRow env K a mem sw (r - p)) else A.rows r } := by
        simp only [Content.next]
        rw [if_pos hin]
      rw [hnext]
      refine ⟨h.ok.shape d.shape d.layout, by rw [d.shape.dtype]; exact h.kind, d.shape.size.trans h.size,
        d.shape.nfile.trans h.nfile, h.savable.shape d.shape d.layout (by rw [d.attrs]; exact h.savable.attrs)
          (by rw [hview]; exact h.tame.1.storable), hview, by rw [d.attrs]; exact h.pending, h.tame, ?_, ?_, ?_, ?_, ?_, ?_, ?_⟩
      · intro hpend
        obtain ⟨s1, s2, k1, k2, k3, k4⟩ := h.saved hpend
        rw [d.shape.base]
        refine ⟨s1, s2, ?_, ?_, k3, k4⟩
        · rw [readsV1_congr (hnode _ (fun f => fileKey_ne (by simp)))]; exact k1
        · rw [readsV2_congr (hnode _ (fun f => fileKey_ne (by simp)))]; exact k2
      · intro hd
        rw [d.dirty] at hd
        exact absurd hd (by decide)
      · rw [d.shape.base]
        refine ⟨?_, ?_, ?_⟩
        · rw [hnode _ (fun f => resolve_ne_fileKey _ _)]; exact h.dir.dir
        · rw [hnode _ (fun f => fileKey_ne (by simp))]; exact h.dir.header
        · rw [hnode _ (fun f => fileKey_ne (by simp))]; exact h.dir.attr
      · rw [d.shape.base, hnode _ (fun f => fileKey_ne (by simp))]; exact h.noOld
      · intro f hf
        rw [d.shape.base] at hf
        by_cases hn : ∃ d, w.fs.node (fileKey bb.basename (.data f)) = some (.file d)
        · have := (isFile_putRows env.m bb w.fs p (rowOfElems (fun e => (toBlock env K a mem sw e).getD []) K.nm) (a.size / K.nm)
            (fileKey bb.basename (.data f))).mpr hn
          rw [← hfs] at this
          obtain ⟨d', hd'⟩ := this
          rw [hd'] at hf
          exact absurd hf (by simp)
        · apply h.noDirs f
          rw [← hf, hfs, node_putRows_other]
          intro i hi he
          exact hn (he ▸ hfile i hi)
      · intro f hf
        rw [d.shape.base, hfs, isFile_putRows]
        exact h.data f (by rw [← d.shape.nfile]; exact hf)
      · intro r bytes hr
        have hrow : row env.m w1.fs x.bb r = row env.m w1.fs bb r := d.shape.row env.m w1.fs r
        have hstd : ∀ fs, Stored env.m fs x.bb r ↔ Stored env.m fs bb r := by
          intro fs
          unfold Stored
          rw [d.shape.row, d.shape.rowSize]
        rw [hrow, hstd]
        by_cases hc : p ≤ r ∧ r < p + a.size / K.nm
        · simp only [if_pos hc] at hr
          have hr := Option.some.inj hr
          have := row_putRows_in env.m bb w.fs p _ _ hlen hfile (r - p) (by omega)
          rw [← hfs, show p + (r - p) = r by omega] at this
          refine ⟨by show r < A.size; omega, by rw [this]; exact hr, ?_⟩
          unfold Stored
          rw [this]
          exact hlen _ (by omega)
        · simp only [if_neg hc] at hr
          obtain ⟨g1, g2, g3⟩ := h.rows r bytes hr
          have : row env.m w1.fs bb r = row env.m w.fs bb r := by
            rw [hfs]
            exact row_putRows_out env.m bb w.fs p _ _ (fun i hi => by rw [hlen i hi]; exact Nat.le_refl _) r (by omega) g3
          refine ⟨g1, this.trans g2, ?_⟩
          unfold Stored
          rw [this]
          exact g3
  · have hnext : A.next env K (.write p a mem sw) = A := by
      simp only [Content.next]
      rw [if_neg hin]
    have hans : ∀ x : BAns, x.rc = -1 → x.mem = mem → A.answers env K (.write p a mem sw) x := by
      intro x h1 h2
      simp only [Content.answers]
      rw [if_neg hin]
      exact ⟨h1, h2⟩
    by_cases hps : p ≤ A.size
    · obtain ⟨q, hq, hpt⟩ := (seek_row hL p hp).1 (by rw [h.size]; omega)
      have e1 := blockWrite_range env bb a K.w sw K.nm hx q p mem w hpt (by rw [← hL.size, h.size]; exact hps)
        (by rw [← hL.size, h.size]; omega)
      refine ⟨⟨-1, mem, none⟩, { bb with dirty := true }, w, ?_, ⟨rfl, hnf, hans _ rfl rfl, ?_, rfl, by simp only [DataEffect]; rw [if_neg hin], nofun⟩⟩
      · unfold runBOp
        show M.bind (M.lift _) _ w = _
        rw [hq]
        show M.bind (blockWrite env bb q a mem) _ w = _
        unfold M.bind
        rw [e1]
        rfl
      · rw [hnext]
        have hs : SameShape bb { bb with dirty := true } := ⟨rfl, rfl, rfl, rfl, rfl, rfl, rfl⟩
        have hl' : Layout { bb with dirty := true } := hs.layout hL hL.nck hL.ck32
        exact ⟨h.ok.shape hs hl', h.kind, h.size, h.nfile, h.savable.shape hs hl' h.savable.attrs h.savable.storable, h.attrs, h.pending, h.tame,
          h.saved, (fun hd => nomatch hd), h.dir, h.noOld, h.noDirs, h.data, h.rows⟩
    · refine ⟨⟨-1, mem, none⟩, bb, w, ?_, ⟨rfl, hnf, hans _ rfl rfl, by rw [hnext]; exact h, rfl, by simp only [DataEffect]; rw [if_neg hin], nofun⟩⟩
      unfold runBOp
      show M.bind (M.lift _) _ w = _
      rw [(seek_row hL p hp).2 (by rw [h.size]; omega)]
      rfl

theorem read_step (h : Holds env K bb w.fs A) (hnf : w.faults = noFaults) (p : Nat) (a : Arr) (mem : Mem) (sw : Nat)
    (hl : A.legal env K (.read p a mem sw)) :
    ∃ x bb' w', runBOp env bb (.read p a mem sw) w = .ok (x, bb') w' ∧ StepDone env K bb A w (.read p a mem sw) x bb' w' := by
  obtain ⟨hp, ha, hdis, hsup, hconv⟩ := hl
  have hx := ha.xferOk h.ok
  have hL := h.ok.layout
  have hnm := h.ok.memb0
  by_cases hin : p + a.size / K.nm ≤ A.size
  · obtain ⟨q, hq, hpt⟩ := (seek_row hL p hp).1 (by rw [h.size]; exact Nat.le_trans (Nat.le_add_right _ _) hin)
    let out : Nat → List Byte := fun e =>
      (((A.rows (p + e / K.nm)).bind fun bytes => fromBlock env K a bytes (e % K.nm))).getD []
    have hout : ∀ e, e < a.size / K.nm * K.nm → ∃ bytes, A.rows (p + e / K.nm) = some bytes ∧
        fromBlock env K a bytes (e % K.nm) = some (out e) := by
      intro e he
      have hi : e / K.nm < a.size / K.nm := (Nat.div_lt_iff_lt_mul hnm).mpr he
      obtain ⟨bytes, h1, h2⟩ := hconv hin (e / K.nm) hi
      obtain ⟨b, hb⟩ := Option.isSome_iff_exists.mp (h2 (e % K.nm) (Nat.mod_lt _ hnm))
      refine ⟨bytes, h1, ?_⟩
      show _ = some ((((A.rows (p + e / K.nm)).bind fun bytes => fromBlock env K a bytes (e % K.nm))).getD [])
      rw [h1]
      simp only [Option.bind_some]
      rw [hb]
      rfl
    have hr : LegalRead env w.fs bb q a p K.w sw K.nm out := by
      refine ⟨hx, hpt, by rw [h.size]; exact hin, by rw [h.kind]; exact hsup, fun e he _ => ?_⟩
      obtain ⟨bytes, h1, h2⟩ := hout e he
      unfold elemOfRows
      rw [(h.rows _ _ h1).2.1, h.kind]
      exact h2
    obtain ⟨x, w1, e1, d⟩ := wpc_returns (hr.spec (wd := w) (mem := mem)) (fun _ hc => hc.2 hnf)
    have hrc := d.succeeds hnf (fun i hi => by
      obtain ⟨bytes, h1, _⟩ := hconv hin i hi
      exact (h.rows _ _ h1).2.2)
    refine ⟨⟨x.rc, x.mem, none⟩, x.bb, w1, ?_, ⟨by rw [d.same], d.faults.trans hnf, ?_, ?_, by rw [d.same]; rfl,
      fun f => by rw [d.fs], nofun⟩⟩
    · unfold runBOp
      show M.bind (M.lift _) _ w = _
      rw [hq]
      show M.bind (blockRead env bb q a mem) _ w = _
      unfold M.bind
      rw [e1]
      rfl
    · simp only [Content.answers]
      rw [if_pos hin]
      refine ⟨hrc, fun i hi j hj => ?_, fun y hy => d.memframe y (by simpa using hy)⟩
      have he : i * K.nm + j < a.size / K.nm * K.nm := by
        calc i * K.nm + j < i * K.nm + K.nm := by omega
          _ = (i + 1) * K.nm := (Nat.succ_mul _ _).symm
          _ ≤ _ := Nat.mul_le_mul_right _ hi
      obtain ⟨bytes, h1, h2⟩ := hout (i * K.nm + j) he
      have hdv : (i * K.nm + j) / K.nm = i := by
        rw [Nat.mul_comm, Nat.mul_add_div hnm, Nat.div_eq_of_lt hj]; rfl
      have hmd : (i * K.nm + j) % K.nm = j := by
        rw [Nat.mul_comm, Nat.mul_add_mod, Nat.mod_eq_of_lt hj]
      rw [hdv] at h1
      rw [hmd] at h2
      have := (d.done hrc).2.2 hdis (i * K.nm + j) he
      simp only [Nat.zero_mul, Nat.zero_add] at this
      exact ⟨bytes, h1, by rw [h2, this]⟩
    · rw [d.same, d.fs]
      exact h
  · have hans : ∀ x : BAns, x.rc = -1 → x.mem = mem → A.answers env K (.read p a mem sw) x := by
      intro x h1 h2
      simp only [Content.answers]
      rw [if_neg hin]
      exact ⟨h1, h2⟩
    by_cases hps : p ≤ A.size
    · obtain ⟨q, hq, hpt⟩ := (seek_row hL p hp).1 (by rw [h.size]; omega)
      have e1 := blockRead_range env bb a K.w sw K.nm hx q p mem w hpt (by rw [← hL.size, h.size]; exact hps)
        (by rw [← hL.size, h.size]; omega)
      refine ⟨⟨-1, mem, none⟩, bb, w, ?_, ⟨rfl, hnf, hans _ rfl rfl, h, rfl, fun _ => rfl, nofun⟩⟩
      unfold runBOp
      show M.bind (M.lift _) _ w = _
      rw [hq]
      show M.bind (blockRead env bb q a mem) _ w = _
      unfold M.bind
      rw [e1]
      rfl
    · refine ⟨⟨-1, mem, none⟩, bb, w, ?_, ⟨rfl, hnf, hans _ rfl rfl, h, rfl, fun _ => rfl, nofun⟩⟩
      unfold runBOp
      show M.bind (M.lift _) _ w = _
      rw [(seek_row hL p hp).2 (by rw [h.size]; omega)]
      rfl

theorem grow_step (h : Holds env K bb w.fs A) (hnf : w.faults = noFaults) (sizes : List Nat)
    (hl : A.legal env K (.grow sizes)) :
    ∃ x bb' w', runBOp env bb (.grow sizes) w = .ok (x, bb') w' ∧ StepDone env K bb A w (.grow sizes) x bb' w' := by
  obtain ⟨hs1, hs2, hs3⟩ := hl
  have hL := h.ok.layout
  have hsz : bb.fsize.sum = A.size := by rw [← hL.size]; exact h.size
  have g := growInternal_grown hL (grow := sizes) (by rw [hsz]; exact hs1)
  obtain ⟨b, w1, e1, f1, j, hj, hfs, hbj, hok⟩ :=
    wpc_returns (wpc_truncFiles bb.basename sizes.length bb.nfile w) (fun _ hc => hc.1 hnf)
  have hb := hok hnf h.dir.dir (fun f _ _ => h.noDirs f)
  subst hb
  have hj := hbj rfl
  subst hj
  have hnode : ∀ k, (∀ f, k ≠ fileKey bb.basename (.data f)) → w1.fs.node k = w.fs.node k := by
    intro k hk
    rw [hfs]
    exact truncFS_other _ _ _ _ _ (fun f _ _ => hk f)
  have hdata : ∀ f, w1.fs.node (fileKey bb.basename (.data f)) =
      if bb.nfile ≤ f ∧ f < bb.nfile + sizes.length then some (.file []) else w.fs.node (fileKey bb.basename (.data f)) := by
    intro f
    rw [hfs]
    by_cases hc : bb.nfile ≤ f ∧ f < bb.nfile + sizes.length
    · rw [if_pos hc, truncFS_data _ _ _ _ f hc.1 hc.2]
    · rw [if_neg hc, truncFS_other]
      intro f' h1 h2
      exact fileKey_ne (by simp; omega)
  refine ⟨⟨0, env.junk, none⟩, growInternal bb sizes, w1, ?_, ⟨g.base, f1.trans hnf, rfl, ?_, g.fsize, hfs, nofun⟩⟩
  · unfold runBOp blockGrow
    simp only [bind, M.bind]
    rw [e1]
    rfl
  · have hsv := h.savable
    have hsum : (growInternal bb sizes).fsize.sum = A.size + sizes.sum := by rw [g.fsize, List.sum_append, hsz]
    refine ⟨⟨g.layout, h.ok.item, h.ok.item0, h.ok.memb, h.ok.memb0, h.ok.felInt, h.ok.buf, h.ok.bufMax,
        by rw [hsum]; exact hs2⟩, h.kind, by rw [g.size, h.size]; rfl, by rw [g.nfile, h.nfile]; rfl,
      ⟨hsv.fmt, ⟨hsv.header.dt, hsv.header.nmemb0, hsv.header.nmembMax, g.layout.nfile, g.layout.nck,
          by rw [g.nfile, h.nfile]; exact hs3, ?_, g.layout.ck32⟩, rfl, rfl, hsv.attrs, hsv.storable, hsv.base, hsv.notMeta⟩,
      h.attrs, h.pending, h.tame, ?_, (fun hd => nomatch hd), ?_, ?_, ?_, ?_, ?_⟩
    · intro s hs
      have := mem_le_sum hs
      omega
    · intro hpend
      obtain ⟨s1, s2, k1, k2, k3, k4⟩ := h.saved hpend
      refine ⟨s1, s2, ?_, ?_, k3, k4⟩
      · rw [g.base, readsV1_congr (hnode _ (fun f => fileKey_ne (by simp)))]; exact k1
      · rw [g.base, readsV2_congr (hnode _ (fun f => fileKey_ne (by simp)))]; exact k2
    · refine ⟨?_, ?_, ?_⟩
      · exact (hnode _ (fun f => resolve_ne_fileKey _ _)).trans h.dir.dir
      · rw [g.base, hnode _ (fun f => fileKey_ne (by simp))]; exact h.dir.header
      · rw [g.base, hnode _ (fun f => fileKey_ne (by simp))]; exact h.dir.attr
    · exact (hnode _ (fun f => fileKey_ne (by simp))).trans h.noOld
    · intro f
      rw [g.base, hdata f]
      split
      · simp
      · exact h.noDirs f
    · intro f hf
      rw [g.nfile] at hf
      unfold IsFile
      rw [g.base, hdata f]
      split
      · exact ⟨[], rfl⟩
      · exact h.data f (by omega)
    · intro r bytes hr
      obtain ⟨g1, g2, g3⟩ := h.rows r bytes hr
      have hrow : row env.m w1.fs (growInternal bb sizes) r = row env.m w.fs bb r := by
        rw [hfs]
        exact g.row_kept hL _ (by rw [h.size]; exact g1)
      refine ⟨by show r < A.size + sizes.sum; omega, hrow.trans g2, ?_⟩
      unfold Stored
      rw [hrow]
      exact g3

theorem attr_step (h : Holds env K bb w.fs A) (hnf : w.faults = noFaults) (op : AttrOp)
    (hl : A.legal env K (.attr op)) :
    ∃ x bb' w', runBOp env bb (.attr op) w = .ok (x, bb') w' ∧ StepDone env K bb A w (.attr op) x bb' w' := by
  obtain ⟨h1, h2⟩ := hl
  obtain ⟨es, hi⟩ := h.savable.attrs
  have hes : findE es = A.attrs := hi.view_eq.symm.trans h.attrs
  rw [← hes] at h1 h2
  obtain ⟨ans, s', es', e1, hi', hn, ha⟩ := attrStep_spec hi op h1
  have hd := attrStep_dirty hi op h1 e1
  rw [hes] at hn ha h2
  have hview : attrView env.m s' = attrNext env.m A.attrs op := hi'.view_eq.trans hn
  have hs : SameShape bb { bb with attrset := s' } := ⟨rfl, rfl, rfl, rfl, rfl, rfl, rfl⟩
  have hl' : Layout { bb with attrset := s' } := hs.layout h.ok.layout h.ok.layout.nck h.ok.layout.ck32
  refine ⟨⟨ans.rc, ans.mem, some ans⟩, { bb with attrset := s' }, w, ?_, ⟨rfl, hnf, ⟨ans, rfl, ha⟩, ?_, rfl, fun _ => rfl, nofun⟩⟩
  · unfold runBOp
    show M.bind (M.lift _) _ w = _
    rw [e1]
    rfl
  · refine ⟨h.ok.shape hs hl', h.kind, h.size, h.nfile,
      h.savable.shape hs hl' ⟨es', hi'⟩ (by rw [hview]; exact h2.storable), hview, ?_, ⟨h2, ?_⟩, ?_, h.header,
      h.dir, h.noOld, h.noDirs, h.data, h.rows⟩
    · show s'.dirty = (A.pending || op.isSet)
      rw [hd, h.pending]
    · intro hp
      exact h.tame.2 (by have : (A.pending || op.isSet) = false := hp; simp at this; exact this.1)
    · intro hp
      exact h.saved (by have : (A.pending || op.isSet) = false := hp; simp at this; exact this.1)

/-- What a flush leaves on disk. -/
theorem Spec.Holds.flush_says {fs : FS} (h : Holds env K bb fs A) :
    ∃ txt s1, (bb.attrset.dirty = true →
        attrLines env bb.attrset.list { bb.attrset with dirty := false } = some (txt, s1)) ∧
      (bb.attrset.dirty = true → s1 = { bb.attrset with dirty := false }) ∧
      HeaderSays (flushFS bb txt fs) bb ∧
      AttrsSay env (flushFS bb txt fs) bb.basename (if A.pending then A.attrs else A.saved) := by
  have hold := fun M => noOld_ok (env := env) h.noOld M
  cases hp : A.pending with
  | true =>
    obtain ⟨es, hi⟩ := h.savable.attrs
    have hes : findE es = A.attrs := hi.view_eq.symm.trans h.attrs
    have hsync : Synced env fs bb := ⟨h.header, fun hd => by rw [h.pending, hp] at hd; cases hd⟩
    obtain ⟨txt, s1, k1, ⟨es1, _, _, k2⟩, k3, k4⟩ := flushFS_says h.savable hi (fun _ => hold _) hsync
    refine ⟨txt, s1, k1, fun _ => (k2 ?_).1, k3, ?_⟩
    · intro e he
      exact (h.tame.1 e.name e.val (by rw [← hes]; exact findE_mem hi.sorted he)).2
    · rw [if_pos rfl, ← hes]
      exact k4
  | false =>
    have hd : bb.attrset.dirty = false := h.pending.trans hp
    obtain ⟨s1, s2, k1, k2, k3, k4⟩ := h.saved hp
    have hs2 : s2.dirty = false := readsV2_clean k2
    let b0 : Block := { bb with attrset := s2 }
    have hs : SameShape bb b0 := ⟨rfl, rfl, rfl, rfl, rfl, rfl, rfl⟩
    have hl' : Layout b0 := hs.layout h.ok.layout h.ok.layout.nck h.ok.layout.ck32
    have hsv : Savable env b0 := h.savable.shape hs hl' k3 (by show AllStorable (attrView env.m s2); rw [k4]; exact (h.tame.2 hp).storable)
    obtain ⟨es, hi⟩ := hsv.attrs
    have hes : findE es = A.saved := hi.view_eq.symm.trans k4
    have hsync : Synced env fs b0 := ⟨h.header, fun _ => by
      show AttrsSay env fs bb.basename (attrView env.m s2)
      rw [k4]
      exact h.saved hp⟩
    obtain ⟨txt, s1', _, _, l3, l4⟩ := flushFS_says hsv hi (fun _ => hold _) hsync
    have heq : flushFS b0 txt fs = flushFS bb txt fs := by
      unfold flushFS
      show (if s2.dirty = true then _ else _) = (if bb.attrset.dirty = true then _ else _)
      rw [hs2, hd]
      rfl
    rw [heq] at l3 l4
    refine ⟨txt, s1', (fun h1 => by rw [hd] at h1; cases h1), (fun h1 => by rw [hd] at h1; cases h1), l3, ?_⟩
    simp only [Bool.false_eq_true, if_false]
    rw [← hes]
    exact l4

/-- The metadata files have been rewritten. -/
theorem Spec.Holds.rewritten {fs fs' : FS} {bb' : Block} {A' : Content} (h : Holds env K bb fs A) (hs : SameShape bb bb')
    (hl : Layout bb') (hsz : A'.size = A.size) (hnf : A'.nfile = A.nfile) (hrows : A'.rows = A.rows)
    (hnode : ∀ k, k ≠ fileKey bb.basename .header → k ≠ fileKey bb.basename .attrV2 → fs'.node k = fs.node k)
    (hw : WellAttrs env.m bb'.attrset) (hview : attrView env.m bb'.attrset = A'.attrs)
    (hd : bb'.attrset.dirty = A'.pending) (ht : Tame env.m A'.attrs) (ht' : Tame env.m A'.saved)
    (hsay : AttrsSay env fs' bb.basename A'.saved) (hhead : HeaderSays fs' bb')
    (hdir : fs'.node (fileKey bb.basename .header) ≠ some .dir ∧ fs'.node (fileKey bb.basename .attrV2) ≠ some .dir) :
    Holds env K bb' fs' A' := by
  have hdata : ∀ f, fs'.node (fileKey bb.basename (.data f)) = fs.node (fileKey bb.basename (.data f)) :=
    fun f => hnode _ (fileKey_ne (by simp)) (fileKey_ne (by simp))
  refine ⟨h.ok.shape hs hl, by rw [hs.dtype]; exact h.kind, by rw [hs.size, hsz]; exact h.size, by rw [hs.nfile, hnf]; exact h.nfile,
    h.savable.shape hs hl hw (by rw [hview]; exact ht.storable), hview, hd, ⟨ht, fun _ => ht'⟩, fun _ => by rw [hs.base]; exact hsay,
    fun _ => hhead, ?_, ?_, ?_, ?_, ?_⟩
  · rw [hs.base]
    refine ⟨?_, hdir.1, hdir.2⟩
    rw [hnode _ (resolve_ne_fileKey _ _) (resolve_ne_fileKey _ _)]
    exact h.dir.dir
  · rw [hs.base, hnode _ (fileKey_ne (by simp)) (fileKey_ne (by simp))]
    exact h.noOld
  · intro f
    rw [hs.base, hdata]
    exact h.noDirs f
  · intro f hf
    unfold IsFile
    rw [hs.base, hdata]
    exact h.data f (by rw [← hs.nfile]; exact hf)
  · intro r bytes hr
    rw [hrows] at hr
    obtain ⟨g1, g2, g3⟩ := h.rows r bytes hr
    have hrow : row env.m fs' bb' r = row env.m fs bb r := by
      rw [hs.row]
      unfold row
      rw [bytes_congr (hdata _)]
    refine ⟨by rw [hsz]; exact g1, hrow.trans g2, ?_⟩
    unfold Stored
    rw [hrow, hs.rowSize]
    exact g3

theorem flush_notDir (txt : CStr) (fs : FS) (h : DirOk fs bb.basename) :
    (flushFS bb txt fs).node (fileKey bb.basename .header) ≠ some .dir ∧
    (flushFS bb txt fs).node (fileKey bb.basename .attrV2) ≠ some .dir := by
  rw [flushFS_header, flushFS_attr]
  refine ⟨?_, ?_⟩
  · split
    · simp
    · exact h.header
  · split
    · simp
    · exact h.attr

theorem flush_step (h : Holds env K bb w.fs A) (hnf : w.faults = noFaults) :
    ∃ x bb' w', runBOp env bb .flush w = .ok (x, bb') w' ∧ StepDone env K bb A w .flush x bb' w' := by
  obtain ⟨txt, s1, k1, k2, k3, k4⟩ := h.flush_says
  obtain ⟨⟨rc, bb'⟩, w1, e1, f1, _, _, l1, l2⟩ := wpc_returns (wpc_blockFlush env bb txt s1 w k1) (fun _ hc => hc.1 hnf)
  have hrc : rc = 0 := l2 hnf h.dir
  subst hrc
  obtain ⟨hbb, hfs⟩ := l1 rfl
  have hfs := hfs (by rw [hnf]; intro i n; simp [noFaults])
  simp only at hbb
  subst hbb
  have hs : SameShape bb (flushed bb s1) := ⟨rfl, rfl, rfl, rfl, rfl, rfl, rfl⟩
  have hl' : Layout (flushed bb s1) := hs.layout h.ok.layout h.ok.layout.nck h.ok.layout.ck32
  have hattr : (flushed bb s1).attrset = { bb.attrset with dirty := false } := by
    unfold flushed
    dsimp only
    cases hd : bb.attrset.dirty with
    | true => simp [k2 hd]
    | false => cases hb : bb.attrset; rw [hb] at hd; cases hd; rfl
  obtain ⟨es, hi⟩ := h.savable.attrs
  have hi' : AttrInv env.m (flushed bb s1).attrset es := by rw [hattr]; exact hi.dirty false
  have hview : attrView env.m (flushed bb s1).attrset = A.attrs := by rw [hi'.view_eq, ← hi.view_eq]; exact h.attrs
  refine ⟨⟨0, env.junk, none⟩, flushed bb s1, w1, ?_, ⟨rfl, f1.trans hnf, rfl, ?_, rfl,
    fun f => by rw [hfs]; exact flushFS_other bb txt w.fs _ (fileKey_ne (by simp)) (fileKey_ne (by simp)), fun _ => rfl⟩⟩
  · unfold runBOp
    simp only [bind, M.bind]
    rw [e1]
    rfl
  · rw [hfs]
    have hnode := fun k (h1 : k ≠ fileKey bb.basename .header) h2 => flushFS_other bb txt w.fs k h1 h2
    cases hp : A.pending with
    | true =>
      have hn : A.next env K .flush = { A with saved := A.attrs, pending := false } := by
        simp only [Content.next]; rw [if_pos hp]
      rw [hn]
      rw [hp, if_pos rfl] at k4
      exact h.rewritten hs hl' rfl rfl rfl hnode ⟨es, hi'⟩ hview (by rw [hattr]) h.tame.1 h.tame.1 k4 k3 (flush_notDir txt w.fs h.dir)
    | false =>
      have hn : A.next env K .flush = A := by
        simp only [Content.next]; rw [if_neg (by rw [hp]; simp)]
      rw [hn]
      rw [hp] at k4
      simp only [Bool.false_eq_true, if_false] at k4
      exact h.rewritten hs hl' rfl rfl rfl hnode ⟨es, hi'⟩ hview (by rw [hattr, hp]) h.tame.1 (h.tame.2 hp) k4 k3
        (flush_notDir txt w.fs h.dir)

theorem reopen_step (h : Holds env K bb w.fs A) (hnf : w.faults = noFaults) :
    ∃ x bb' w', runBOp env bb .reopen w = .ok (x, bb') w' ∧ StepDone env K bb A w .reopen x bb' w' := by
  obtain ⟨txt, s1, k1, _, k3, k4⟩ := h.flush_says
  obtain ⟨⟨rc, bb'⟩, w1, e1, f1, _, _, l1, l2⟩ := wpc_returns (wpc_blockFlush env bb txt s1 w k1) (fun _ hc => hc.1 hnf)
  have hrc : rc = 0 := l2 hnf h.dir
  subst hrc
  obtain ⟨_, hfs⟩ := l1 rfl
  have hfs := hfs (by rw [hnf]; intro i n; simp [noFaults])
  rw [← hfs] at k3 k4
  obtain ⟨r, w2, e2, g1, g2, b, hr, hs, hck, hwa, hv, hd1, hd2⟩ :=
    wpc_returns (wpc_blockOpen_says (env := env) (C := fun _ => False) (f1.trans hnf) h.savable.base h.savable.notMeta
      h.savable.offsets h.savable.size k3 k4) (fun _ hc => hc)
  subst hr
  have hl' : Layout b := hs.layout h.ok.layout (by rw [hck, hs.nfile]; exact h.ok.layout.nck) (by rw [hck]; exact h.ok.layout.ck32)
  refine ⟨⟨0, env.junk, none⟩, b, w2, ?_, ⟨hs.base, g2, rfl, ?_, hs.fsize,
    fun f => by rw [g1, hfs]; exact flushFS_other bb txt w.fs _ (fileKey_ne (by simp)) (fileKey_ne (by simp)), fun _ => hd1⟩⟩
  · unfold runBOp closeOpen blockClose
    simp only [bind, M.bind, pure, M.pure]
    rw [e1]
    simp only
    rw [e2]
    rfl
  · have hnode : ∀ k, k ≠ fileKey bb.basename .header → k ≠ fileKey bb.basename .attrV2 → w2.fs.node k = w.fs.node k := by
      intro k h1 h2
      rw [g1, hfs]
      exact flushFS_other bb txt w.fs k h1 h2
    have hhead : HeaderSays w2.fs b := by
      unfold HeaderSays at k3 ⊢
      rw [g1, hs.base, hs.dtype, hs.nmemb, hs.nfile, hs.fsize, hck]
      exact k3
    have hnd := flush_notDir (bb := bb) txt w.fs h.dir
    rw [← hfs, ← g1] at hnd
    rw [← g1] at k4
    cases hp : A.pending with
    | true =>
      have hn : A.next env K .reopen = { A with saved := A.attrs, pending := false } := by
        simp only [Content.next]; rw [if_pos hp]
      rw [hn]
      rw [hp, if_pos rfl] at k4 hv
      exact h.rewritten hs hl' rfl rfl rfl hnode hwa hv hd2 h.tame.1 h.tame.1 k4 hhead hnd
    | false =>
      have hn : A.next env K .reopen = { A with attrs := A.saved } := by
        simp only [Content.next]; rw [if_neg (by rw [hp]; simp)]
      rw [hn]
      rw [hp] at k4 hv
      simp only [Bool.false_eq_true, if_false] at k4 hv
      exact h.rewritten hs hl' rfl rfl rfl hnode hwa hv (by rw [hd2]; exact hp.symm) (h.tame.2 hp) (h.tame.2 hp) k4 hhead hnd

/-- **One operation.** -/
theorem bop_step (h : Holds env K bb w.fs A) (hnf : w.faults = noFaults) (op : BOp) (hl : A.legal env K op) :
    ∃ x bb' w', runBOp env bb op w = .ok (x, bb') w' ∧ StepDone env K bb A w op x bb' w' := by
  cases op with
  | write p a mem sw => exact write_step h hnf p a mem sw hl
  | read p a mem sw => exact read_step h hnf p a mem sw hl
  | grow sizes => exact grow_step h hnf sizes hl
  | attr op => exact attr_step h hnf op hl
  | flush => exact flush_step h hnf
  | reopen => exact reopen_step h hnf

end Verif
