import Verif.Proof.CopyMay
import Verif.Spec.SharedMay
import Verif.Proof.HandleKept
import Verif.Proof.Durable
/-!
# Collective operations on a shared block that may fail or be killed
-/

set_option autoImplicit false

namespace Verif

open Spec

variable {env : Env} {K : Kind} {bb : Block} {S : Durable} {w : World} {n : Nat} {H : Nat → Block}

/-! ## Handles -/

theorem Spec.MateD.kept {b b' : Block} (m : MateD env bb b) (k : HandleKept b b') : MateD env bb b' :=
  ⟨m.shape.trans' k.shape, k.layout m.layout, by rw [k.attrs]; exact m.attrs, by rw [k.attrs]; exact m.view⟩

theorem Spec.Mate.mateD {b b' : Block} (m : Mate env b b') : MateD env b b' := ⟨m.shape, m.layout, m.attrs, m.view⟩

theorem Spec.MateD.trans {b1 b2 b3 : Block} (h : MateD env b1 b2) (g : MateD env b2 b3) : MateD env b1 b3 :=
  ⟨h.shape.trans' g.shape, g.layout, g.attrs, g.view.trans h.view⟩

/-- Another handle of the same block. -/
theorem Spec.HoldsD.handle {bb' : Block} {fs : FS} (h : HoldsD env K bb fs S) (m : MateD env bb bb')
    (hp : bb'.attrset.dirty = bb.attrset.dirty)
    (hh : bb'.dirty = false → S.stored = some (S.now.size, S.now.nfile) ∧ HeaderSays fs bb') : HoldsD env K bb' fs S := by
  have hv : attrView env.m bb'.attrset = S.now.attrs := m.view.trans h.attrs
  refine ⟨h.ok.shape m.shape m.layout, by rw [m.shape.dtype]; exact h.kind, m.shape.size.trans h.size, m.shape.nfile.trans h.nfile,
    h.savable.shape m.shape m.layout m.attrs (by rw [hv]; exact h.tame.1.storable), hv, hp.trans h.pending, h.tame, ?_, hh,
    ?_, ?_, ?_, ?_, ?_, ?_⟩
  · rw [m.shape.base]; exact h.saved
  · exact h.header_shape m.shape.dtype m.shape.nmemb m.shape.base (by rw [m.shape.nfile]; exact Nat.le_refl _)
      (fun k _ => by rw [m.shape.fsize]) rfl
  · rw [m.shape.base]; exact h.dir
  · rw [m.shape.base]; exact h.noOld
  · rw [m.shape.base]; exact h.noDirs
  · exact fun hw => (m.shape.dataFiles _).mpr (h.data hw)
  · intro r bytes hr
    rw [m.shape.row, m.shape.stored]
    exact h.rows r bytes hr

/-- Data files changed, and rows with them. -/
theorem Spec.HoldsD.rowsOnly {fs fs' : FS} (h : HoldsD env K bb fs S) (hfs : DataOnly bb.basename bb.nfile fs fs')
    (rows : Nat → Option (List Byte))
    (hrows : ∀ r bytes, rows r = some bytes → r < S.now.size ∧ row env.m fs' bb r = bytes ∧ Stored env.m fs' bb r) :
    HoldsD env K bb fs' { S with now := { S.now with rows := rows } } := by
  have hm : ∀ id : FileId, (∀ f, id ≠ .data f) → fs'.node (fileKey bb.basename id) = fs.node (fileKey bb.basename id) :=
    fun id hid => hfs.other _ (fun f => fileKey_ne (hid f))
  refine ⟨h.ok, h.kind, h.size, h.nfile, h.savable, h.attrs, h.pending, h.tame, ?_, ?_, ?_, ?_, ?_, ?_, ?_, hrows⟩
  · intro hk
    exact attrsSay_congr (hm _ (by simp)) (hm _ (by simp)) (h.saved hk)
  · intro h0
    obtain ⟨h1, h2⟩ := h.clean h0
    exact ⟨h1, headerSays_congr (hm _ (by simp)) h2⟩
  · exact h.header_shape rfl rfl rfl (Nat.le_refl _) (fun k _ => rfl) (hm _ (by simp))
  · refine ⟨?_, ?_, ?_⟩
    · rw [hfs.other _ (fun f => resolve_ne_fileKey _ _)]; exact h.dir.dir
    · rw [hm _ (by simp)]; exact h.dir.header
    · rw [hm _ (by simp)]; exact h.dir.attr
  · rw [hm _ (by simp)]; exact h.noOld
  · exact fun f => hfs.noDirs f (h.noDirs f)
  · exact fun hw f hf => hfs.files f hf (h.data hw f hf)

/-- The same files. -/
theorem Spec.HoldsD.sameFiles {fs fs' : FS} (h : HoldsD env K bb fs S) (he : fs'.node = fs.node) : HoldsD env K bb fs' S := by
  refine h.rowsOnly ⟨fun k _ => by rw [he], fun f _ hf => ?_, fun f hf => by rw [he]; exact hf⟩ S.now.rows ?_
  · unfold IsFile
    rw [he]
    exact hf
  · intro r bytes hr
    have := h.rows r bytes hr
    have hrow : row env.m fs' bb r = row env.m fs bb r := by
      unfold row FS.bytes
      rw [he]
    unfold Stored
    rw [hrow]
    exact this

/-- What is known after a collective operation that may fail. -/
structure MayAll (env : Env) (K : Kind) (n : Nat) (H : Nat → Block) (S : Durable) (op : MOp) (w : World)
    (x : (Nat → BAns) × (Nat → Block)) (w' : World) : Prop where
  faults : w'.faults = w.faults
  base : (x.2 0).basename = (H 0).basename
  other : SameOutside (H 0).basename w.fs w'.fs
  out : ∃ S', S.OutcomeAll env K n op x.1 S' ∧ HoldsAllD env K n x.2 w'.fs S'

/-- What is known when the processes were killed. -/
def KilledMayAll (env : Env) (K : Kind) (n : Nat) (H : Nat → Block) (S : Durable) (op : MOp) (fs0 fs : FS) : Prop :=
  SameOutside (H 0).basename fs0 fs ∧ ∃ S' b, S.KilledAll K n op S' ∧ b.basename = (H 0).basename ∧ HoldsD env K b fs S'

theorem DataOnly.outside {base : CStr} {k : Nat} {fs fs' : FS} (h : DataOnly base k fs fs') : SameOutside base fs fs' :=
  fun key hk => h.other key fun f => hk (.data f)

section
variable {arr : Nat → Arr} {mem : Nat → Mem} {sw : Nat → Nat} {p : Nat} {fs : FS}

/-- Every process can move its pointer to a row of the block. -/
theorem seek_allD (h : HoldsD env K bb fs S) (hm : ∀ r, r < n → MateD env bb (H r)) (hp : p ≤ S.now.size) :
    ∃ ptr : Nat → Ptr, ∀ r, r < n → seek (H r) ⟨0, 0, 0⟩ p = some (0, ptr r) ∧ PointsTo bb (ptr r) p := by
  have : ∀ r, ∃ q, r < n → seek (H r) ⟨0, 0, 0⟩ p = some (0, q) ∧ PointsTo bb q p := by
    intro r
    by_cases hr : r < n
    · have m := hm r hr
      have hs := m.layout.small
      have hz : (H r).size = S.now.size := m.shape.size.trans h.size
      rw [m.layout.size] at hz
      obtain ⟨q, h1, h2⟩ := (seek_row m.layout p (by omega)).1 (by rw [m.layout.size]; omega)
      exact ⟨q, fun _ => ⟨h1, m.shape.symm'.pointsTo h2⟩⟩
    · exact ⟨⟨0, 0, 0⟩, fun hr' => absurd hr' hr⟩
  exact ⟨fun r => (this r).choose, fun r hr => (this r).choose_spec hr⟩

/-- The conditions of a collective transfer are met. -/
theorem collective_ofD (h : HoldsD env K bb fs S) (hn : 0 < n ∧ n < 2147483648) (hm : ∀ r, r < n → MateD env bb (H r))
    (hin : p + rowsBefore (rowsOf K arr) n ≤ S.now.size) (hcount : rowsBefore (rowsOf K arr) n < 2147483648)
    (ha : ∀ r, r < n → ShareOk env K (arr r) (sw r)) (ptr : Nat → Ptr) (hptr : ∀ r, r < n → PointsTo bb (ptr r) p) :
    Collective env bb K.w K.nm n (xferRank H arr mem ptr) p (rowsOf K arr) sw := by
  refine ⟨hn, fun r hr => h.ok.shape (hm r hr).shape (hm r hr).layout, fun r hr => (hm r hr).shape, hptr,
    fun r hr => (ha r hr).dims, fun r hr => (ha r hr).size, fun r hr => (ha r hr).strides, ?_, by rw [h.size]; exact hin, hcount⟩
  intro r hr h0
  exact ((ha r hr).arr h0).xferOk (h.ok.shape (hm r hr).shape (hm r hr).layout)

/-- The handles after a transfer, whatever has happened. -/
theorem Spec.HoldsAllD.kept {H' : Nat → Block} {fs' : FS} {S' : Durable} (hn : 0 < n ∧ n < 2147483648) (h : HoldsD env K bb fs' S')
    (hz : (0 : Byte) ∉ bb.basename) (hd : bb.dirty = true → ∃ r, r < n ∧ (H r).dirty = true)
    (hp : (H 0).attrset.dirty = bb.attrset.dirty) (hm : ∀ r, r < n → MateD env bb (H r))
    (hk : ∀ r, r < n → HandleKept (H r) (H' r)) : HoldsAllD env K n H' fs' S' := by
  refine ⟨hn.1, hn.2, bb, h, hz, fun hdd => ?_, by rw [(hk 0 hn.1).attrs]; exact hp, fun r hr => (hm r hr).kept (hk r hr)⟩
  obtain ⟨r, hr, hd'⟩ := hd hdd
  exact ⟨r, hr, (hk r hr).dirty hd'⟩

theorem write_mayAll (h : HoldsAllD env K n H w.fs S) (conc : Int) (thr : Nat)
    (hl : S.legalAll env K n (.write p arr mem sw conc thr)) :
    (runMOp env n H (.write p arr mem sw conc thr)).Withstands w (MayAll env K n H S (.write p arr mem sw conc thr) w)
      (KilledMayAll env K n H S (.write p arr mem sw conc thr) w.fs) := by
  obtain ⟨hn0, hn1, bb, hh, hz, hd, hpd, hm⟩ := h
  obtain ⟨hin, hcount, hconc, ha⟩ := hl
  obtain ⟨ptr, hptr⟩ := seek_allD (p := p) hh hm (by omega)
  have hb0 := (hm 0 hn0).shape.base
  let stored : Nat → Nat → List Byte := fun r e => (toBlock env K (arr r) (mem r) (sw r) e).getD []
  have hcw : CollectiveWrite env bb K.w K.nm n (xferRank H arr mem ptr) p (rowsOf K arr) sw stored := by
    refine ⟨collective_ofD hh ⟨hn0, hn1⟩ hm hin hcount (fun r hr => (ha r hr).1) ptr (fun r hr => (hptr r hr).2),
      fun r hr => (ha r hr).2.1, fun r hr e he => ?_⟩
    have he' : e < (arr r).size := by rw [(ha r hr).1.size]; exact he
    obtain ⟨b, hb⟩ := Option.isSome_iff_exists.mp ((ha r hr).2.2 e he')
    show convElem env.m env.fo (dtypeNormalize env.m bb.dtype) (arr r).dtype (peek (mem r) (elemAddr (arr r) e) (sw r)) =
      some ((toBlock env K (arr r) (mem r) (sw r) e).getD [])
    rw [hb, hh.kind]
    exact hb
  have hgath : gathered env K n arr mem sw = allRows n (rowsOf K arr) K.nm stored := rfl
  have hglen := allRows_length n (rowsOf K arr) K.nm stored
  unfold runMOp
  dsimp only
  apply Phases.withstands_bind
  apply Phases.withstands_together (P' := fun r => mpiWriteP env n conc thr r (xferRank H arr mem ptr r))
  · intro r hr
    unfold xferP
    rw [(hptr r hr).1]
    rfl
  · intro F hF
    obtain ⟨B, hB⟩ := write_runs hcw conc thr hconc hF w.fs
    refine ⟨B, fun es s hr => ?_⟩
    obtain ⟨b1, htouch, hfin⟩ := hB es s hr
    have hkinds := fun k => run_kinds hr k
    have hdo : ∀ dom, DataOnly bb.basename bb.nfile w.fs ⟨s.nodes, dom⟩ := fun dom =>
      ⟨fun k hk => htouch.other k (fun f _ => hk f), fun f _ hf => (hkinds _).1 hf, fun f hf => (hkinds _).2 hf⟩
    have hforget : ∀ dom, HoldsD env K bb ⟨s.nodes, dom⟩ { S with now := S.now.forget p (rowsBefore (rowsOf K arr) n) } := by
      intro dom
      refine hh.rowsOnly (hdo dom) _ fun r bytes hr => ?_
      by_cases hc : p ≤ r ∧ r < p + rowsBefore (rowsOf K arr) n
      · rw [if_pos hc] at hr; cases hr
      · rw [if_neg hc] at hr
        obtain ⟨g1, g2, g3⟩ := hh.rows r bytes hr
        have : row env.m ⟨s.nodes, dom⟩ bb r = row env.m w.fs bb r := htouch.outside r (by omega) g3
        refine ⟨g1, this.trans g2, ?_⟩
        unfold Stored
        rw [this]
        exact g3
    have hsame : ∀ dom, SameOutside (H 0).basename w.fs ⟨s.nodes, dom⟩ := fun dom => by rw [hb0]; exact (hdo dom).outside
    refine ⟨b1, fun dom => ⟨hsame dom, _, bb, .write _ _ _ _ _ _, hb0.symm, hforget dom⟩, fun hs => ?_⟩
    have hkept : ∀ r, (s.thr r).prog.Always fun x => HandleKept (H r) x.2.bb :=
      hr.always (Q := fun r x => HandleKept (H r) x.2.bb) (fun r => throttleP_kept env true n conc thr r (xferRank H arr mem ptr r))
    rcases hfin hs with ⟨st, hst, _, hdt, hfiles, hnod⟩ | ⟨_, e, r0, he, _, hst⟩
    · refine ⟨fun r => (0, st r), fun r hr => (hst r hr).1, fun out dom ho => ?_⟩
      apply Phases.withstands_pure
      have hk : ∀ r, r < n → HandleKept (H r) (out r).2.bb := by
        intro r hr
        have := hkept r
        rw [(hst r hr).1] at this
        rw [ho r hr]
        exact this
      refine ⟨rfl, ?_, hsame dom, _, .done _ _ fun r hr => ?_, .kept (bb := bb) (H := H) ⟨hn0, hn1⟩ ?_ hz hd hpd hm hk⟩
      · exact (hk 0 hn0).shape.base
      · dsimp only
        rw [ho r hr]
        exact ⟨rfl, (hst r hr).2.mem⟩
      · have hput : s.nodes = (putRows env.m bb w.fs p (fun i => (gathered env K n arr mem sw).getD i [])
            (rowsBefore (rowsOf K arr) n)).node := by
          rw [hnod, show rowsBefore (rowsOf K arr) n = (gathered env K n arr mem sw).length from hglen.symm]
          exact putRows_node rfl
        have hlen : ∀ i, i < rowsBefore (rowsOf K arr) n →
            ((gathered env K n arr mem sw).getD i []).length = rowSize env.m bb := by
          intro i hi
          have hi' : i < (gathered env K n arr mem sw).length := by rw [hgath, hglen]; exact hi
          have hrs : rowSize env.m bb = K.w * K.nm := by
            have hs := (hm 0 hn0).shape
            rw [← (hcw.block 0 hn0).dummy.rowSize]
            exact (hs.rowSize _).symm
          have hx : (gathered env K n arr mem sw).getD i [] ∈ allRows n (rowsOf K arr) K.nm stored := by
            rw [List.getD_eq_getElem?_getD, List.getElem?_eq_getElem hi']
            exact List.getElem_mem hi'
          obtain ⟨r, hr, hx⟩ := List.mem_flatMap.mp hx
          rw [hrs]
          exact hcw.row_length (List.mem_range.mp hr) _ hx
        have hrow : ∀ r, row env.m ⟨s.nodes, dom⟩ bb r = row env.m (putRows env.m bb w.fs p
            (fun i => (gathered env K n arr mem sw).getD i []) (rowsBefore (rowsOf K arr) n)) bb r := by
          intro r
          unfold row FS.bytes
          rw [hput]
        refine hh.rowsOnly (hdo dom) _ fun r bytes hr => ?_
        by_cases hc : p ≤ r ∧ r < p + rowsBefore (rowsOf K arr) n
        · rw [if_pos hc] at hr
          have hr := Option.some.inj hr
          have := row_putRows_in env.m bb w.fs p _ _ hlen hfiles (r - p) (by omega)
          rw [← hrow, show p + (r - p) = r by omega] at this
          refine ⟨by show r < S.now.size; omega, by rw [this]; exact hr, ?_⟩
          unfold Stored
          rw [this]
          exact hlen _ (by omega)
        · rw [if_neg hc] at hr
          obtain ⟨g1, g2, g3⟩ := hh.rows r bytes hr
          have : row env.m ⟨s.nodes, dom⟩ bb r = row env.m w.fs bb r := by
            rw [hrow]
            exact row_putRows_out env.m bb w.fs p _ _ (fun i hi => by rw [hlen i hi]; exact Nat.le_refl _) r (by omega) g3
          refine ⟨g1, this.trans g2, ?_⟩
          unfold Stored
          rw [this]
          exact g3
    · have hch : ∀ r, ∃ st, r < n → (s.thr r).prog = .ret (e, st) := by
        intro r
        by_cases hr : r < n
        · obtain ⟨st, h1, _⟩ := hst r hr
          exact ⟨st, fun _ => h1⟩
        · exact ⟨xferRank H arr mem ptr r, fun hr' => absurd hr' hr⟩
      refine ⟨fun r => (e, (hch r).choose), fun r hr => (hch r).choose_spec hr, fun out dom ho => ?_⟩
      apply Phases.withstands_pure
      have hk : ∀ r, r < n → HandleKept (H r) (out r).2.bb := by
        intro r hr
        have := hkept r
        rw [(hch r).choose_spec hr] at this
        rw [ho r hr]
        exact this
      refine ⟨rfl, (hk 0 hn0).shape.base, hsame dom, _, .write _ _ _ _ _ _ _ ⟨e, he, fun r hr => ?_⟩,
        .kept (bb := bb) (H := H) ⟨hn0, hn1⟩ (hforget dom) hz hd hpd hm hk⟩
      dsimp only
      rw [ho r hr]

/-- Reading, with what it leaves alone: the handles and the disk. -/
theorem read_mayKeeps (h : HoldsAllD env K n H w.fs S) (conc : Int) (thr : Nat)
    (hl : S.legalAll env K n (.read p arr mem sw conc thr)) :
    (runMOp env n H (.read p arr mem sw conc thr)).Withstands w
      (fun x w' => MayAll env K n H S (.read p arr mem sw conc thr) w x w' ∧ w'.fs.node = w.fs.node ∧ ∀ r, r < n → x.2 r = H r)
      (fun fs => KilledMayAll env K n H S (.read p arr mem sw conc thr) w.fs fs ∧ fs.node = w.fs.node) := by
  obtain ⟨hn0, hn1, bb, hh, hz, hd, hpd, hm⟩ := h
  obtain ⟨⟨hin, hcount, hconc, ha⟩, hany⟩ := hl
  obtain ⟨ptr, hptr⟩ := seek_allD (p := p) hh hm (by omega)
  have hb0 := (hm 0 hn0).shape.base
  have hnm := hh.ok.memb0
  let out : Nat → Nat → List Byte := fun r e =>
    (((S.now.rows (p + rowsBefore (rowsOf K arr) r + e / K.nm)).bind fun bytes => fromBlock env K (arr r) bytes (e % K.nm))).getD []
  have helem : ∀ r, r < n → ∀ e, e < rowsOf K arr r * K.nm → ∃ bytes,
      S.now.rows (p + rowsBefore (rowsOf K arr) r + e / K.nm) = some bytes ∧
      fromBlock env K (arr r) bytes (e % K.nm) = some (out r e) := by
    intro r hr e he
    have hi : e / K.nm < rowsOf K arr r := (Nat.div_lt_iff_lt_mul hnm).mpr he
    obtain ⟨bytes, h1, h2⟩ := (ha r hr).2.2.2 (e / K.nm) hi
    obtain ⟨b, hb⟩ := Option.isSome_iff_exists.mp (h2 (e % K.nm) (Nat.mod_lt _ hnm))
    refine ⟨bytes, h1, ?_⟩
    show _ = some ((((S.now.rows (p + rowsBefore (rowsOf K arr) r + e / K.nm)).bind
      fun bytes => fromBlock env K (arr r) bytes (e % K.nm))).getD [])
    rw [h1]
    simp only [Option.bind_some]
    rw [hb]
    rfl
  have hcr : CollectiveRead env w.fs bb K.w K.nm n (xferRank H arr mem ptr) p (rowsOf K arr) sw out := by
    refine ⟨collective_ofD hh ⟨hn0, hn1⟩ hm hin hcount (fun r hr => (ha r hr).1) ptr (fun r hr => (hptr r hr).2),
      fun r hr => (ha r hr).2.1, fun r hr h0 => by rw [hh.kind]; exact (ha r hr).2.2.1 h0, fun r hr e he _ => ?_⟩
    obtain ⟨bytes, h1, h2⟩ := helem r hr e he
    unfold elemOfRows
    rw [(hh.rows _ _ h1).2.1, hh.kind]
    exact h2
  have hconv : ConvertsAny env bb K.w n (xferRank H arr mem ptr) (rowsOf K arr) := by
    intro r hr h0 bs hbs
    rw [hh.kind]
    exact hany r hr h0 bs hbs
  unfold runMOp
  dsimp only
  apply Phases.withstands_bind
  apply Phases.withstands_together (P' := fun r => mpiReadP env n conc thr r (xferRank H arr mem ptr r))
  · intro r hr
    unfold xferP
    rw [(hptr r hr).1]
    rfl
  · intro F hF
    obtain ⟨B, hB⟩ := read_runs hcr conc thr hconc hF (.inr hconv)
    refine ⟨B, fun es s hr => ?_⟩
    obtain ⟨b1, hnod, hfin⟩ := hB es s hr
    have hsame : ∀ dom, HoldsD env K bb ⟨s.nodes, dom⟩ S := fun dom => hh.sameFiles hnod
    have hout : ∀ dom, SameOutside (H 0).basename w.fs ⟨s.nodes, dom⟩ := fun dom k _ => congrFun hnod k
    refine ⟨b1, fun dom => ⟨⟨hout dom, _, bb, .read _ _ _ _ _ _, hb0.symm, hsame dom⟩, hnod⟩, fun hs => ?_⟩
    have hkept : ∀ r, (s.thr r).prog.Always fun x => HandleKept (H r) x.2.bb :=
      hr.always (Q := fun r x => HandleKept (H r) x.2.bb) (fun r => throttleP_kept env false n conc thr r (xferRank H arr mem ptr r))
    have heq : ∀ r, (s.thr r).prog.Always fun x => x.2.bb = H r :=
      hr.always (Q := fun r x => x.2.bb = H r) (fun r => throttleP_reads env n conc thr r (xferRank H arr mem ptr r))
    rcases hfin hs with ⟨st, hst⟩ | ⟨_, e, r0, he, _, hst⟩
    · refine ⟨fun r => (0, st r), fun r hr => (hst r hr).1, fun o dom ho => ?_⟩
      apply Phases.withstands_pure
      have hk : ∀ r, r < n → HandleKept (H r) (o r).2.bb := by
        intro r hr
        have := hkept r
        rw [(hst r hr).1] at this
        rw [ho r hr]
        exact this
      refine ⟨⟨rfl, (hk 0 hn0).shape.base, hout dom, _, .done _ _ fun r hr => ?_, .kept (bb := bb) (H := H) ⟨hn0, hn1⟩ (hsame dom) hz hd hpd hm hk⟩,
        hnod, fun r hr => by
          have := heq r
          rw [(hst r hr).1] at this
          dsimp only
          rw [ho r hr]
          exact this⟩
      dsimp only
      rw [ho r hr]
      refine ⟨rfl, fun i hi j hj => ?_, fun y hy => (hst r hr).2.frame y hy⟩
      have he : i * K.nm + j < rowsOf K arr r * K.nm := by
        calc i * K.nm + j < i * K.nm + K.nm := by omega
          _ = (i + 1) * K.nm := (Nat.succ_mul _ _).symm
          _ ≤ _ := Nat.mul_le_mul_right _ hi
      obtain ⟨bytes, h1, h2⟩ := helem r hr (i * K.nm + j) he
      have hdv : (i * K.nm + j) / K.nm = i := by
        rw [Nat.mul_comm, Nat.mul_add_div hnm, Nat.div_eq_of_lt hj]; rfl
      have hmd : (i * K.nm + j) % K.nm = j := by
        rw [Nat.mul_comm, Nat.mul_add_mod, Nat.mod_eq_of_lt hj]
      rw [hdv] at h1
      rw [hmd] at h2
      exact ⟨bytes, h1, by rw [h2]; exact congrArg some ((hst r hr).2.elems _ he).symm⟩
    · have hch : ∀ r, ∃ st, r < n → (s.thr r).prog = .ret (e, st) := by
        intro r
        by_cases hr : r < n
        · obtain ⟨st, h1, _⟩ := hst r hr
          exact ⟨st, fun _ => h1⟩
        · exact ⟨xferRank H arr mem ptr r, fun hr' => absurd hr' hr⟩
      refine ⟨fun r => (e, (hch r).choose), fun r hr => (hch r).choose_spec hr, fun out dom ho => ?_⟩
      apply Phases.withstands_pure
      have hk : ∀ r, r < n → HandleKept (H r) (out r).2.bb := by
        intro r hr
        have := hkept r
        rw [(hch r).choose_spec hr] at this
        rw [ho r hr]
        exact this
      refine ⟨⟨rfl, (hk 0 hn0).shape.base, hout dom, _, .read _ _ _ _ _ _ _ ⟨e, he, fun r hr => ?_⟩,
        .kept (bb := bb) (H := H) ⟨hn0, hn1⟩ (hsame dom) hz hd hpd hm hk⟩, hnod, fun r hr => by
          have := heq r
          rw [(hch r).choose_spec hr] at this
          dsimp only
          rw [ho r hr]
          exact this⟩
      dsimp only
      rw [ho r hr]

theorem read_mayAll (h : HoldsAllD env K n H w.fs S) (conc : Int) (thr : Nat)
    (hl : S.legalAll env K n (.read p arr mem sw conc thr)) :
    (runMOp env n H (.read p arr mem sw conc thr)).Withstands w (MayAll env K n H S (.read p arr mem sw conc thr) w)
      (KilledMayAll env K n H S (.read p arr mem sw conc thr) w.fs) :=
  Phases.withstands_mono (read_mayKeeps h conc thr hl) (fun _ _ h => h.1) (fun _ h => h.1)

end

/-! ## Attributes -/

theorem attr_mayAll (h : HoldsAllD env K n H w.fs S) (op : AttrOp) (hl : S.legalAll env K n (.attr op)) :
    (runMOp env n H (.attr op)).Withstands w (MayAll env K n H S (.attr op) w) (KilledMayAll env K n H S (.attr op) w.fs) := by
  obtain ⟨hn0, hn1, bb, hh, hz, hd, hpd, hm⟩ := h
  have hb0 := (hm 0 hn0).shape.base
  have hone : ∀ b, MateD env bb b → ∃ x s', attrStep env b.attrset op = some (x, s') ∧ AnsOk env.m env.fo S.now.attrs op x ∧
      WellAttrs env.m s' ∧ attrView env.m s' = attrNext env.m S.now.attrs op ∧ s'.dirty = (b.attrset.dirty || op.isSet) := by
    intro b m
    obtain ⟨es, hi⟩ := m.attrs
    have hes : findE es = S.now.attrs := hi.view_eq.symm.trans (m.view.trans hh.attrs)
    have h1 := hl.1
    rw [← hes] at h1
    obtain ⟨ans, s', es', e1, hi', hn, ha⟩ := attrStep_spec hi op h1
    have hd := attrStep_dirty hi op h1 e1
    rw [hes] at hn ha
    exact ⟨ans, s', e1, ha, ⟨es', hi'⟩, hi'.view_eq.trans hn, hd⟩
  obtain ⟨xb, sb, eb, _, hwb, hvb, hdb⟩ := hone bb ⟨.rfl' _, hh.ok.layout, hh.savable.attrs, rfl⟩
  have hnew : HoldsD env K { bb with attrset := sb } w.fs { S with now := S.now.nextAll env K n (.attr op) } := by
    have := attr_may hh op hl
    unfold runBOp at this
    dsimp only at this
    rw [eb, M.lift_some_bind] at this
    obtain ⟨_, _, S', ho, hS⟩ := this
    cases ho with
    | done _ _ _ => exact hS
  have hch : ∀ r, ∃ y : AttrAns × AttrSet, r < n → attrStep env (H r).attrset op = some y ∧ AnsOk env.m env.fo S.now.attrs op y.1 ∧
      WellAttrs env.m y.2 ∧ attrView env.m y.2 = attrNext env.m S.now.attrs op ∧ y.2.dirty = ((H r).attrset.dirty || op.isSet) := by
    intro r
    by_cases hr : r < n
    · obtain ⟨x, s', h1, h2⟩ := hone _ (hm r hr)
      exact ⟨(x, s'), fun _ => ⟨h1, h2⟩⟩
    · exact ⟨(xb, sb), fun hr' => absurd hr' hr⟩
  let y : Nat → AttrAns × AttrSet := fun r => (hch r).choose
  have hy := fun r hr => (hch r).choose_spec hr
  unfold runMOp
  apply Phases.withstands_bind
  apply Phases.withstands_together (P' := fun r => .ret (y r))
  · intro r hr
    rw [(hy r hr).1]
    rfl
  · intro F hF
    refine ⟨0, fun es s hr => ?_⟩
    have hs : es = [] ∧ s = startAll (fun r => .ret (y r)) w.fs.node := by
      cases hr with
      | nil => exact ⟨rfl, rfl⟩
      | cons h _ =>
        cases h with
        | file r op k t a nd hr ht he => cases ht
        | coll c hne hall =>
          obtain ⟨r, hr⟩ := List.exists_mem_of_ne_nil _ hne
          exact absurd (hall r hr).2 (by simp [startAll, Prog.WaitsAt])
    obtain ⟨rfl, rfl⟩ := hs
    refine ⟨Nat.le_refl _, fun dom => ⟨.refl _ _, S, bb, .attr op, hb0.symm, hh.sameFiles rfl⟩, fun _ => ⟨y, fun r _ => rfl, fun out dom ho => ?_⟩⟩
    apply Phases.withstands_pure
    refine ⟨rfl, rfl, .refl _ _, _, .done _ _ fun r hr => ?_, hn0, hn1, { bb with attrset := sb }, hnew.sameFiles rfl, hz, hd, ?_, fun r hr => ?_⟩
    · dsimp only
      rw [ho r hr]
      exact ⟨_, rfl, (hy r hr).2.1⟩
    · dsimp only
      rw [ho 0 hn0]
      show (y 0).2.dirty = sb.dirty
      rw [(hy 0 hn0).2.2.2.2, hdb, hpd]
    · dsimp only
      rw [ho r hr]
      have m := hm r hr
      obtain ⟨_, _, g1, g2, g3⟩ := hy r hr
      have hs : SameShape { bb with attrset := sb } { H r with attrset := (y r).2 } :=
        ⟨m.shape.dtype, m.shape.nmemb, m.shape.base, m.shape.size, m.shape.fsize, m.shape.foffset, m.shape.nfile⟩
      exact ⟨hs, SameShape.layout (bb := H r) ⟨rfl, rfl, rfl, rfl, rfl, rfl, rfl⟩ m.layout m.layout.nck m.layout.ck32, g1,
        g2.trans hvb.symm⟩

/-! ## Grow -/

/-- The handle has grown, and some of the new files are there. -/
theorem Spec.HoldsD.grownSome {fs fs' : FS} (h : HoldsD env K bb fs S) (sizes : List Nat) (hl : S.now.legal env K (.grow sizes))
    (hdo : DataOnly bb.basename bb.nfile fs fs')
    (hold : ∀ f, f < bb.nfile → fs'.node (fileKey bb.basename (.data f)) = fs.node (fileKey bb.basename (.data f))) (wh : Bool)
    (hw : wh = true → S.whole = true ∧ ∀ i, i < sizes.length → IsFile fs' (fileKey bb.basename (.data (bb.nfile + i)))) :
    HoldsD env K (growInternal bb sizes) fs' { S with now := S.now.next env K (.grow sizes), whole := wh } := by
  obtain ⟨hs1, hs2, hs3⟩ := hl
  have hL := h.ok.layout
  have hsz : bb.fsize.sum = S.now.size := by rw [← hL.size]; exact h.size
  have g := growInternal_grown hL (grow := sizes) (by rw [hsz]; exact hs1)
  have hm : ∀ id : FileId, (∀ f, id ≠ .data f) → fs'.node (fileKey bb.basename id) = fs.node (fileKey bb.basename id) :=
    fun id hid => hdo.other _ (fun f => fileKey_ne (hid f))
  have hsv := h.savable
  have hsum : (growInternal bb sizes).fsize.sum = S.now.size + sizes.sum := by rw [g.fsize, List.sum_append, hsz]
  refine ⟨⟨g.layout, h.ok.item, h.ok.item0, h.ok.memb, h.ok.memb0, h.ok.felInt, h.ok.buf, h.ok.bufMax,
      by rw [hsum]; exact hs2⟩, h.kind, by rw [g.size, h.size]; rfl, by rw [g.nfile, h.nfile]; rfl,
    ⟨hsv.fmt, ⟨hsv.header.dt, hsv.header.nmemb0, hsv.header.nmembMax, g.layout.nfile, g.layout.nck,
        by rw [g.nfile, h.nfile]; exact hs3, ?_, g.layout.ck32⟩, rfl, rfl, hsv.attrs, hsv.storable, hsv.base, hsv.notMeta⟩,
    h.attrs, h.pending, h.tame, ?_, (fun hd => nomatch hd), ?_, ?_, ?_, ?_, ?_, ?_⟩
  · intro s hs
    have := mem_le_sum hs
    omega
  · intro hk
    rw [g.base]
    exact attrsSay_congr (hm _ (by simp)) (hm _ (by simp)) (h.saved hk)
  · apply h.header_shape g.dtype g.nmemb g.base (by rw [g.nfile]; omega) _ (hm _ (by simp))
    intro k hk
    rw [g.fsize, List.take_append_of_le_length (by rw [hL.nfile]; exact hk)]
  · refine ⟨?_, ?_, ?_⟩
    · exact (hdo.other _ (fun f => resolve_ne_fileKey _ _)).trans h.dir.dir
    · rw [g.base, hm _ (by simp)]; exact h.dir.header
    · rw [g.base, hm _ (by simp)]; exact h.dir.attr
  · exact (hm _ (by simp)).trans h.noOld
  · intro f
    rw [g.base]
    exact hdo.noDirs f (h.noDirs f)
  · intro hwh f hf
    obtain ⟨h1, h2⟩ := hw hwh
    rw [g.nfile] at hf
    rw [g.base]
    by_cases hc : bb.nfile ≤ f
    · have := h2 (f - bb.nfile) (by omega)
      rwa [show bb.nfile + (f - bb.nfile) = f by omega] at this
    · exact hdo.files f (by omega) (h.data h1 f (by omega))
  · intro r bytes hr
    obtain ⟨g1, g2, g3⟩ := h.rows r bytes hr
    have hr' : r < bb.size := by rw [h.size]; exact g1
    have hrow : row env.m fs' (growInternal bb sizes) r = row env.m fs bb r := by
      obtain ⟨k1, k2, k3⟩ := g.row_place (m := env.m) hL hr'
      have hf : rowFile bb r < bb.nfile := by
        rw [← hL.nfile]
        exact (locate_lt bb.fsize r (by rw [← hL.size]; exact hr')).1
      unfold row
      rw [k1, k2, k3, g.base, bytes_congr (hold _ hf)]
    refine ⟨by show r < S.now.size + sizes.sum; omega, hrow.trans g2, ?_⟩
    unfold Stored
    rw [hrow]
    exact g3

/-- Data files other than those of the block changed. -/
theorem Spec.HoldsD.newFiles {fs fs' : FS} (h : HoldsD env K bb fs S) (hdo : DataOnly bb.basename bb.nfile fs fs')
    (hold : ∀ f, f < bb.nfile → fs'.node (fileKey bb.basename (.data f)) = fs.node (fileKey bb.basename (.data f))) :
    HoldsD env K bb fs' S := by
  refine h.rowsOnly hdo S.now.rows fun r bytes hr => ?_
  obtain ⟨g1, g2, g3⟩ := h.rows r bytes hr
  have hL := h.ok.layout
  have hf : rowFile bb r < bb.nfile := by
    rw [← hL.nfile]
    exact (locate_lt bb.fsize r (by rw [← hL.size, h.size]; exact g1)).1
  have hrow : row env.m fs' bb r = row env.m fs bb r := by
    unfold row
    rw [bytes_congr (hold _ hf)]
  refine ⟨g1, hrow.trans g2, ?_⟩
  unfold Stored
  rw [hrow]
  exact g3

theorem growInternal_mateD {b1 b2 : Block} {fs : FS} (m : MateD env b1 b2) {sizes : List Nat}
    (h : HoldsD env K (growInternal b1 sizes) fs S) : MateD env (growInternal b1 sizes) (growInternal b2 sizes) := by
  have hs : SameShape (growInternal b1 sizes) (growInternal b2 sizes) := by
    have e : b2.fsize ++ sizes = b1.fsize ++ sizes := by rw [m.shape.fsize]
    refine ⟨m.shape.dtype, m.shape.nmemb, m.shape.base, ?_, e, ?_, ?_⟩
    · show (runningSums 0 (b2.fsize ++ sizes)).getLastD 0 = (runningSums 0 (b1.fsize ++ sizes)).getLastD 0
      rw [e]
    · show runningSums 0 (b2.fsize ++ sizes) = runningSums 0 (b1.fsize ++ sizes)
      rw [e]
    · show sizes.length + b2.nfile = sizes.length + b1.nfile
      rw [m.shape.nfile]
  refine ⟨hs, hs.layout h.ok.layout ?_ ?_, m.attrs, m.view⟩
  · show (b2.fchecksum ++ List.replicate sizes.length 0).length = sizes.length + b2.nfile
    rw [List.length_append, m.layout.nck, List.length_replicate, Nat.add_comm]
  · intro c hc
    rcases List.mem_append.mp (show c ∈ b2.fchecksum ++ List.replicate sizes.length 0 from hc) with hc | hc
    · exact m.layout.ck32 c hc
    · rw [(List.mem_replicate.mp hc).2]
      decide

theorem grow_mayAll (h : HoldsAllD env K n H w.fs S) (sizes : List Nat) (hl : S.legalAll env K n (.grow sizes)) :
    (runMOp env n H (.grow sizes)).Withstands w (MayAll env K n H S (.grow sizes) w) (KilledMayAll env K n H S (.grow sizes) w.fs) := by
  obtain ⟨hn0, hn1, bb, hh, hz, hd, hpd, hm⟩ := h
  have hcnt : sizes.length < 2147483648 := by have := hl.2.2; omega
  have hg0 := hh.grownSome sizes hl (.refl _ _ _) (fun _ _ => rfl) false (fun h => nomatch h)
  have m0 := growInternal_mateD (hm 0 hn0) hg0
  have hz' : (0 : Byte) ∉ (growInternal (H 0) sizes).basename := by rw [m0.shape.base]; exact hz
  have hbr : ∀ r, MateD env (growInternal bb sizes) (mpiGrowRoot env H sizes r) := fun r =>
    m0.trans (mate_broadcast m0.layout hz' (by rw [m0.shape.base]; exact hh.savable.base) m0.attrs r).mateD
  show Phases.Withstands (Phases.together n (fun r =>
    mpiTruncP n r (mpiGrowRoot env H sizes r).basename (H r).nfile sizes.length none b!"cannot open") >>= fun out =>
      (pure (fun r => ⟨(out r).1, env.junk, none⟩, mpiGrowRoot env H sizes) : Phases ((Nat → BAns) × (Nat → Block)))) w _ _
  apply Phases.withstands_bind
  apply Phases.withstands_together (P' := fun r => mpiTruncP n r bb.basename bb.nfile sizes.length none b!"cannot open")
  · intro r hr
    rw [(hbr r).shape.base, (hm r hr).shape.nfile]
    rfl
  · intro F hF
    obtain ⟨B, hB⟩ := C43_truncate n bb.basename bb.nfile sizes.length (fun _ => none) (fun _ => b!"cannot open") w.fs.node F
      hn0 hn1 hcnt hF
    refine ⟨B, fun es s hr => ?_⟩
    obtain ⟨b1, _, _, hother, hst⟩ := hB es s hr
    have hkinds := fun k => run_kinds hr k
    have hdo : ∀ dom, DataOnly bb.basename bb.nfile w.fs ⟨s.nodes, dom⟩ := fun dom =>
      ⟨fun k hk => hother k (fun i _ => hk _), fun f _ hf => (hkinds _).1 hf, fun f hf => (hkinds _).2 hf⟩
    have hold : ∀ f, f < bb.nfile → s.nodes (fileKey bb.basename (.data f)) = w.fs.node (fileKey bb.basename (.data f)) :=
      fun f hf => hother _ fun i _ => fileKey_ne (by simp; omega)
    have hsame : ∀ dom, SameOutside (H 0).basename w.fs ⟨s.nodes, dom⟩ := fun dom => by
      rw [(hm 0 hn0).shape.base]; exact (hdo dom).outside
    refine ⟨b1, fun dom => ⟨hsame dom, S, bb, .grow sizes, (hm 0 hn0).shape.base.symm, hh.newFiles (hdo dom) hold⟩, fun hs => ?_⟩
    obtain ⟨rc, hret, hdone, _⟩ := hst hs
    have hch : ∀ r, ∃ e, r < n → (s.thr r).prog = .ret (rc, e) := by
      intro r
      by_cases hr : r < n
      · obtain ⟨e, he⟩ := hret r hr
        exact ⟨e, fun _ => he⟩
      · exact ⟨none, fun hr' => absurd hr' hr⟩
    refine ⟨fun r => (rc, (hch r).choose), fun r hr => (hch r).choose_spec hr, fun out dom ho => ?_⟩
    apply Phases.withstands_pure
    have hall : ∀ wh, (wh = true → S.whole = true ∧ rc = 0) → HoldsAllD env K n (mpiGrowRoot env H sizes) ⟨s.nodes, dom⟩
        { S with now := S.now.next env K (.grow sizes), whole := wh } := by
      intro wh hw
      refine ⟨hn0, hn1, growInternal bb sizes, hh.grownSome sizes hl (hdo dom) hold wh (fun h => ?_), hz, fun _ => ⟨0, hn0, ?_⟩, ?_, fun r _ => hbr r⟩
      · obtain ⟨h1, h2⟩ := hw h
        exact ⟨h1, fun i hi => ⟨[], (hdone h2).1 i hi⟩⟩
      · show (mpiGrowRoot env H sizes 0).dirty = true
        unfold mpiGrowRoot mpiBroadcast
        rw [if_pos rfl]
        rfl
      · show (mpiGrowRoot env H sizes 0).attrset.dirty = bb.attrset.dirty
        unfold mpiGrowRoot mpiBroadcast
        rw [if_pos rfl]
        exact hpd
    have hbase : (mpiGrowRoot env H sizes 0).basename = (H 0).basename := (hbr 0).shape.base.trans (hm 0 hn0).shape.base.symm
    by_cases hrc : rc = 0
    · refine ⟨rfl, hbase, hsame dom, _, .done _ _ fun r hr => ?_, hall S.whole fun h => ⟨h, hrc⟩⟩
      dsimp only
      rw [ho r hr]
      exact hrc
    · refine ⟨rfl, hbase, hsame dom, _, .grow sizes _ ⟨rc, hrc, fun r hr => ?_⟩, hall false fun h => nomatch h⟩
      dsimp only
      rw [ho r hr]

/-! ## Flush -/

theorem wpc_mapRes {α β : Type} {f : α → β} {m : M α} {Q : β → World → Prop} {C : World → Prop}
    (h : wpc m w (fun a w' => Q (f a) w') C) : wpc (M.mapRes f m) w Q C := by
  unfold wpc M.mapRes at *
  cases e : m w <;> rw [e] at h <;> exact h

/-- What a flush may leave. -/
def FlushLeaves (S S' : Durable) : Prop := S' = { S with stored := none } ∨ S.now.pending = true ∧ S' = S.attrsLost

theorem flush_cases_may {b : Block} (h : HoldsD env K b w.fs S) (hns : NoSilent w.faults) :
    wpc (blockFlush env b) w
      (fun r w' => w'.faults = w.faults ∧ (r.2 = b ∨ r.2 = cleaned b) ∧ ∃ S', HoldsD env K r.2 w'.fs S' ∧
        S'.now.attrs = S.now.attrs ∧ (r.1 = 0 ∧ S' = S.flushed ∨ r.1 = -1 ∧ FlushLeaves S S'))
      (fun w' => ∃ S' b', b'.basename = b.basename ∧ HoldsD env K b' w'.fs S' ∧ FlushLeaves S S') := by
  obtain ⟨txt, k1, k2⟩ := h.attrText
  apply wpc_mono (wpc_blockFlush_cases b txt w hns k1)
  · rintro ⟨rc, b'⟩ w1 ⟨f1, (⟨h1, h2, h3⟩ | ⟨h1, h2, h3, h4⟩ | ⟨h1, h2, h3, h4⟩)⟩
    · simp only at h1 h2
      subst h1 h2
      refine ⟨f1, .inr rfl, _, by rw [h3]; exact h.flushedOk k2, ?_, .inl ⟨rfl, rfl⟩⟩
      unfold Durable.flushed
      dsimp only
      split <;> rfl
    · simp only at h1 h2
      subst h1 h2
      refine ⟨f1, .inl rfl, { S with stored := none }, ?_, rfl, .inr ⟨rfl, .inl rfl⟩⟩
      have := h.headerTorn h4
      have e : { b' with dirty := true } = b' := by cases b'; cases h3; rfl
      rw [e] at this
      exact this
    · simp only at h1 h2
      subst h1 h2
      exact ⟨f1, .inr rfl, _, h.attrsTorn h4, rfl, .inr ⟨rfl, .inr ⟨h.pending.symm.trans h3, rfl⟩⟩⟩
  · rintro w1 (h1 | ⟨h1, h2⟩)
    · exact ⟨_, { b with dirty := true }, rfl, h.headerTorn h1, .inl rfl⟩
    · exact ⟨_, cleaned b, rfl, h.attrsTorn h2, .inr ⟨h.pending.symm.trans h1, rfl⟩⟩

theorem reducedRoot_mateD {fs : FS} (h : HoldsD env K bb fs S) (m : MateD env bb (H 0)) : MateD env bb (reducedRoot n H) := by
  have hs : SameShape bb (reducedRoot n H) :=
    ⟨m.shape.dtype, m.shape.nmemb, m.shape.base, m.shape.size, m.shape.fsize, m.shape.foffset, m.shape.nfile⟩
  refine ⟨hs, hs.layout h.ok.layout ?_ ?_, m.attrs, m.view⟩
  · show (reducedChecksums n H).length = (H 0).nfile
    simp [reducedChecksums]
  · intro c hc
    obtain ⟨f, _, rfl⟩ := List.mem_map.mp (show c ∈ reducedChecksums n H from hc)
    exact Nat.mod_lt _ (by decide)

/-- What rank 0 does in a collective flush: `b'` is a handle for which `HoldsD` holds, the handle of rank 0 is like it. -/
theorem root_may (h : HoldsD env K bb w.fs S) (hns : NoSilent w.faults) (hn : 0 < n)
    (hd : bb.dirty = true → ∃ r, r < n ∧ (H r).dirty = true) (hp : (H 0).attrset.dirty = bb.attrset.dirty)
    (hm : ∀ r, r < n → MateD env bb (H r)) :
    wpc (blockFlush env (reducedRoot n H)) w
      (fun r w' => w'.faults = w.faults ∧ ∃ S' b', HoldsD env K b' w'.fs S' ∧ SameShape bb b' ∧ MateD env b' r.2 ∧
        r.2.attrset.dirty = b'.attrset.dirty ∧ r.2.dirty = b'.dirty ∧
        S'.now.attrs = S.now.attrs ∧ (r.1 = 0 ∧ S' = S.flushed ∨ r.1 = -1 ∧ FlushLeaves S S'))
      (fun w' => ∃ S' b', b'.basename = bb.basename ∧ HoldsD env K b' w'.fs S' ∧ FlushLeaves S S') := by
  have m := reducedRoot_mateD (n := n) h (hm 0 hn)
  cases hr : (reducedRoot n H).dirty with
  | true =>
    have h1 := h.handle m hp (fun hf => by rw [hr] at hf; cases hf)
    apply wpc_mono (flush_cases_may h1 hns)
    · rintro ⟨rc, b⟩ w' ⟨f1, hb, S', g1, g2, g3⟩
      have hs : SameShape bb b := by
        rcases hb with rfl | rfl
        · exact m.shape
        · exact m.shape.trans' (cleaned_shape _)
      exact ⟨f1, S', b, g1, hs, ⟨.rfl' _, g1.ok.layout, g1.savable.attrs, rfl⟩, rfl, rfl, g2, g3⟩
    · rintro w' ⟨S', b', g1, g2, g3⟩
      exact ⟨S', b', g1.trans m.shape.base, g2, g3⟩
  | false =>
    have hb : bb.dirty = false := by
      cases hbd : bb.dirty with
      | false => rfl
      | true =>
        obtain ⟨r, hr1, hr2⟩ := hd hbd
        have : (reducedRoot n H).dirty = true := List.any_eq_true.mpr ⟨r, List.mem_range.mpr hr1, hr2⟩
        rw [hr] at this
        cases this
    let b1 : Block := { reducedRoot n H with fchecksum := bb.fchecksum }
    have hs1 : SameShape bb b1 := ⟨m.shape.dtype, m.shape.nmemb, m.shape.base, m.shape.size, m.shape.fsize, m.shape.foffset, m.shape.nfile⟩
    have m1 : MateD env bb b1 :=
      ⟨hs1, hs1.layout h.ok.layout (by show bb.fchecksum.length = _; rw [hs1.nfile]; exact h.ok.layout.nck) h.ok.layout.ck32,
        m.attrs, m.view⟩
    have h1 : HoldsD env K b1 w.fs S := by
      apply h.handle m1 hp
      intro _
      obtain ⟨g1, g2⟩ := h.clean hb
      refine ⟨g1, ?_⟩
      unfold HeaderSays at g2 ⊢
      rw [hs1.base, hs1.dtype, hs1.nmemb, hs1.nfile, hs1.fsize]
      exact g2
    have e := blockFlush_ck (env := env) (bb := b1) hr (reducedRoot n H).fchecksum
    have e' : blockFlush env (reducedRoot n H) =
        M.mapRes (fun x => (x.1, { x.2 with fchecksum := (reducedRoot n H).fchecksum })) (blockFlush env b1) := e
    rw [e']
    apply wpc_mapRes
    apply wpc_mono (flush_cases_may h1 hns)
    · rintro ⟨rc, b⟩ w' ⟨f1, hb, S', g1, g2, g3⟩
      have hs : SameShape bb b := by
        rcases hb with rfl | rfl
        · exact hs1
        · exact hs1.trans' (cleaned_shape _)
      refine ⟨f1, S', b, g1, hs, ⟨⟨rfl, rfl, rfl, rfl, rfl, rfl, rfl⟩, ?_, g1.savable.attrs, rfl⟩, rfl, rfl, g2, g3⟩
      refine SameShape.layout (bb := b) ⟨rfl, rfl, rfl, rfl, rfl, rfl, rfl⟩ g1.ok.layout ?_ m.layout.ck32
      show (reducedRoot n H).fchecksum.length = b.nfile
      rw [m.layout.nck, hs.nfile, m.shape.nfile]
    · rintro w' ⟨S', b', g1, g2, g3⟩
      exact ⟨S', b', g1.trans hs1.base, g2, g3⟩

theorem flush_mayAll (h : HoldsAllD env K n H w.fs S) (hns : NoSilent w.faults) :
    (runMOp env n H .flush).Withstands w (MayAll env K n H S .flush w) (KilledMayAll env K n H S .flush w.fs) := by
  obtain ⟨hn0, hn1, bb, hh, hz, hd, hpd, hm⟩ := h
  have hb0 := (hm 0 hn0).shape.base
  unfold runMOp
  apply Phases.withstands_bind
  apply Phases.withstands_alone
  unfold mpiFlush
  rw [wpc_bind]
  apply wpc_mono (wpc_wlp (root_may hh hns hn0 hd hpd hm) (blockFlush_touches env (reducedRoot n H) w))
  · rintro ⟨rc, b⟩ w' ⟨⟨f1, S', b', g1, g2, g3, g4, g5, g6, g7⟩, ht⟩
    dsimp only at g3 g4 g5 g7 ⊢
    have hb : b.basename = bb.basename := g3.shape.base.trans g2.base
    rcases g7 with ⟨rfl, rfl⟩ | ⟨rfl, g7⟩
    · rw [if_neg (by decide), wpc_pure]
      apply Phases.withstands_pure
      refine ⟨f1, ?_, ht, _, .done .flush _ (fun r _ => rfl), hn0, hn1, b', g1, by rw [g2.base]; exact hz, fun hd' => ⟨0, hn0, ?_⟩, ?_, fun r _ => ?_⟩
      · show (mpiBroadcast env b 0).basename = _
        unfold mpiBroadcast
        rw [if_pos rfl, hb, hb0]
      · show (mpiBroadcast env b 0).dirty = _
        unfold mpiBroadcast
        rw [if_pos rfl, g5, hd']
      · show (mpiBroadcast env b 0).attrset.dirty = _
        unfold mpiBroadcast
        rw [if_pos rfl, g4]
      · exact g3.trans (mate_broadcast g3.layout (by rw [hb]; exact hz) (by rw [hb]; exact hh.savable.base) g3.attrs r).mateD
    · rw [if_pos (by decide), wpc_pure]
      apply Phases.withstands_pure
      have hfail : AllFailed n (fun _ => (⟨-1, env.junk, none⟩ : BAns)) := ⟨-1, by decide, fun _ _ => rfl⟩
      have hout : S.OutcomeAll env K n .flush (fun _ => ⟨-1, env.junk, none⟩) S' := by
        rcases g7 with rfl | ⟨hp, rfl⟩
        · exact .flush _ hfail
        · exact .attrs _ hfail hp
      refine ⟨f1, by dsimp only; rw [if_pos rfl, hb, hb0], ht, S', hout, hn0, hn1, b', g1, by rw [g2.base]; exact hz, fun hd' => ⟨0, hn0, ?_⟩, ?_, fun r hr => ?_⟩
      · dsimp only
        rw [if_pos rfl, g5, hd']
      · dsimp only
        rw [if_pos rfl, g4]
      · dsimp only
        split
        · exact g3
        · have m := hm r hr
          exact ⟨g2.symm'.trans' m.shape, m.layout, m.attrs, by rw [m.view, hh.attrs, g1.attrs, g6]⟩
  · rintro w' ⟨⟨S', b', g1, g2, g3⟩, ht⟩
    refine ⟨ht, S', b', ?_, g1.trans hb0.symm, g2⟩
    rcases g3 with rfl | ⟨hp, rfl⟩
    · exact .flush
    · exact .attrs hp

/-- **One collective operation, which may fail or be killed.** -/
theorem mop_may (h : HoldsAllD env K n H w.fs S) (hns : NoSilent w.faults) (op : MOp) (hl : S.legalAll env K n op) :
    (runMOp env n H op).Withstands w (MayAll env K n H S op w) (KilledMayAll env K n H S op w.fs) := by
  cases op with
  | write p arr mem sw conc thr => exact write_mayAll h conc thr hl
  | read p arr mem sw conc thr => exact read_mayAll h conc thr hl
  | grow sizes => exact grow_mayAll h sizes hl
  | attr op => exact attr_mayAll h op hl
  | flush => exact flush_mayAll h hns
  | reopen n' => exact hl.elim

end Verif
