import Verif.Proof.Record
import Verif.Proof.Simple
import Verif.Proof.Reopen
import Verif.Proof.History
import Verif.Props.Transfer
/-!
# Transfer of one field of records
-/

set_option autoImplicit false

namespace Verif

open Spec

/-- The array that views field `f` of `n` records at `buf`. -/
def viewArr (m : Machine) (rt : RType) (f : RField) (n : Nat) (buf : Int) : Arr :=
  { dtype := dtypeNormalize m f.dtype, dims := [n, f.nmemb.toNat],
    strides := [(rt.itemsize : Int), ((itemsize m f.dtype).toNat : Int)], size := n * f.nmemb.toNat,
    data := buf + f.offset }

/-- A field of a complete record type. -/
structure GoodField (m : Machine) (rt : RType) (f : RField) (w nm : Nat) : Prop where
  item : itemsize m f.dtype = w
  memb : f.nmemb = nm
  item0 : 0 < w
  memb0 : 0 < nm
  elsize : f.elsize = w
  size : fieldSize m f = w * nm
  off0 : 0 ≤ f.offset
  fits : f.offset + ((w * nm : Nat) : Int) ≤ rt.itemsize
  small : rt.itemsize < 2147483648

theorem goodField {m : Machine} {rt : RType} (h : Complete m rt) {f : RField} (hf : f ∈ rt.fields)
    (h1 : 0 < f.nmemb) (h2 : 0 < itemsize m f.dtype) :
    GoodField m rt f (itemsize m f.dtype).toNat f.nmemb.toNat := by
  obtain ⟨c, hc, rfl⟩ := List.mem_iff_getElem.mp hf
  have hle := fieldStart_le m rt.fields hc
  have hsm := h.small
  have hsz := h.size
  have ho := h.offset c hc
  refine ⟨by omega, by omega, by omega, by omega, by rw [h.elsize _ hf]; omega, rfl, by omega, ?_, by omega⟩
  rw [ho, hsz]
  unfold fieldSize at hle
  omega

section
variable {m : Machine} {rt : RType} {f : RField} {w nm : Nat}

theorem GoodField.nm_lt (h : GoodField m rt f w nm) : nm < 2147483648 := by
  have h1 : nm ≤ w * nm := Nat.le_mul_of_pos_left nm h.item0
  have := h.fits; have := h.off0; have := h.small
  omega

theorem GoodField.wnm_le (h : GoodField m rt f w nm) : w * nm ≤ rt.itemsize := by
  have := h.fits; have := h.off0
  omega

theorem GoodField.view_size (h : GoodField m rt f w nm) (n : Nat) (buf : Int) :
    (viewArr m rt f n buf).size = n * nm := by
  show n * f.nmemb.toNat = _
  rw [h.memb]; rfl

theorem GoodField.bytes_le (h : GoodField m rt f w nm) (n : Nat) : n * nm * w ≤ n * rt.itemsize := by
  rw [Nat.mul_assoc, Nat.mul_comm nm w]
  exact Nat.mul_le_mul_left n h.wnm_le

theorem GoodField.view (h : GoodField m rt f w nm) (n : Nat) (buf : Int)
    (hn : n * rt.itemsize < 9223372036854775808) :
    viewField m rt f n buf = some (viewArr m rt f n buf) := by
  have h1 := h.nm_lt
  have h2 := h.bytes_le n
  have h3 : n * nm ≤ n * nm * w := Nat.le_mul_of_pos_right _ h.item0
  have h4 : n ≤ n * nm := Nat.le_mul_of_pos_right _ h.memb0
  have h5 := h.small
  unfold viewField arrayInit
  rw [if_neg (by simp)]
  simp only
  have hu : u64 f.nmemb = f.nmemb.toNat := by
    rw [h.memb, u64_of_nat (by omega)]; rfl
  rw [hu, i64_of_range (by omega) (by omega), h.elsize]
  unfold viewArr
  congr 1
  have e : f.nmemb.toNat = nm := by rw [h.memb]; rfl
  have e2 : (itemsize m f.dtype).toNat = w := by rw [h.item]; rfl
  rw [e, e2]
  unfold dimsProd
  simp only [List.foldl_cons, List.foldl_nil, Nat.one_mul]
  rw [u64_of_nat (show n < 18446744073709551616 by omega),
    u64_of_nat (show n * nm < 18446744073709551616 by omega)]

theorem GoodField.addr (h : GoodField m rt f w nm) (n : Nat) (buf : Int) (e : Nat) (he : e < n * nm) :
    elemAddr (viewArr m rt f n buf) e =
      buf + f.offset + ((e / nm * rt.itemsize : Nat) : Int) + ((e % nm * w : Nat) : Int) := by
  have e1 : f.nmemb.toNat = nm := by rw [h.memb]; rfl
  have e2 : (itemsize m f.dtype).toNat = w := by rw [h.item]; rfl
  have hq : e / nm < n := (Nat.div_lt_iff_lt_mul h.memb0).mpr he
  unfold elemAddr viewArr
  rw [e1, e2]
  simp only [unravel, dot, prodN, Nat.mul_one, Nat.div_one, Int.add_zero]
  rw [Nat.mod_eq_of_lt hq]
  simp only [Int.natCast_mul]
  omega

theorem mul_step {i j R x : Nat} (h : i < j) (hx : x ≤ R) : i * R + x ≤ j * R := by
  have := Nat.mul_le_mul_right R (show i + 1 ≤ j from h)
  rw [Nat.add_mul, Nat.one_mul] at this
  omega

theorem GoodField.in_row (h : GoodField m rt f w nm) (e : Nat) : e % nm * w + w ≤ w * nm := by
  have := Nat.mul_le_mul_right w (show e % nm + 1 ≤ nm from Nat.mod_lt _ h.memb0)
  rw [Nat.add_mul, Nat.one_mul, Nat.mul_comm nm w] at this
  exact this

theorem GoodField.disjoint (h : GoodField m rt f w nm) (n : Nat) (buf : Int) :
    Disjoint (viewArr m rt f n buf) w := by
  intro i j hi hj hij
  rw [h.view_size] at hi hj
  rw [h.addr n buf i hi, h.addr n buf j hj]
  have hri := h.in_row i
  have hrj := h.in_row j
  have hle := h.wnm_le
  rcases Nat.lt_trichotomy (i / nm) (j / nm) with hq | hq | hq
  · have := mul_step hq (show i % nm * w + w ≤ rt.itemsize by omega)
    generalize i / nm * rt.itemsize = a at *
    generalize j / nm * rt.itemsize = b at *
    generalize i % nm * w = c at *
    generalize j % nm * w = d at *
    omega
  · rw [hq]
    have hm : i % nm ≠ j % nm := by
      intro hm
      apply hij
      rw [← Nat.div_add_mod i nm, ← Nat.div_add_mod j nm, hq, hm]
    rcases Nat.lt_or_gt_of_ne hm with hlt | hlt
    · have := mul_step hlt (Nat.le_refl w)
      omega
    · have := mul_step hlt (Nat.le_refl w)
      omega
  · have := mul_step hq (show j % nm * w + w ≤ rt.itemsize by omega)
    generalize i / nm * rt.itemsize = a at *
    generalize j / nm * rt.itemsize = b at *
    generalize i % nm * w = c at *
    generalize j % nm * w = d at *
    omega

theorem GoodField.inElems (h : GoodField m rt f w nm) (n : Nat) (buf y : Int)
    (hy : InElems (viewArr m rt f n buf) w 0 (n * nm) y) : InColumn m rt buf n f y := by
  obtain ⟨e, he, h1, h2⟩ := hy
  rw [Nat.zero_add, h.addr n buf e he] at h1 h2
  have := h.in_row e
  refine ⟨e / nm, (Nat.div_lt_iff_lt_mul h.memb0).mpr he, ?_, ?_⟩
  · omega
  · rw [h.size]; omega

/-- The elements of a row of the view are the bytes of the field. -/
theorem GoodField.row (h : GoodField m rt f w nm) (n : Nat) (buf : Int) (mem : Mem) (i : Nat) (hi : i < n) :
    rowOfElems (fun e => peek mem (elemAddr (viewArr m rt f n buf) e) w) nm i = fieldOf m rt buf mem i f := by
  unfold rowOfElems fieldOf
  rw [h.size, Nat.mul_comm w nm, peek_flatN]
  apply flatN_congr
  intro j hj
  have hlt : i * nm + j < n * nm := Nat.lt_of_lt_of_le (by omega) (mul_step hi (Nat.le_refl nm))
  have hd : (i * nm + j) / nm = i := by
    rw [Nat.add_comm, Nat.add_mul_div_right _ _ h.memb0, Nat.div_eq_of_lt hj]; omega
  have hm : (i * nm + j) % nm = j := by
    rw [Nat.add_comm, Nat.add_mul_mod_self_right, Nat.mod_eq_of_lt hj]
  simp only
  rw [h.addr n buf _ hlt, hd, hm]
  congr 1
  omega

theorem GoodField.arrOk (h : GoodField m rt f w nm) (n : Nat) (buf : Int) (hn : 0 < n) :
    ArrOk (viewArr m rt f n buf) := by
  have := Nat.mul_pos hn h.memb0
  exact ⟨by simp [viewArr], rfl, by simp [viewArr], by simp [viewArr, prodN], by rw [h.view_size]; exact this⟩

end

section
variable {env : Env} {bf : CStr} {f : RField} {bb : Block} {fs : FS}

theorem Spec.FieldBlock.good (h : FieldBlock env fs bf f bb) {rt : RType} (hc : Complete env.m rt)
    (hf : f ∈ rt.fields) : GoodField env.m rt f (itemsize env.m f.dtype).toNat f.nmemb.toNat :=
  goodField hc hf h.memb0 h.item0

theorem Spec.FieldBlock.ok (h : FieldBlock env fs bf f bb) {rt : RType} {w nm : Nat}
    (hg : GoodField env.m rt f w nm) : BlockOk env bb w nm := by
  have h1 := hg.wnm_le
  have h2 := hg.small
  have h3 := h.buf
  have h4 := h.bytes
  rw [hg.size] at h3 h4
  refine ⟨h.layout, ?_, hg.item0, by rw [h.memb, hg.memb], hg.memb0, by omega, h3, h.bufMax, ?_⟩
  · rw [← itemsize_normalize, h.dtype, itemsize_normalize, hg.item]
  · rw [← h.layout.size]; exact h4

theorem Spec.FieldBlock.xfer (h : FieldBlock env fs bf f bb) {rt : RType} {w nm : Nat}
    (hg : GoodField env.m rt f w nm) (n : Nat) (buf : Int) (hn : 0 < n)
    (hb : n * rt.itemsize < 9223372036854775808) :
    XferOk env bb (viewArr env.m rt f n buf) w w nm := by
  have h2 := hg.bytes_le n
  have h3 : n * nm ≤ n * nm * w := Nat.le_mul_of_pos_right _ hg.item0
  refine (h.ok hg).xfer (hg.arrOk n buf hn) ?_ (normalize_idem _ _) ?_ hg.item0 ?_
  · rw [hg.view_size]; omega
  · show itemsize _ (dtypeNormalize _ _) = _
    rw [itemsize_normalize, hg.item]
  · rw [hg.view_size]; omega

theorem Spec.Savable.reshape (h : Savable env bb) {b : Block} (hs : SameShape bb b) (ha : b.attrset = bb.attrset)
    (hl : Layout b) : Savable env b := by
  have g := h.header
  refine ⟨h.fmt, ⟨by rw [hs.dtype]; exact g.dt, by rw [hs.nmemb]; exact g.nmemb0, by rw [hs.nmemb]; exact g.nmembMax,
    hl.nfile, hl.nck, by rw [hs.nfile]; exact g.nfileMax, by rw [hs.fsize]; exact g.sizes, hl.ck32⟩, ?_, ?_,
    by rw [ha]; exact h.attrs, by rw [ha]; exact h.storable, by rw [hs.base]; exact h.base,
    by rw [hs.base]; exact h.notMeta⟩
  · rw [hs.foffset, hs.fsize]; exact h.offsets
  · rw [hs.size, hs.foffset]; exact h.size

theorem resolve_ne_fileKey (base : CStr) (id : FileId) : resolve base ≠ fileKey base id := by
  rw [fileKey_eq]
  intro h
  simpa using congrArg List.length h

/-- Closing a handle whose attributes are clean. -/
theorem wpc_closeField {w : World} {mem : Mem} (hnf : w.faults = noFaults) (hdir : DirOk w.fs bb.basename)
    (ha : bb.attrset.dirty = false) :
    wpc (closeField env bb 0 mem) w
      (fun r w' => r = (0, mem) ∧ w'.faults = noFaults ∧ w'.fs = flushFS bb [] w.fs) (fun _ => False) := by
  unfold closeField blockClose
  rw [wpc_bind, wpc_bind]
  apply wpc_mono (wpc_blockFlush env bb [] bb.attrset w (fun h => by rw [ha] at h; exact absurd h (by simp)))
  · rintro ⟨rc, bb'⟩ w1 ⟨f1, _, _, k3, k4⟩
    have hrc : rc = 0 := k4 hnf hdir
    subst hrc
    have hfs : w1.fs = flushFS bb [] w.fs := (k3 rfl).2 (by rw [hnf]; intro i n; simp [noFaults])
    simp only [ne_eq, not_true_eq_false, if_false]
    rw [wpc_pure, wpc_pure]
    exact ⟨by simp, f1.trans hnf, hfs⟩
  · rintro w1 ⟨h, _⟩
    exact h hnf

end

/-- What one field's write leaves behind. -/
structure FieldWritten (env : Env) (bf : CStr) (rt : RType) (f : RField) (bb : Block) (p n : Nat) (buf : Int)
    (mem : Mem) (fs : FS) (r : Int × Mem) (w' : World) : Prop where
  rc : r.1 = 0
  faults : w'.faults = noFaults
  block : ∃ b, FieldBlock env w'.fs bf f b ∧ SameShape bb b ∧
    attrView env.m b.attrset = attrView env.m bb.attrset
  rows : ∀ i, i < n → row env.m w'.fs bb (p + i) = fieldOf env.m rt buf mem i f
  others : ∀ r, r < p ∨ p + n ≤ r → Stored env.m fs bb r → row env.m w'.fs bb r = row env.m fs bb r
  frame : ∀ k, k ≠ fileKey bb.basename .header →
    (∀ i, i < n → k ≠ fileKey bb.basename (.data (rowFile bb (p + i)))) → w'.fs.node k = fs.node k
  files : ∀ k, k ≠ fileKey bb.basename .header → IsFile fs k → IsFile w'.fs k
  mem : ∀ y, ¬ InColumn env.m rt buf n f y → r.2 y = mem y

theorem wpc_openField {env : Env} {bf : CStr} {f : RField} {bb : Block} {w : World}
    (h : FieldBlock env w.fs bf f bb) {name : CStr} (hn : f.name = some name) (hnf : w.faults = noFaults) :
    wpc (openBlock env bf name) w (fun r w' => w'.fs = w.fs ∧ w'.faults = noFaults ∧ ∃ b,
      r = (0, some b) ∧ SameShape bb b ∧ b.fchecksum = bb.fchecksum ∧ WellAttrs env.m b.attrset ∧
      attrView env.m b.attrset = attrView env.m bb.attrset ∧ b.dirty = false ∧ b.attrset.dirty = false)
      (fun _ => False) := by
  obtain ⟨name', hn', hb⟩ := h.name
  rw [hn] at hn'
  injection hn' with hn'
  subst hn'
  unfold openBlock
  rw [← hb]
  exact wpc_blockOpen_says hnf h.savable.base h.savable.notMeta h.savable.offsets h.savable.size h.header h.attrs

/-- The handle obtained by opening describes the same block. -/
theorem Spec.FieldBlock.opened {env : Env} {bf : CStr} {f : RField} {bb b : Block} {fs : FS}
    (h : FieldBlock env fs bf f bb) (hs : SameShape bb b) (hck : b.fchecksum = bb.fchecksum)
    (hw : WellAttrs env.m b.attrset) (hv : attrView env.m b.attrset = attrView env.m bb.attrset)
    (hd : b.dirty = false) (had : b.attrset.dirty = false) : FieldBlock env fs bf f b := by
  have hl : Layout b := hs.layout h.layout (by rw [hck, hs.nfile]; exact h.layout.nck) (by rw [hck]; exact h.layout.ck32)
  have g := h.savable.header
  refine ⟨by rw [hs.base]; exact h.name, by rw [hs.dtype]; exact h.dtype, by rw [hs.nmemb]; exact h.memb, h.memb0,
    h.item0, hl, h.buf, h.bufMax, by rw [hs.size]; exact h.bytes, ?_, ⟨hd, had⟩, by rw [hs.base]; exact h.dir,
    (hs.dataFiles fs).mpr h.data, ?_, by rw [hs.base, hv]; exact h.attrs⟩
  · have hsv := h.savable
    refine ⟨hsv.fmt, ⟨by rw [hs.dtype]; exact g.dt, by rw [hs.nmemb]; exact g.nmemb0,
      by rw [hs.nmemb]; exact g.nmembMax, hl.nfile, hl.nck, by rw [hs.nfile]; exact g.nfileMax,
      by rw [hs.fsize]; exact g.sizes, hl.ck32⟩, ?_, ?_, hw, by rw [hv]; exact hsv.storable,
      by rw [hs.base]; exact hsv.base, by rw [hs.base]; exact hsv.notMeta⟩
    · rw [hs.foffset, hs.fsize]; exact hsv.offsets
    · rw [hs.size, hs.foffset]; exact hsv.size
  · unfold HeaderSays
    rw [hs.base, hs.dtype, hs.nmemb, hs.nfile, hs.fsize, hck]
    exact h.header

theorem bytes_node {fs fs' : FS} {k : Key} (h : fs'.node k = fs.node k) : fs'.bytes k = fs.bytes k := by
  unfold FS.bytes; rw [h]

theorem flushFS_clean {bb : Block} (txt : CStr) (fs : FS) (hd : bb.dirty = false) (ha : bb.attrset.dirty = false) :
    flushFS bb txt fs = fs := by
  unfold flushFS
  simp [hd, ha]

theorem row_flushFS (m : Machine) (bb b : Block) (hb : b.basename = bb.basename) (txt : CStr) (fs : FS) (r : Nat) :
    row m (flushFS b txt fs) bb r = row m fs bb r := by
  unfold row
  rw [bytes_node (flushFS_other b txt fs _ (by rw [hb]; exact fileKey_ne (by simp))
    (by rw [hb]; exact fileKey_ne (by simp)))]

/-- **One field written.** -/
theorem wpc_writeField {env : Env} {bf : CStr} {rt : RType} {f : RField} {bb : Block} {p n : Nat} {buf : Int}
    {mem : Mem} {w : World} (hc : Complete env.m rt) (hf : f ∈ rt.fields) (h : FieldBlock env w.fs bf f bb)
    (hnf : w.faults = noFaults) (hn : n * rt.itemsize < 9223372036854775808) (hp : p + n ≤ bb.size) :
    wpc (writeField env bf rt p n buf f mem) w (FieldWritten env bf rt f bb p n buf mem w.fs) (fun _ => False) := by
  have hg := h.good hc hf
  generalize hwd : (itemsize env.m f.dtype).toNat = wd at hg
  generalize hnm : f.nmemb.toNat = nm at hg
  obtain ⟨name, hname, hbase⟩ := h.name
  have hsm := h.layout.small
  have hsz := h.layout.size
  unfold writeField
  rw [wpc_bind, hg.view n buf hn, wpc_lift_some, hname]
  simp only
  rw [wpc_bind]
  refine wpc_mono (wpc_openField h hname hnf) ?_ (fun _ h => h)
  rintro r w1 ⟨e1, f1, b, rfl, hs, hck, hwa, hv, hd, had⟩
  simp only
  have hb : FieldBlock env w1.fs bf f b := by rw [e1]; exact h.opened hs hck hwa hv hd had
  obtain ⟨ptr, hseek, hpt, _⟩ := (C01_seek b hb.layout ⟨0, 0, 0⟩ (p : Int) ⟨by omega, by omega⟩).1
    ⟨by omega, by rw [hs.size]; omega⟩
  rw [if_neg (by omega), Int.toNat_natCast] at hpt
  rw [wpc_bind, hseek, wpc_lift_some]
  simp only [ne_eq, not_true_eq_false, if_false]
  rw [wpc_bind]
  by_cases hn0 : n = 0
  · subst hn0
    have hw0 : blockWrite env b ptr (viewArr env.m rt f 0 buf) mem w1 = .ok ⟨0, b, ptr, mem⟩ w1 := by
      unfold blockWrite blockWriteFuel
      rw [if_pos (by rw [hg.view_size, Nat.zero_mul])]
      rfl
    unfold wpc
    rw [hw0]
    refine wpc_mono (wpc_closeField f1 hb.dir had) ?_ (fun _ h => h)
    rintro r w2 ⟨rfl, f2, e2⟩
    rw [flushFS_clean [] _ hd had, e1] at e2
    exact ⟨rfl, f2, ⟨bb, by rw [e2]; exact h, SameShape.rfl' bb, rfl⟩, fun i hi => absurd hi (by omega),
      fun r _ _ => by rw [e2], fun k _ _ => by rw [e2], fun k _ hk => by rw [e2]; exact hk, fun y _ => rfl⟩
  · have hx := hb.xfer hg n buf (by omega) hn
    have hrows : (viewArr env.m rt f n buf).size / nm = n := by
      rw [hg.view_size, Nat.mul_div_cancel _ hg.memb0]
    have hlw : LegalWrite env b ptr (viewArr env.m rt f n buf) mem p wd wd nm
        (fun e => peek mem (elemAddr (viewArr env.m rt f n buf) e) wd) :=
      ⟨hx, fun _ => hg.disjoint n buf, hpt, by rw [hrows, hs.size]; exact hp, fun e he => by
        rw [hb.dtype]; exact convElem_same _ _ _ _⟩
    have hspec := hlw.spec w1
    rw [hrows] at hspec
    refine wpc_mono hspec ?_ (fun w' hw' => hw'.2 f1)
    intro x w2 hx2
    have hrc : x.rc = 0 := hx2.succeeds f1 hb.data
    obtain ⟨hput, hfiles, _⟩ := hx2.done hrc
    have hshape := hs.trans' hx2.shape
    have f2 : w2.faults = noFaults := hx2.faults.trans f1
    have hlen : ∀ i, i < n → (rowOfElems (fun e => peek mem (elemAddr (viewArr env.m rt f n buf) e) wd) nm i).length =
        rowSize env.m b := by
      intro i hi
      exact hlw.row_length i (by rw [hrows]; exact hi)
    have hframe : ∀ k, (∀ i, i < n → k ≠ fileKey b.basename (.data (rowFile b (p + i)))) →
        w2.fs.node k = w.fs.node k := by
      intro k hk
      rw [hput, node_putRows_other _ _ _ _ _ _ _ hk, e1]
    have hdir2 : DirOk w2.fs x.bb.basename := by
      rw [hx2.shape.base]
      refine ⟨?_, ?_, ?_⟩
      · rw [hframe _ (fun i _ => resolve_ne_fileKey _ _)]; rw [← e1]; exact hb.dir.dir
      · rw [hframe _ (fun i _ => fileKey_ne (by simp))]; rw [← e1]; exact hb.dir.header
      · rw [hframe _ (fun i _ => fileKey_ne (by simp))]; rw [← e1]; exact hb.dir.attr
    have had2 : x.bb.attrset.dirty = false := by rw [hx2.attrs]; exact had
    rw [hrc]
    refine wpc_mono (wpc_closeField f2 hdir2 had2) ?_ (fun _ h => h)
    rintro r w3 ⟨rfl, f3, e3⟩
    have hother : ∀ k, k ≠ fileKey bb.basename .header → w3.fs.node k = w2.fs.node k := by
      intro k hk
      rw [e3]
      by_cases hka : k = fileKey x.bb.basename .attrV2
      · rw [hka, flushFS_attr, had2]; rfl
      · exact flushFS_other _ _ _ _ (by rw [hshape.base]; exact hk) hka
    have hfiles3 : ∀ k, k ≠ fileKey bb.basename .header → IsFile w.fs k → IsFile w3.fs k := by
      intro k hk hkf
      unfold IsFile at hkf ⊢
      rw [hother k hk, hput]
      rw [← e1] at hkf
      exact (isFile_putRows env.m b w1.fs p _ n k).mpr hkf
    have hframe3 : ∀ k, k ≠ fileKey bb.basename .header →
        (∀ i, i < n → k ≠ fileKey bb.basename (.data (rowFile bb (p + i)))) → w3.fs.node k = w.fs.node k := by
      intro k hk1 hk2
      rw [hother k hk1, hframe k (fun i hi => by rw [hs.base, hs.rowFile]; exact hk2 i hi)]
    have hheader : w3.fs.node (fileKey bb.basename .header) = some (.file (headerText x.bb)) := by
      rw [e3, ← hshape.base, flushFS_header, hx2.dirty]; rfl
    have hsv : Savable env x.bb := hb.savable.reshape hx2.shape hx2.attrs hx2.layout
    have hview : attrView env.m x.bb.attrset = attrView env.m bb.attrset := by rw [hx2.attrs, hv]
    refine ⟨rfl, f3, ⟨{ x.bb with dirty := false }, ?_, ?_, hview⟩, ?_, ?_, hframe3, hfiles3, ?_⟩
    · refine ⟨?_, ?_, ?_, h.memb0, h.item0, ?_, h.buf, h.bufMax, ?_, ?_, ⟨rfl, had2⟩, ?_, ?_, ?_, ?_⟩
      · show ∃ name, f.name = some name ∧ x.bb.basename = _
        rw [hshape.base]; exact h.name
      · show dtypeNormalize env.m x.bb.dtype = _
        rw [hshape.dtype]; exact h.dtype
      · show x.bb.nmemb = _
        rw [hshape.nmemb]; exact h.memb
      · exact ⟨hx2.layout.1, hx2.layout.2, hx2.layout.3, hx2.layout.4, hx2.layout.5, hx2.layout.6⟩
      · show x.bb.size * _ < _
        rw [hshape.size]; exact h.bytes
      · exact ⟨hsv.1, ⟨hsv.2.1, hsv.2.2, hsv.2.3, hsv.2.4, hsv.2.5, hsv.2.6, hsv.2.7, hsv.2.8⟩, hsv.3, hsv.4, hsv.5,
          hsv.6, hsv.7, hsv.8⟩
      · show DirOk w3.fs x.bb.basename
        rw [hshape.base]
        refine ⟨?_, ?_, ?_⟩
        · rw [hframe3 _ (resolve_ne_fileKey _ _) (fun i _ => resolve_ne_fileKey _ _)]; exact h.dir.dir
        · rw [hheader]; simp
        · rw [hframe3 _ (fileKey_ne (by simp)) (fun i _ => fileKey_ne (by simp))]; exact h.dir.attr
      · show DataFiles w3.fs x.bb
        rw [hshape.dataFiles]
        intro g hgf
        exact hfiles3 _ (fileKey_ne (by simp)) (h.data g hgf)
      · show HeaderSays w3.fs x.bb
        unfold HeaderSays FS.bytes
        rw [hshape.base, hheader]
        exact ⟨rfl, parseHeader_headerText x.bb hsv.header⟩
      · show AttrsSay env w3.fs x.bb.basename (attrView env.m x.bb.attrset)
        rw [hshape.base, hview]
        obtain ⟨s1, s2, k1, k2, k3, k4⟩ := h.attrs
        have n1 := hframe3 (fileKey bb.basename .attr) (fileKey_ne (by simp)) (fun i _ => fileKey_ne (by simp))
        have n2 := hframe3 (fileKey bb.basename .attrV2) (fileKey_ne (by simp)) (fun i _ => fileKey_ne (by simp))
        exact ⟨s1, s2, by rw [readsV1_congr n1]; exact k1, by rw [readsV2_congr n2]; exact k2, k3, k4⟩
    · exact ⟨hshape.1, hshape.2, hshape.3, hshape.4, hshape.5, hshape.6, hshape.7⟩
    · intro i hi
      rw [e3, row_flushFS _ _ _ hshape.base, hput, ← hs.row]
      rw [row_putRows_in env.m b w1.fs p _ n hlen hfiles i hi]
      exact hg.row n buf mem i hi
    · intro r hr hst
      rw [e3, row_flushFS _ _ _ hshape.base, hput, ← hs.row,
        row_putRows_out env.m b w1.fs p _ n (fun i hi => Nat.le_of_eq (hlen i hi)) r hr
          (by rw [hs.stored, e1]; exact hst), hs.row, e1]
    · intro y hy
      exact hx2.memframe y (fun hc => hy (hg.inElems n buf y hc))

/-- What one field's read leaves behind. -/
structure FieldRead (env : Env) (rt : RType) (f : RField) (bb : Block) (p n : Nat) (buf : Int)
    (mem : Mem) (w : World) (r : Int × Mem) (w' : World) : Prop where
  rc : r.1 = 0
  faults : w'.faults = noFaults
  fs : w'.fs = w.fs
  column : ∀ i, i < n → fieldOf env.m rt buf r.2 i f = row env.m w.fs bb (p + i)
  mem : ∀ y, ¬ InColumn env.m rt buf n f y → r.2 y = mem y

/-- **One field read.** -/
theorem wpc_readField {env : Env} {bf : CStr} {rt : RType} {f : RField} {bb : Block} {p n : Nat} {buf : Int}
    {mem : Mem} {w : World} (hc : Complete env.m rt) (hf : f ∈ rt.fields) (h : FieldBlock env w.fs bf f bb)
    (hnf : w.faults = noFaults) (hn : n * rt.itemsize < 9223372036854775808) (hp : p + n ≤ bb.size)
    (hst : ∀ i, i < n → Stored env.m w.fs bb (p + i)) :
    wpc (readField env bf rt p n buf f mem) w (FieldRead env rt f bb p n buf mem w) (fun _ => False) := by
  have hg := h.good hc hf
  generalize hwd : (itemsize env.m f.dtype).toNat = wd at hg
  generalize hnm : f.nmemb.toNat = nm at hg
  obtain ⟨name, hname, hbase⟩ := h.name
  have hsm := h.layout.small
  have hsz := h.layout.size
  unfold readField
  rw [wpc_bind, hg.view n buf hn, wpc_lift_some, hname]
  simp only
  rw [wpc_bind]
  refine wpc_mono (wpc_openField h hname hnf) ?_ (fun _ h => h)
  rintro r w1 ⟨e1, f1, b, rfl, hs, hck, hwa, hv, hd, had⟩
  simp only
  have hb : FieldBlock env w1.fs bf f b := by rw [e1]; exact h.opened hs hck hwa hv hd had
  obtain ⟨ptr, hseek, hpt, _⟩ := (C01_seek b hb.layout ⟨0, 0, 0⟩ (p : Int) ⟨by omega, by omega⟩).1
    ⟨by omega, by rw [hs.size]; omega⟩
  rw [if_neg (by omega), Int.toNat_natCast] at hpt
  rw [wpc_bind, hseek, wpc_lift_some]
  simp only [ne_eq, not_true_eq_false, if_false]
  rw [wpc_bind]
  have hok := hb.ok hg
  by_cases hn0 : n = 0
  · subst hn0
    have hw0 := blockRead_empty hok (viewArr env.m rt f 0 buf) (by rw [hg.view_size, Nat.zero_mul]) ptr p hpt
      (by rw [hs.size]; exact hp) mem w1
    unfold wpc
    rw [hw0]
    refine wpc_mono (wpc_closeField f1 hb.dir had) ?_ (fun _ h => h)
    rintro r w2 ⟨rfl, f2, e2⟩
    rw [flushFS_clean [] _ hd had, e1] at e2
    exact ⟨rfl, f2, e2, fun i hi => absurd hi (by omega), fun y _ => rfl⟩
  · have hx := hb.xfer hg n buf (by omega) hn
    have hrows : (viewArr env.m rt f n buf).size / nm = n := by
      rw [hg.view_size, Nat.mul_div_cancel _ hg.memb0]
    have hlr : LegalRead env w1.fs b ptr (viewArr env.m rt f n buf) p wd wd nm
        (elemOfRows env.m w1.fs b p wd nm) :=
      ⟨hx, hpt, by rw [hrows, hs.size]; exact hp, by
        rw [hb.dtype]; exact convertible_same _ _ _, fun e he _ => by
        rw [hb.dtype]; exact convElem_same _ _ _ _⟩
    have hspec := hlr.spec (mem := mem)
    rw [hrows] at hspec
    refine wpc_mono hspec ?_ (fun w' hw' => hw'.2 f1)
    intro x w2 hx2
    have hst1 : ∀ i, i < n → Stored env.m w1.fs b (p + i) := by
      intro i hi
      rw [hs.stored, e1]
      exact hst i hi
    have hrc : x.rc = 0 := hx2.succeeds f1 hst1
    obtain ⟨_, _, hels⟩ := hx2.done hrc
    have hels := hels (hg.disjoint n buf)
    have f2 : w2.faults = noFaults := hx2.faults.trans f1
    rw [hrc, hx2.same]
    refine wpc_mono (wpc_closeField f2 (by rw [hx2.fs]; exact hb.dir) had) ?_ (fun _ h => h)
    rintro r w3 ⟨rfl, f3, e3⟩
    rw [flushFS_clean [] _ hd had] at e3
    refine ⟨rfl, f3, e3.trans (hx2.fs.trans e1), ?_, ?_⟩
    · intro i hi
      rw [← hg.row n buf x.mem i hi, ← e1, ← hs.row]
      unfold rowOfElems
      have hlen : (row env.m w1.fs b (p + i)).length = nm * wd := by
        have h1 := hst1 i hi
        unfold Stored at h1
        rw [h1, hx.rowSize, Nat.mul_comm]
      refine Eq.trans ?_ (flatN_slices _ wd nm hlen)
      apply flatN_congr
      intro j hj
      have hlt : i * nm + j < n * nm := Nat.lt_of_lt_of_le (by omega) (mul_step hi (Nat.le_refl nm))
      have hd2 : (i * nm + j) / nm = i := by
        rw [Nat.add_comm, Nat.add_mul_div_right _ _ hg.memb0, Nat.div_eq_of_lt hj]; omega
      have hm : (i * nm + j) % nm = j := by
        rw [Nat.add_comm, Nat.add_mul_mod_self_right, Nat.mod_eq_of_lt hj]
      have := hels (i * nm + j) hlt
      rw [Nat.zero_mul, Nat.zero_add] at this
      simp only
      rw [this]
      unfold elemOfRows
      rw [hd2, hm]
    · intro y hy
      apply hx2.memframe y
      intro hc
      rw [Nat.zero_mul] at hc
      exact hy (hg.inElems n buf y hc)

end Verif
