import Verif.Model.Copy
import Verif.Spec.Copy
import Verif.Props.Object
import Verif.Props.ReadSimple
import Verif.Props.Tree
/-!
# Copying a block
-/

set_option autoImplicit false

namespace Verif

open Spec

variable {env : Env} {K : Kind} {bb : Block} {A : Content} {w : World}

/-! ## The sizes of the new files -/

theorem div_mono_step (n size i : Nat) : i * size / n ≤ (i + 1) * size / n :=
  Nat.div_le_div_right (Nat.mul_le_mul_right _ (Nat.le_succ _))

theorem copySizes_eq (n size : Nat) (h : n * size < 18446744073709551616) :
    copySizes n size = (List.range n).map fun i => (i + 1) * size / n - i * size / n := by
  unfold copySizes
  apply List.map_congr_left
  intro i hi
  have hi := List.mem_range.mp hi
  have h1 : (i + 1) * size ≤ n * size := Nat.mul_le_mul_right _ hi
  have h2 : i * size ≤ (i + 1) * size := Nat.mul_le_mul_right _ (Nat.le_succ _)
  rw [u64_of_nat (by omega), u64_of_nat (by omega)]
  have h3 := div_mono_step n size i
  have h4 : (i + 1) * size / n ≤ (i + 1) * size := Nat.div_le_self _ _
  generalize (i + 1) * size / n = a at *
  generalize i * size / n = b at *
  rw [show ((a : Int) - (b : Int)) = ((a - b : Nat) : Int) by omega, u64_of_nat (by omega)]

theorem copySizes_length (n size : Nat) : (copySizes n size).length = n := by
  unfold copySizes; simp

theorem range_telescope (f : Nat → Nat) (hf : ∀ i, f i ≤ f (i + 1)) (n : Nat) :
    ((List.range n).map fun i => f (i + 1) - f i).sum = f n - f 0 := by
  induction n with
  | zero => simp
  | succ n ih =>
    rw [List.range_succ, List.map_append, List.sum_append, ih]
    have := hf n
    have h0 : f 0 ≤ f n := by
      clear ih this
      induction n with
      | zero => exact Nat.le_refl _
      | succ n ih => exact Nat.le_trans ih (hf n)
    simp
    omega

theorem copySizes_sum (n size : Nat) (h : n * size < 18446744073709551616) (hn : 0 < n ∨ size = 0) :
    (copySizes n size).sum = size := by
  rw [copySizes_eq n size h, range_telescope (fun i => i * size / n) (div_mono_step n size)]
  simp only [Nat.zero_mul, Nat.zero_div, Nat.sub_zero]
  rcases hn with hn | rfl
  · exact Nat.mul_div_cancel_left _ hn
  · simp

/-! ## Blocks that are not touched -/

/-- What happens outside the block directory does not matter. -/
theorem Spec.Holds.congr {fs fs' : FS} (h : Holds env K bb fs A) (hd : fs'.node (resolve bb.basename) = fs.node (resolve bb.basename))
    (hf : ∀ id, fs'.node (fileKey bb.basename id) = fs.node (fileKey bb.basename id)) : Holds env K bb fs' A := by
  refine ⟨h.ok, h.kind, h.size, h.nfile, h.savable, h.attrs, h.pending, h.tame, ?_, ?_, ?_, ?_, ?_, ?_, ?_⟩
  · intro hp
    obtain ⟨s1, s2, k1, k2, k3, k4⟩ := h.saved hp
    exact ⟨s1, s2, by rw [readsV1_congr (hf _)]; exact k1, by rw [readsV2_congr (hf _)]; exact k2, k3, k4⟩
  · intro hh
    have := h.header hh
    unfold HeaderSays at this ⊢
    rw [bytes_congr (hf .header), hf]
    exact this
  · exact ⟨hd.trans h.dir.dir, by rw [hf]; exact h.dir.header, by rw [hf]; exact h.dir.attr⟩
  · rw [hf]; exact h.noOld
  · intro f; rw [hf]; exact h.noDirs f
  · intro f hl
    unfold IsFile
    rw [hf]
    exact h.data f hl
  · intro r bytes hr
    obtain ⟨g1, g2, g3⟩ := h.rows r bytes hr
    have hrow : row env.m fs' bb r = row env.m fs bb r := by
      unfold row
      rw [bytes_congr (hf _)]
    exact ⟨g1, hrow.trans g2, by unfold Stored; rw [hrow]; exact g3⟩

theorem Spec.OnDisk.congr {fs fs' : FS} {base : CStr} (h : OnDisk env K fs base A)
    (hd : fs'.node (resolve base) = fs.node (resolve base))
    (hf : ∀ id, fs'.node (fileKey base id) = fs.node (fileKey base id)) : OnDisk env K fs' base A := by
  obtain ⟨h1, h2, b, rfl, h3, h4⟩ := h
  exact ⟨h1, h2, b, rfl, h3, h4.congr hd hf⟩

theorem Spec.Apart.outside {src dst : CStr} (h : Apart src dst) {fs fs' : FS} (ho : SameOutside dst fs fs') :
    fs'.node (resolve src) = fs.node (resolve src) ∧ ∀ id, fs'.node (fileKey src id) = fs.node (fileKey src id) :=
  ⟨ho _ h.notFile, fun _ => ho _ fun _ he => h.ne (C38_files_distinct _ _ _ _ he).1⟩

theorem Spec.Holds.outside {fs fs' : FS} {dst : CStr} (h : Holds env K bb fs A) (ha : Apart bb.basename dst)
    (ho : SameOutside dst fs fs') : Holds env K bb fs' A := h.congr (ha.outside ho).1 (ha.outside ho).2

/-! ## Opening and closing -/

theorem Spec.OnDisk.opens {base : CStr} (h : OnDisk env K w.fs base A) (hnf : w.faults = noFaults) :
    ∃ b w', blockOpen env base w = .ok (0, some b) w' ∧ w'.fs = w.fs ∧ w'.faults = noFaults ∧ b.basename = base ∧
      b.dirty = false ∧ Holds env K b w.fs A := by
  obtain ⟨h1, h2, bb, rfl, h3, h⟩ := h
  obtain ⟨r, w2, e2, g1, g2, b, hr, hs, hck, hwa, hv, hd1, hd2⟩ :=
    wpc_returns (wpc_blockOpen_says (env := env) (C := fun _ => False) hnf h.savable.base h.savable.notMeta
      h.savable.offsets h.savable.size (h.header h3) (h.saved h1)) (fun _ hc => hc)
  subst hr
  have hl' : Layout b := hs.layout h.ok.layout (by rw [hck, hs.nfile]; exact h.ok.layout.nck) (by rw [hck]; exact h.ok.layout.ck32)
  refine ⟨b, w2, e2, g1, g2, hs.base, hd1, ?_⟩
  have hhead : HeaderSays w.fs b := by
    have := h.header h3
    unfold HeaderSays at this ⊢
    rw [hs.base, hs.dtype, hs.nmemb, hs.nfile, hs.fsize, hck]
    exact this
  exact h.rewritten hs hl' rfl rfl rfl (fun _ _ _ => rfl) hwa (hv.trans h2) (hd2.trans h1.symm) h.tame.1 (h.tame.2 h1)
    (h.saved h1) hhead ⟨h.dir.header, h.dir.attr⟩

/-- What is stored when a block is closed: attributes that were removed are stored only together with new ones. -/
def Spec.Content.closed (A : Content) : Content :=
  if A.pending then { A with saved := A.attrs, pending := false } else { A with attrs := A.saved }

/-- Closing stores everything, also the checksums. -/
theorem Spec.Holds.closes_open (h : Holds env K bb w.fs A) (hnf : w.faults = noFaults) :
    ∃ w', blockClose env bb w = .ok 0 w' ∧ w'.faults = noFaults ∧ SameOutside bb.basename w.fs w'.fs ∧
      OnDisk env K w'.fs bb.basename A.closed ∧
      ∃ b w2, blockOpen env bb.basename w' = .ok (0, some b) w2 ∧ b.fchecksum = bb.fchecksum := by
  obtain ⟨txt, s1, k1, _, k3, k4⟩ := h.flush_says
  obtain ⟨⟨rc, bb'⟩, w1, e1, f1, _, _, l1, l2⟩ := wpc_returns (wpc_blockFlush env bb txt s1 w k1) (fun _ hc => hc.1 hnf)
  have hrc : rc = 0 := l2 hnf h.dir
  subst hrc
  obtain ⟨_, hfs⟩ := l1 rfl
  have hfs := hfs (by rw [hnf]; intro i n; simp [noFaults])
  rw [← hfs] at k3 k4
  obtain ⟨r, w2, e2, g1, g2, b, hr, hs, hck, hwa, hv, hd1, hd2⟩ :=
    wpc_returns (wpc_blockOpen_says (env := env) (C := fun _ => False) (f1.trans hnf) h.savable.base h.savable.notMeta
      h.savable.offsets h.savable.size k3 k4) (fun _ hc => hc)
  subst hr
  have hl' : Layout b := hs.layout h.ok.layout (by rw [hck, hs.nfile]; exact h.ok.layout.nck) (by rw [hck]; exact h.ok.layout.ck32)
  have hnode : ∀ k, k ≠ fileKey bb.basename .header → k ≠ fileKey bb.basename .attrV2 → w1.fs.node k = w.fs.node k := by
    intro k h1 h2
    rw [hfs]
    exact flushFS_other bb txt w.fs k h1 h2
  have hhead : HeaderSays w1.fs b := by
    unfold HeaderSays at k3 ⊢
    rw [hs.base, hs.dtype, hs.nmemb, hs.nfile, hs.fsize, hck]
    exact k3
  have hnd := flush_notDir (bb := bb) txt w.fs h.dir
  rw [← hfs] at hnd
  refine ⟨w1, ?_, f1.trans hnf, fun k hk => hnode k (hk _) (hk _), ?_, b, w2, e2, hck⟩
  · unfold blockClose
    simp only [bind, M.bind, pure, M.pure]
    rw [e1]
    rfl
  · unfold OnDisk Content.closed
    cases hp : A.pending with
    | true =>
      rw [hp, if_pos rfl] at k4 hv
      exact ⟨rfl, rfl, b, hs.base, hd1,
        h.rewritten hs hl' rfl rfl rfl hnode hwa hv hd2 h.tame.1 h.tame.1 k4 hhead hnd⟩
    | false =>
      rw [hp] at k4 hv
      simp only [Bool.false_eq_true, if_false] at k4 hv ⊢
      exact ⟨trivial, trivial, b, hs.base, hd1,
        h.rewritten hs hl' rfl rfl rfl hnode hwa hv (by rw [hd2]) (h.tame.2 hp) (h.tame.2 hp) k4 hhead hnd⟩

theorem Spec.Holds.closes (h : Holds env K bb w.fs A) (hnf : w.faults = noFaults) :
    ∃ w', blockClose env bb w = .ok 0 w' ∧ w'.faults = noFaults ∧ SameOutside bb.basename w.fs w'.fs ∧
      OnDisk env K w'.fs bb.basename A.closed := by
  obtain ⟨w', h1, h2, h3, h4, _⟩ := h.closes_open hnf
  exact ⟨w', h1, h2, h3, h4⟩

/-- Closing a handle that has nothing to store does nothing. -/
theorem blockClose_clean (h : bb.dirty = false) (ha : bb.attrset.dirty = false) : blockClose env bb w = .ok 0 w := by
  unfold blockClose blockFlush flushHeader
  simp [h, ha, bind, M.bind, pure, M.pure]

/-! ## Attributes -/

theorem toNative_one (m : Machine) (dt : CStr) (b : Byte) : toNative m dt [b] = [b] := by
  unfold toNative
  split <;> rfl

theorem copyAttrs_spec (src : AttrSet) (all : List Entry) (hsrc : AttrInv env.m src all) (htame : Tame env.m (findE all)) :
    ∀ (rest : List Entry) (s : AttrSet) (es : List Entry), (∀ e ∈ rest, e ∈ all) → AttrInv env.m s es →
    ∃ s' es', copyAttrs env src (rest.map (Entry.attr src.base)) s = some (s', src) ∧ AttrInv env.m s' es' ∧
      (s'.dirty = (s.dirty || !rest.isEmpty)) ∧
      ∀ name, findE es' name = ((rest.reverse.find? (fun e => e.name == name)).map (·.val)).or (findE es name) := by
  intro rest
  induction rest with
  | nil =>
    intro s es _ h
    refine ⟨s, es, ?_, h, by simp, by simp⟩
    rw [List.map_nil, copyAttrs]
  | cons e rest ih =>
    intro s es hin h
    have he := hin e (by simp)
    have hok := hsrc.ok e he
    obtain ⟨hst, hnat⟩ := htame e.name e.val (findE_mem hsrc.sorted he)
    have hitem := hok.item
    have hwid : widthOf env.m e.val.dtype = (itemsize env.m e.val.dtype).toNat := rfl
    have hlen : widthOf env.m e.val.dtype * e.val.nmemb = e.val.bytes.length := by
      have h1 := hok.nbytes
      have h2 : itemsize env.m e.val.dtype = (widthOf env.m e.val.dtype : Int) := by rw [hwid]; omega
      rw [h2, ← Int.natCast_mul] at h1
      omega
    have hfit : itemsize env.m e.val.dtype * e.val.nmemb < 2147483648 := by
      rw [← hok.nbytes]
      have := hok.fits
      omega
    obtain ⟨s1, es1, sm1, k1, k2, k3, k4, k5, k6, k7⟩ := setAttr_spec h e.name e.val.dtype e.val.nmemb src.buf
      (src.base + e.off + e.name.length + 1) hok.nonul hitem hfit hst.nameLen (Spec.Clean.hasBlank hst.clean)
    have hbytes := hok.data
    have hsm : sm1 = src.buf := by
      rcases hnat with hn | hn
      · exact k5 (by rw [hok.norm]; exact hn)
      · funext x
        by_cases hx : x < src.base + e.off + e.name.length + 1 ∨
            src.base + e.off + e.name.length + 1 + ((widthOf env.m e.val.dtype * e.val.nmemb : Nat) : Int) ≤ x
        · exact k6 x hx
        · rw [hn] at k7 hx
          have := k7 (x - (src.base + e.off + e.name.length + 1)).toNat (by omega)
          rw [show src.base + e.off + e.name.length + 1 + (((x - (src.base + e.off + e.name.length + 1)).toNat * 1 : Nat) : Int) = x
            by omega] at this
          rw [show peek src.buf x 1 = [src.buf x] from rfl, toNative_one] at this
          exact (List.cons.inj this).1
    obtain ⟨s2, es2, j1, j2, j3, j4⟩ := ih s1 es1 (fun x hx => hin x (by simp [hx])) k2
    refine ⟨s2, es2, ?_, j2, ?_, ?_⟩
    · rw [List.map_cons, copyAttrs, hok.nameOf]
      show (match setAttr env s e.name (src.base + e.off + e.name.length + 1) e.val.dtype e.val.nmemb src.buf with
        | none => none
        | some (_, s, sm) => copyAttrs env { src with buf := sm } (rest.map (Entry.attr src.base)) s) = _
      rw [k1, hsm]
      exact j1
    · rw [j3, k4]; simp
    · intro name
      rw [j4, k3, hlen, hbytes, hok.norm]
      rw [List.reverse_cons, List.find?_append]
      unfold AttrMap.put
      cases h1 : List.find? (fun e => e.name == name) rest.reverse with
      | some v => simp
      | none =>
        simp only [Option.map_none, Option.none_or, List.find?_cons, List.find?_nil]
        by_cases h2 : name = e.name
        · subst h2; simp
        · rw [if_neg h2]
          have : (e.name == name) = false := by simpa using Ne.symm h2
          rw [this]
          simp
/-- Copying all attributes into a set that has none. -/
theorem copyAttrs_all {src s : AttrSet} {M : AttrMap} (hsrc : WellAttrs env.m src) (hM : attrView env.m src = M) (ht : Tame env.m M)
    (hs : WellAttrs env.m s) (h0 : attrView env.m s = AttrMap.empty) :
    ∃ s', copyAttrs env src src.list s = some (s', src) ∧ WellAttrs env.m s' ∧ attrView env.m s' = M ∧
      s'.dirty = (s.dirty || !src.list.isEmpty) := by
  obtain ⟨all, ha⟩ := hsrc
  obtain ⟨es, he⟩ := hs
  rw [ha.view_eq] at hM
  rw [he.view_eq] at h0
  obtain ⟨s', es', k1, k2, k3, k4⟩ := copyAttrs_spec src all ha (by rw [hM]; exact ht) all s es (fun _ h => h) he
  rw [← ha.list] at k1
  refine ⟨s', k1, ⟨es', k2⟩, ?_, ?_⟩
  · rw [k2.view_eq, ← hM]
    funext name
    rw [k4, h0]
    simp only [AttrMap.empty, Option.or_none]
    cases h1 : findE all name with
    | none =>
      unfold findE at h1
      rw [Option.map_eq_none_iff, List.find?_eq_none] at h1
      rw [List.find?_eq_none.mpr (fun e he => h1 e (List.mem_reverse.mp he))]
      rfl
    | some v =>
      obtain ⟨e, h2, h3, h4⟩ := findE_some h1
      cases h5 : all.reverse.find? (fun e => e.name == name) with
      | none =>
        rw [List.find?_eq_none] at h5
        exact absurd (h5 e (List.mem_reverse.mpr h2)) (by simp [h3])
      | some e' =>
        have h6 := List.mem_reverse.mp (List.mem_of_find?_eq_some h5)
        have h7 := List.find?_some h5
        have h8 := sortedE_unique ha.sorted h6 h2 (by simpa [h3] using h7)
        rw [h8, Option.map_some, h4]
  · rw [k3, ha.list]
    simp

/-! ## Rows -/

/-- The rows of a chunk read from the source, as the new block sees them. -/
theorem chunk_row {fs : FS} (h : Holds env K bb fs A) (off n : Nat) (buf : Int) (mem : Mem)
    (hm : ∀ e, e < n * K.nm → peek mem (buf + ((e * K.w : Nat) : Int)) K.w = elemOfRows env.m fs bb off K.w K.nm e)
    (i : Nat) (hi : i < n) (bytes : List Byte) (hr : A.rows (off + i) = some bytes) :
    arrayRow env K (freshArr env.m bb.dtype n K.nm K.w buf) mem K.w i = bytes := by
  obtain ⟨_, h2, h3⟩ := h.rows _ _ hr
  have hrs : rowSize env.m bb = K.nm * K.w := by
    unfold rowSize
    rw [h.ok.item, h.ok.memb]
    simp [Nat.mul_comm]
  have hnm := h.ok.memb0
  unfold arrayRow rowOfElems
  rw [← h2, ← flatN_slices (row env.m fs bb (off + i)) K.w K.nm (by rw [← hrs]; exact h3)]
  apply flatN_congr
  intro j hj
  have he : i * K.nm + j < n * K.nm := by
    have := Nat.mul_le_mul_right K.nm (show i + 1 ≤ n from hi)
    rw [Nat.add_mul] at this
    omega
  unfold toBlock
  dsimp only
  rw [freshArr_addr _ _ _ _ _ _ _ he, hm _ he]
  show (convElem env.m env.fo K.dtype (dtypeNormalize env.m bb.dtype) _).getD [] = _
  rw [h.kind, convElem_same]
  unfold elemOfRows
  rw [Nat.mul_comm i, Nat.mul_add_div hnm, Nat.mul_add_mod, Nat.div_eq_of_lt hj, Nat.mod_eq_of_lt hj]
  rfl

/-- One round of the copy: rows `off, ..., off+n-1` of the source are read and written to the same rows of the new block. -/
theorem copy_chunk {bn : Block} {B : Content} (hs : Holds env K bb w.fs A) (hd : Holds env K bn w.fs B) (hnf : w.faults = noFaults)
    (hsz : B.size = A.size) (hfull : A.full) (off n chunk : Nat) (hn : n = min chunk (A.size - off)) (hn0 : 0 < n)
    (hch : A.size + chunk < 9223372036854775808) (buf : Int) (mem : Mem) :
    ∃ mem1 w1 ptr x w2,
      readSimple env bb off (i64 chunk) none buf mem w = .ok (0, some (freshArr env.m bb.dtype n K.nm K.w buf), mem1) w1 ∧
      seek bn ⟨0, 0, 0⟩ off = some (0, ptr) ∧
      blockWrite env bn ptr (freshArr env.m bb.dtype n K.nm K.w buf) mem1 w1 = .ok x w2 ∧ x.rc = 0 ∧
      w2.faults = noFaults ∧ SameShape bn x.bb ∧ x.bb.attrset = bn.attrset ∧ SameOutside bn.basename w.fs w2.fs ∧
      Holds env K x.bb w2.fs { B with
        rows := fun r => if off ≤ r ∧ r < off + n then A.rows r else B.rows r } ∧
      w2.fs = putRows env.m bn w.fs off (fun i => (A.rows (off + i)).getD []) n ∧
      (∀ f, x.bb.fchecksum.getD f 0 =
        (bn.fchecksum.getD f 0 + rowsSum bn off (fun i => (A.rows (off + i)).getD []) f n) % 4294967296) ∧ x.bb.dirty = true := by
  have hbs := hs.size
  have hoff : off + n ≤ A.size := by omega
  have hbytes : n * K.nm * K.w < 9223372036854775808 := by
    have h1 := hs.ok.offs
    have h2 := hs.ok.layout.size
    have h3 : n * (K.w * K.nm) ≤ bb.fsize.sum * (K.w * K.nm) := Nat.mul_le_mul_right _ (by omega)
    rw [Nat.mul_assoc, Nat.mul_comm K.nm]
    omega
  have hsize : min chunk (bb.size - off) = n := by rw [hbs]; exact hn.symm
  rw [i64_of_range (by omega) (by omega)]
  obtain ⟨⟨rc, arr, mem1⟩, w1, e1, r1⟩ := wpc_returns (C58_read_simple_partial env bb K.w K.nm K.w none off chunk buf mem w
    (elemOfRows env.m w.fs bb off K.w K.nm) hs.ok hs.ok.item hs.ok.item0 (by omega) (by omega) (by rw [hsize]; exact hbytes)
    (fun _ => convertible_same _ _ _) (fun e _ _ => convElem_same _ _ _ _)) (fun _ hc => hc.2 hnf)
  rw [hsize] at r1
  have hstored : ∀ i, i < n → Stored env.m w.fs bb (off + i) := by
    intro i hi
    obtain ⟨bytes, hb⟩ := Option.isSome_iff_exists.mp (hfull (off + i) (by omega))
    exact (hs.rows _ _ hb).2.2
  have hrc : rc = 0 := r1.succeeds hnf hstored
  subst hrc
  obtain ⟨ha, _, hm⟩ := r1.done rfl
  simp only at ha
  subst ha
  have hnf1 : w1.faults = noFaults := r1.faults.trans hnf
  have hd1 : Holds env K bn w1.fs B := by rw [r1.fs]; exact hd
  have hrows : (freshArr env.m bb.dtype n K.nm K.w buf).size / K.nm = n := freshArr_rows _ _ _ _ _ _ hs.ok.memb0
  have hx := hs.ok.fresh bb.dtype n K.w buf hn0 hs.ok.item hs.ok.item0 hbytes
  have hao : ArrayOk env (freshArr env.m bb.dtype n K.nm K.w buf) K.w := ⟨hx.arr, hx.asize, hx.anorm, hx.aitem, hx.aitem0, hx.abytes⟩
  have hconv : ∀ e, (toBlock env K (freshArr env.m bb.dtype n K.nm K.w buf) mem1 K.w e).isSome = true := by
    intro e
    unfold toBlock
    show (convElem env.m env.fo K.dtype (dtypeNormalize env.m bb.dtype) _).isSome = true
    rw [hs.kind, convElem_same]
    rfl
  have hlegal : B.legal env K (.write off (freshArr env.m bb.dtype n K.nm K.w buf) mem1 K.w) :=
    ⟨by omega, hao, fun _ => freshArr_disjoint _ _ _ _ _ _, fun _ e _ => hconv e⟩
  obtain ⟨ans, bn', w2, e2, st⟩ := write_step hd1 hnf1 off _ mem1 K.w hlegal
  have hin : off + (freshArr env.m bb.dtype n K.nm K.w buf).size / K.nm ≤ B.size := by rw [hrows]; omega
  obtain ⟨q, hq, hpt⟩ := (seek_row hd.ok.layout off (by omega)).1 (by rw [hd.size]; omega)
  have hw : LegalWrite env bn q (freshArr env.m bb.dtype n K.nm K.w buf) mem1 off K.w K.w K.nm
      (fun e => (toBlock env K (freshArr env.m bb.dtype n K.nm K.w buf) mem1 K.w e).getD []) := by
    refine ⟨hao.xferOk hd.ok, fun _ => freshArr_disjoint _ _ _ _ _ _, hpt, by rw [hd.size]; exact hin, fun e he => ?_⟩
    obtain ⟨b, hb⟩ := Option.isSome_iff_exists.mp (hconv e)
    show _ = some ((toBlock env K (freshArr env.m bb.dtype n K.nm K.w buf) mem1 K.w e).getD [])
    rw [hb, hd.kind]
    exact hb
  obtain ⟨x, w3, e3, d⟩ := wpc_returns (hw.spec w1) (fun _ hc => hc.2 hnf1)
  have hrun : runBOp env bn (.write off (freshArr env.m bb.dtype n K.nm K.w buf) mem1 K.w) w1 = .ok (⟨x.rc, x.mem, none⟩, x.bb) w3 := by
    unfold runBOp
    show M.bind (M.lift _) _ w1 = _
    rw [hq]
    show M.bind (blockWrite env bn q _ mem1) _ w1 = _
    unfold M.bind
    rw [e3]
    rfl
  rw [hrun] at e2
  injection e2 with e2 e2'
  injection e2 with e2 e2''
  subst e2' e2''
  have hrc := d.succeeds hnf1 hd1.data
  have hrowi : ∀ i, i < n → rowOfElems (fun e => (toBlock env K (freshArr env.m bb.dtype n K.nm K.w buf) mem1 K.w e).getD []) K.nm i =
      (A.rows (off + i)).getD [] := by
    intro i hi
    obtain ⟨bytes, hb⟩ := Option.isSome_iff_exists.mp (hfull (off + i) (by omega))
    rw [hb]
    exact chunk_row hs off n buf mem1 hm i hi bytes hb
  refine ⟨mem1, w1, q, x, w3, e1, hq, e3, hrc, st.faults, d.shape, d.attrs, ?_, ?_, ?_, ?_, d.dirty⟩
  · rw [← r1.fs]
    exact wlp_ok (blockWrite_touches env _ bn q _ mem1 w1) e3
  rotate_left
  · rw [(d.done hrc).1, r1.fs, hrows]
    exact putRows_congr hrowi
  · intro f
    rw [d.cksum hrc f, hrows, rowsSum_congr hrowi]
  · have hnx : B.next env K (.write off (freshArr env.m bb.dtype n K.nm K.w buf) mem1 K.w) = { B with
        rows := fun r => if off ≤ r ∧ r < off + n then A.rows r else B.rows r } := by
      simp only [Content.next]
      rw [if_pos hin, hrows]
      congr 1
      funext r
      by_cases hr : off ≤ r ∧ r < off + n
      · rw [if_pos hr, if_pos hr]
        obtain ⟨bytes, hb⟩ := Option.isSome_iff_exists.mp (hfull r (by omega))
        rw [hb, chunk_row hs off n buf mem1 hm (r - off) (by omega) bytes (by rw [show off + (r - off) = r by omega]; exact hb)]
      · rw [if_neg hr, if_neg hr]
    rw [← hnx]
    exact st.holds

/-- The loop. -/
theorem copyLoop_spec (chunk : Nat) (hch0 : 0 < chunk) (hch : A.size + chunk < 9223372036854775808) (hfull : A.full) (buf : Int)
    (dst : CStr) (hap : Apart bb.basename dst) (B0 : Content) (hB : B0.size = A.size) :
    ∀ (fuel : Nat) (bn : Block) (off : Nat) (mem : Mem) (w : World), A.size - off < fuel → off ≤ A.size →
    Holds env K bb w.fs A → w.faults = noFaults → bn.basename = dst →
    Holds env K bn w.fs { B0 with
      rows := fun r => if r < off then A.rows r else none } →
    ∃ bn' w', copyLoop env bb chunk buf fuel bn off mem w = .ok (.done, bn') w' ∧ w'.faults = noFaults ∧ bn'.basename = dst ∧
      bn'.attrset = bn.attrset ∧ SameOutside dst w.fs w'.fs ∧ Holds env K bn' w'.fs { B0 with
        rows := A.rows } := by
  intro fuel
  induction fuel with
  | zero => intro bn off mem w h; omega
  | succ fuel ih =>
    intro bn off mem w hf hle hs hnf hbn hd
    rw [copyLoop]
    by_cases hlt : off < A.size
    · rw [if_pos (by rw [hs.size]; exact hlt)]
      obtain ⟨mem1, w1, ptr, x, w2, e1, hq, e2, hrc, hnf2, hsh, hat, ho, hd2, _, _, _⟩ := copy_chunk hs hd hnf hB hfull off
        (min chunk (A.size - off)) chunk rfl (by omega) hch buf mem
      rw [hbn] at ho
      obtain ⟨bn', w', k1, k2, k3, k4, k5, k6⟩ := ih x.bb (off + min chunk (A.size - off)) x.mem w2 (by omega) (by omega)
        (hs.outside hap ho) hnf2 (hsh.base.trans hbn) (by
          refine Eq.mp ?_ hd2
          congr 2
          funext r
          dsimp only
          by_cases h1 : r < off
          · rw [if_neg (by omega), if_pos h1, if_pos (by omega)]
          · by_cases h2 : r < off + min chunk (A.size - off)
            · rw [if_pos (by omega), if_pos h2]
            · rw [if_neg (by omega), if_neg h1, if_neg h2])
      refine ⟨bn', w', ?_, k2, k3, k4.trans hat, ho.trans k5, k6⟩
      simp only [bind, M.bind, pure]
      rw [e1]
      simp only [hq, M.lift, M.bind, M.pure, ne_eq, not_true_eq_false, if_false]
      rw [e2]
      simp only [hrc, not_true_eq_false, if_false]
      exact k1
    · rw [if_neg (by rw [hs.size]; exact hlt)]
      refine ⟨bn, w, rfl, hnf, hbn, rfl, SameOutside.refl _ _, ?_⟩
      refine Eq.mp ?_ hd
      congr 2
      funext r
      by_cases h1 : r < off
      · rw [if_pos h1]
      · rw [if_neg h1]
        cases h2 : A.rows r with
        | none => rfl
        | some bytes =>
          have := (hs.rows r bytes h2).1
          omega

/-! ## Making the new block -/

/-- `big_file_create_block` succeeds where there is room for the block. -/
theorem createBlock_succeeds {bf name dt : CStr} {nmemb : Int} {fsize : List Nat} (hnf : w.faults = noFaults) (hbf : bf ≠ [])
    (hdirbf : w.fs.node (resolve bf) = some .dir)
    (hlen : (pathJoin bf name).length ≤ 8192) (hmeta : isMeta (pathJoin bf name) = false) (hblank : hasBlank (pathJoin bf name) = false)
    (hroom : Room w.fs (pathJoin bf name)) :
    ∃ w', createBlock env bf name (some dt) nmemb fsize w = .ok (0, some (freshBlock env (pathJoin bf name) dt nmemb fsize)) w' := by
  have hbk : baseKey bf name = resolve bf := by unfold baseKey; rw [if_neg hbf]
  have hres := resolve_join bf name hbf
  have hclear : ClearWay w.fs bf name := by
    refine ⟨by rw [hbk]; exact hdirbf, ?_⟩
    intro t d hp hn
    rw [hbk] at hn
    refine hroom.way (resolve bf ++ t) ?_ ⟨d, hn⟩
    obtain ⟨u, hu⟩ := hp
    exact ⟨u, by rw [List.append_assoc, hu, hres]⟩
  have key : wpc (createBlock env bf name (some dt) nmemb fsize) w
      (fun r _ => r = (0, some (freshBlock env (pathJoin bf name) dt nmemb fsize))) (fun _ => False) := by
    unfold createBlock
    rw [wpc_bind]
    refine wpc_mono (mksubdirR_spec bf name w (pathJoin_length hlen) (Or.inr hbf)) ?_ (fun _ h => h.1 hnf)
    rintro rc w1 ⟨h1, _, _, h4⟩
    obtain ⟨rfl, h5⟩ := h4 hnf hclear
    rw [hbk, ← hres] at h5
    have hid : ∀ id, w1.fs.node (fileKey (pathJoin bf name) id) ≠ some .dir := by
      intro id hd
      by_cases he : w1.fs.node (fileKey (pathJoin bf name) id) = w.fs.node (fileKey (pathJoin bf name) id)
      · exact hroom.files id (he ▸ hd)
      · obtain ⟨t, ht, hk⟩ := h1.where_ _ he
        rw [hbk, fileKey_eq, hres] at hk
        have h2 := congrArg List.length hk
        have h3 := ht.length_le
        simp at h2
        omega
    simp only [ne_eq, not_true_eq_false, if_false]
    refine wpc_mono (wpc_blockCreate hlen hmeta) ?_ (fun _ h => h.1 (h1.faults.trans hnf))
    rintro r w2 ⟨_, _, h6, h7⟩
    have h8 := h7 (h1.faults.trans hnf) ⟨h5, hid _, hid _⟩ hblank (fun f _ => hid _)
    rcases h6 with h6 | h6
    · rw [h6] at h8; exact absurd h8 (by decide)
    · exact h6.1
  obtain ⟨r, w', e, h⟩ := wpc_returns key (fun _ h => h)
  subst h
  exact ⟨w', e⟩

end Verif
