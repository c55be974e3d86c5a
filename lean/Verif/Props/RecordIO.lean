import Verif.Proof.RecordIO
import Verif.Props.Record
import Verif.Props.Tree
/-!
# C41: records in a file
-/

set_option autoImplicit false

namespace Verif

open Spec

/-- Every field of the record type has its own block on disk, with at least `p + n` rows. `blk c` describes
the block of field `c`. -/
structure RecordBlocks (env : Env) (fs : FS) (bf : CStr) (rt : RType) (blk : Nat → Block) : Prop where
  block : ∀ c (hc : c < rt.fields.length), FieldBlock env fs bf (rt.fields[c]) (blk c)
  distinct : ∀ c d, c < rt.fields.length → d < rt.fields.length → c ≠ d →
    resolve (blk c).basename ≠ resolve (blk d).basename

/-- Only the files of other blocks have changed. -/
theorem Spec.FieldBlock.frame {env : Env} {fs fs' : FS} {bf : CStr} {f : RField} {bb : Block}
    (h : FieldBlock env fs bf f bb) (hdir : fs'.node (resolve bb.basename) = fs.node (resolve bb.basename))
    (hk : ∀ id, fs'.node (fileKey bb.basename id) = fs.node (fileKey bb.basename id)) :
    FieldBlock env fs' bf f bb := by
  refine ⟨h.name, h.dtype, h.memb, h.memb0, h.item0, h.layout, h.buf, h.bufMax, h.bytes, h.savable, h.clean,
    ⟨by rw [hdir]; exact h.dir.dir, by rw [hk]; exact h.dir.header, by rw [hk]; exact h.dir.attr⟩, ?_, ?_, ?_⟩
  · intro g hg
    unfold IsFile
    rw [hk]
    exact h.data g hg
  · unfold HeaderSays
    rw [hk, bytes_node (hk _)]
    exact h.header
  · obtain ⟨s1, s2, k1, k2, k3, k4⟩ := h.attrs
    exact ⟨s1, s2, by rw [readsV1_congr (hk _)]; exact k1, by rw [readsV2_congr (hk _)]; exact k2, k3, k4⟩

theorem rowFile_lt {bb : Block} (h : Layout bb) {r : Nat} (hr : r < bb.size) : rowFile bb r < bb.nfile := by
  have := (locate_lt bb.fsize r (by rw [← h.size]; exact hr)).1
  rw [h.nfile] at this
  exact this

/-- Writing one field leaves the block of another field as it is. -/
theorem FieldWritten.other {env : Env} {bf : CStr} {rt : RType} {f g : RField} {bb b2 : Block} {p n : Nat}
    {buf : Int} {mem : Mem} {fs : FS} {r : Int × Mem} {w' : World}
    (h : FieldWritten env bf rt f bb p n buf mem fs r w') (hb : FieldBlock env fs bf f bb) (hp : p + n ≤ bb.size)
    (hg : FieldBlock env fs bf g b2) (hne : resolve bb.basename ≠ resolve b2.basename) :
    FieldBlock env w'.fs bf g b2 ∧ ∀ id, w'.fs.node (fileKey b2.basename id) = fs.node (fileKey b2.basename id) := by
  have hk : ∀ id, w'.fs.node (fileKey b2.basename id) = fs.node (fileKey b2.basename id) := by
    intro id
    apply h.frame
    · intro he; exact hne (C38_files_distinct _ _ _ _ he).1.symm
    · intro i _ he; exact hne (C38_files_distinct _ _ _ _ he).1.symm
  refine ⟨hg.frame ?_ hk, hk⟩
  apply h.frame
  · intro he
    exact hb.dir.header (by rw [← he]; exact hg.dir.dir)
  · intro i hi he
    obtain ⟨d, hd⟩ := hb.data _ (rowFile_lt hb.layout (show p + i < bb.size by omega))
    rw [← he, hg.dir.dir] at hd
    exact absurd hd (by simp)

theorem row_congr {m : Machine} {fs fs' : FS} {bb : Block}
    (h : ∀ id, fs'.node (fileKey bb.basename id) = fs.node (fileKey bb.basename id)) (r : Nat) :
    row m fs' bb r = row m fs bb r := by
  unfold row
  rw [bytes_node (h _)]

/-- Cells of different columns are disjoint. -/
theorem fieldOf_other {m : Machine} {rt : RType} (h : Complete m rt) {c d : Nat} (hc : c < rt.fields.length)
    (hd : d < rt.fields.length) (hne : d ≠ c) (buf : Int) (n : Nat) {mem mem' : Mem}
    (hm : ∀ y, ¬ InColumn m rt buf n (rt.fields[c]) y → mem' y = mem y) (i : Nat) :
    fieldOf m rt buf mem' i (rt.fields[d]) = fieldOf m rt buf mem i (rt.fields[d]) := by
  unfold fieldOf
  apply peek_ext
  intro x hx
  apply hm
  rintro ⟨j, hj, h1, h2⟩
  have := cells_disjoint h hd hc (i : Int) (j : Int) (by simp [hne])
  rw [h.offset c hc] at h1 h2
  rw [h.offset d hd] at h1 h2
  simp only [Int.natCast_mul] at h1 h2
  omega

/-- The state of the loop over fields: the first `c` fields are written. -/
structure WriteState (env : Env) (bf : CStr) (rt : RType) (blk : Nat → Block) (p n : Nat) (buf : Int)
    (mem0 : Mem) (fs0 : FS) (c : Nat) (mem : Mem) (w : World) : Prop where
  faults : w.faults = noFaults
  block : ∀ d (hd : d < rt.fields.length), ∃ b, FieldBlock env w.fs bf (rt.fields[d]) b ∧ SameShape (blk d) b ∧
    attrView env.m b.attrset = attrView env.m (blk d).attrset
  done : ∀ d (hd : d < rt.fields.length), d < c → ∀ i, i < n →
    row env.m w.fs (blk d) (p + i) = fieldOf env.m rt buf mem0 i (rt.fields[d])
  todo : ∀ d (hd : d < rt.fields.length), c ≤ d → ∀ i,
    fieldOf env.m rt buf mem i (rt.fields[d]) = fieldOf env.m rt buf mem0 i (rt.fields[d])
  others : ∀ d, d < rt.fields.length → ∀ r, r < p ∨ p + n ≤ r → Stored env.m fs0 (blk d) r →
    row env.m w.fs (blk d) r = row env.m fs0 (blk d) r
  frame : ∀ k, (∀ d, d < rt.fields.length → ∀ id, k ≠ fileKey (blk d).basename id) → w.fs.node k = fs0.node k
  mem : ∀ y, (∀ f ∈ rt.fields, ¬ InColumn env.m rt buf n f y) → mem y = mem0 y

theorem wpc_writeFields {env : Env} {bf : CStr} {rt : RType} {blk : Nat → Block} {p n : Nat} {buf : Int}
    {mem0 : Mem} {fs0 : FS} (hc : Complete env.m rt)
    (hdist : ∀ c d, c < rt.fields.length → d < rt.fields.length → c ≠ d →
      resolve (blk c).basename ≠ resolve (blk d).basename)
    (hn : n * rt.itemsize < 9223372036854775808) (hp : ∀ c, c < rt.fields.length → p + n ≤ (blk c).size) :
    ∀ (k c : Nat) (mem : Mem) (w : World), c + k = rt.fields.length →
      WriteState env bf rt blk p n buf mem0 fs0 c mem w →
      wpc (eachField (writeField env bf rt p n buf) (rt.fields.drop c) mem) w
        (fun r w' => r.1 = 0 ∧ WriteState env bf rt blk p n buf mem0 fs0 rt.fields.length r.2 w')
        (fun _ => False) := by
  intro k
  induction k with
  | zero =>
    intro c mem w hck hs
    have e : c = rt.fields.length := by omega
    subst e
    rw [List.drop_length, eachField, wpc_pure]
    exact ⟨rfl, hs⟩
  | succ k ih =>
    intro c mem w hck hs
    have hcl : c < rt.fields.length := by omega
    rw [List.drop_eq_getElem_cons hcl, eachField, wpc_bind]
    obtain ⟨b, hb, hsh, hv⟩ := hs.block c hcl
    have hpb : p + n ≤ b.size := by rw [hsh.size]; exact hp c hcl
    refine wpc_mono (wpc_writeField hc (List.getElem_mem hcl) hb hs.faults hn hpb) ?_ (fun _ h => h)
    rintro ⟨rc, mem'⟩ w' hw
    have hrc : rc = 0 := hw.rc
    subst hrc
    simp only [ne_eq, not_true_eq_false, if_false]
    apply ih (c + 1) mem' w' (by omega)
    have hoth : ∀ d, ∀ hd : d < rt.fields.length, d ≠ c →
        (∃ b, FieldBlock env w'.fs bf (rt.fields[d]) b ∧ SameShape (blk d) b ∧
          attrView env.m b.attrset = attrView env.m (blk d).attrset) ∧
        ∀ id, w'.fs.node (fileKey (blk d).basename id) = w.fs.node (fileKey (blk d).basename id) := by
      intro d hd hdc
      obtain ⟨b2, hb2, hsh2, hv2⟩ := hs.block d hd
      have := hw.other hb hpb hb2 (by rw [hsh.base, hsh2.base]; exact hdist c d hcl hd (Ne.symm hdc))
      refine ⟨⟨b2, this.1, hsh2, hv2⟩, ?_⟩
      have h2 := this.2
      rw [hsh2.base] at h2
      exact h2
    refine ⟨hw.faults, ?_, ?_, ?_, ?_, ?_, ?_⟩
    · intro d hd
      by_cases hdc : d = c
      · subst hdc
        obtain ⟨b', h1, h2, h3⟩ := hw.block
        exact ⟨b', h1, hsh.trans' h2, h3.trans hv⟩
      · exact (hoth d hd hdc).1
    · intro d hd hlt i hi
      by_cases hdc : d = c
      · subst hdc
        rw [← hsh.row, hw.rows i hi]
        exact hs.todo d hd (Nat.le_refl _) i
      · rw [row_congr (hoth d hd hdc).2]
        exact hs.done d hd (by omega) i hi
    · intro d hd hlt i
      rw [fieldOf_other hc hcl hd (by omega) buf n hw.mem i]
      exact hs.todo d hd (by omega) i
    · intro d hd r hr hst
      by_cases hdc : d = c
      · subst hdc
        have h1 := hs.others d hd r hr hst
        rw [← hsh.row, hw.others r hr (by
          rw [hsh.stored]
          unfold Stored at hst ⊢
          rw [h1]; exact hst), hsh.row]
        exact h1
      · rw [row_congr (hoth d hd hdc).2]
        exact hs.others d hd r hr hst
    · intro k hk
      have hkc := hk c hcl
      rw [← hsh.base] at hkc
      rw [hw.frame k (hkc _) (fun i _ => hkc _)]
      exact hs.frame k hk
    · intro y hy
      exact (hw.mem y (hy _ (List.getElem_mem hcl))).trans (hs.mem y hy)

/-- **C41** (writing). Every field has a block of its own on disk, with the field's dtype and number of
members, and rows `p, ..., p+n-1` exist. Then, without faults, `big_file_write_records` returns 0, and the
row `p + i` of each field's block is that field of record `i`. Rows outside, and everything that does not
belong to these blocks, stay as they were; so does the caller's memory outside the fields. -/
theorem C41_write (env : Env) (bf : CStr) (rt : RType) (blk : Nat → Block) (p n : Nat) (buf : Int) (mem : Mem)
    (w : World) (hnf : w.faults = noFaults) (hc : Complete env.m rt) (hb : RecordBlocks env w.fs bf rt blk)
    (hn : n * rt.itemsize < 9223372036854775808) (hp : ∀ c, c < rt.fields.length → p + n ≤ (blk c).size) :
    ∃ mem' w', writeRecords env bf rt p n buf mem w = .ok (0, mem') w' ∧ w'.faults = noFaults ∧
      (∀ c (hcl : c < rt.fields.length), ∀ i, i < n →
        row env.m w'.fs (blk c) (p + i) = fieldOf env.m rt buf mem i (rt.fields[c])) ∧
      (∃ blk', RecordBlocks env w'.fs bf rt blk' ∧ ∀ c, c < rt.fields.length → SameShape (blk c) (blk' c) ∧
        attrView env.m (blk' c).attrset = attrView env.m (blk c).attrset) ∧
      (∀ c, c < rt.fields.length → ∀ r, r < p ∨ p + n ≤ r → Stored env.m w.fs (blk c) r →
        row env.m w'.fs (blk c) r = row env.m w.fs (blk c) r) ∧
      (∀ k, (∀ c, c < rt.fields.length → ∀ id, k ≠ fileKey (blk c).basename id) →
        w'.fs.node k = w.fs.node k) ∧
      (∀ y, (∀ f ∈ rt.fields, ¬ InColumn env.m rt buf n f y) → mem' y = mem y) := by
  have hs : WriteState env bf rt blk p n buf mem w.fs 0 mem w :=
    ⟨hnf, fun d hd => ⟨blk d, hb.block d hd, SameShape.rfl' _, rfl⟩, fun d _ h => absurd h (by omega),
      fun _ _ _ _ => rfl, fun _ _ _ _ _ => rfl, fun _ _ => rfl, fun _ _ => rfl⟩
  obtain ⟨⟨rc, mem'⟩, w', h1, h2, h3⟩ := wpc_returns
    (wpc_writeFields hc hb.distinct hn hp rt.fields.length 0 mem w (by omega) hs) (fun _ h => h)
  have hrc : rc = 0 := h2
  subst hrc
  refine ⟨mem', w', h1, h3.faults, fun c hcl i hi => h3.done c hcl hcl i hi, ?_, h3.others, h3.frame, h3.mem⟩
  have hex : ∀ c, ∃ b, ∀ hcl : c < rt.fields.length, FieldBlock env w'.fs bf (rt.fields[c]) b ∧
      SameShape (blk c) b ∧ attrView env.m b.attrset = attrView env.m (blk c).attrset := by
    intro c
    by_cases hcl : c < rt.fields.length
    · obtain ⟨b, hb⟩ := h3.block c hcl
      exact ⟨b, fun _ => hb⟩
    · exact ⟨blk c, fun h => absurd h hcl⟩
  obtain ⟨blk', hblk⟩ := Classical.axiomOfChoice hex
  refine ⟨blk', ⟨fun c hcl => (hblk c hcl).1, fun c d hcl hdl hne => ?_⟩, fun c hcl => (hblk c hcl).2⟩
  rw [(hblk c hcl).2.1.base, (hblk d hdl).2.1.base]
  exact hb.distinct c d hcl hdl hne

/-- The state of the loop over fields: the first `c` fields are read. -/
structure ReadState (env : Env) (rt : RType) (blk : Nat → Block) (p n : Nat) (buf : Int)
    (mem0 : Mem) (fs0 : FS) (c : Nat) (mem : Mem) (w : World) : Prop where
  faults : w.faults = noFaults
  fs : w.fs = fs0
  done : ∀ d (hd : d < rt.fields.length), d < c → ∀ i, i < n →
    fieldOf env.m rt buf mem i (rt.fields[d]) = row env.m fs0 (blk d) (p + i)
  mem : ∀ y, (∀ f ∈ rt.fields, ¬ InColumn env.m rt buf n f y) → mem y = mem0 y

theorem wpc_readFields {env : Env} {bf : CStr} {rt : RType} {blk : Nat → Block} {p n : Nat} {buf : Int}
    {mem0 : Mem} {fs0 : FS} (hc : Complete env.m rt) (hb : RecordBlocks env fs0 bf rt blk)
    (hn : n * rt.itemsize < 9223372036854775808) (hp : ∀ c, c < rt.fields.length → p + n ≤ (blk c).size)
    (hst : ∀ c, c < rt.fields.length → ∀ i, i < n → Stored env.m fs0 (blk c) (p + i)) :
    ∀ (k c : Nat) (mem : Mem) (w : World), c + k = rt.fields.length →
      ReadState env rt blk p n buf mem0 fs0 c mem w →
      wpc (eachField (readField env bf rt p n buf) (rt.fields.drop c) mem) w
        (fun r w' => r.1 = 0 ∧ ReadState env rt blk p n buf mem0 fs0 rt.fields.length r.2 w')
        (fun _ => False) := by
  intro k
  induction k with
  | zero =>
    intro c mem w hck hs
    have e : c = rt.fields.length := by omega
    subst e
    rw [List.drop_length, eachField, wpc_pure]
    exact ⟨rfl, hs⟩
  | succ k ih =>
    intro c mem w hck hs
    have hcl : c < rt.fields.length := by omega
    rw [List.drop_eq_getElem_cons hcl, eachField, wpc_bind]
    refine wpc_mono (wpc_readField hc (List.getElem_mem hcl) (by rw [hs.fs]; exact hb.block c hcl) hs.faults hn
      (hp c hcl) (by rw [hs.fs]; exact hst c hcl)) ?_ (fun _ h => h)
    rintro ⟨rc, mem'⟩ w' hw
    have hrc : rc = 0 := hw.rc
    subst hrc
    simp only [ne_eq, not_true_eq_false, if_false]
    apply ih (c + 1) mem' w' (by omega)
    refine ⟨hw.faults, hw.fs.trans hs.fs, ?_, ?_⟩
    · intro d hd hlt i hi
      by_cases hdc : d = c
      · subst hdc
        rw [hw.column i hi, hs.fs]
      · rw [fieldOf_other hc hcl hd hdc buf n hw.mem i]
        exact hs.done d hd (by omega) i hi
    · intro y hy
      exact (hw.mem y (hy _ (List.getElem_mem hcl))).trans (hs.mem y hy)

/-- **C41** (reading). Without faults `big_file_read_records` returns 0, puts row `p + i` of each field's
block into that field of record `i`, and changes no other memory and nothing on disk. -/
theorem C41_read (env : Env) (bf : CStr) (rt : RType) (blk : Nat → Block) (p n : Nat) (buf : Int) (mem : Mem)
    (w : World) (hnf : w.faults = noFaults) (hc : Complete env.m rt) (hb : RecordBlocks env w.fs bf rt blk)
    (hn : n * rt.itemsize < 9223372036854775808) (hp : ∀ c, c < rt.fields.length → p + n ≤ (blk c).size)
    (hst : ∀ c, c < rt.fields.length → ∀ i, i < n → Stored env.m w.fs (blk c) (p + i)) :
    ∃ mem' w', readRecords env bf rt p n buf mem w = .ok (0, mem') w' ∧ w'.faults = noFaults ∧ w'.fs = w.fs ∧
      (∀ c (hcl : c < rt.fields.length), ∀ i, i < n →
        fieldOf env.m rt buf mem' i (rt.fields[c]) = row env.m w.fs (blk c) (p + i)) ∧
      (∀ y, (∀ f ∈ rt.fields, ¬ InColumn env.m rt buf n f y) → mem' y = mem y) := by
  have hs : ReadState env rt blk p n buf mem w.fs 0 mem w :=
    ⟨hnf, rfl, fun d _ h => absurd h (by omega), fun _ _ => rfl⟩
  obtain ⟨⟨rc, mem'⟩, w', h1, h2, h3⟩ := wpc_returns
    (wpc_readFields hc hb hn hp hst rt.fields.length 0 mem w (by omega) hs) (fun _ h => h)
  have hrc : rc = 0 := h2
  subst hrc
  exact ⟨mem', w', h1, h3.faults, h3.fs, fun c hcl i hi => h3.done c hcl hcl i hi, h3.mem⟩

/-- **C41** (round trip). Records written and then read back, into the same or any other place, are the
same bytes: all `n` records, all of each record. -/
theorem C41_round_trip (env : Env) (bf : CStr) (rt : RType) (blk : Nat → Block) (p n : Nat) (buf buf2 : Int)
    (mem mem2 : Mem) (w : World) (hnf : w.faults = noFaults) (hc : Complete env.m rt)
    (hb : RecordBlocks env w.fs bf rt blk)
    (hn : n * rt.itemsize < 9223372036854775808) (hp : ∀ c, c < rt.fields.length → p + n ≤ (blk c).size) :
    ∃ mem' w1, writeRecords env bf rt p n buf mem w = .ok (0, mem') w1 ∧
    ∃ mem2' w2, readRecords env bf rt p n buf2 mem2 w1 = .ok (0, mem2') w2 ∧
      peek mem2' buf2 (n * rt.itemsize) = peek mem buf (n * rt.itemsize) ∧
      (∀ y, y < buf2 ∨ buf2 + ((n * rt.itemsize : Nat) : Int) ≤ y → mem2' y = mem2 y) := by
  obtain ⟨mem', w1, h1, hnf1, h2, ⟨blk', hb', hsh⟩, _⟩ := C41_write env bf rt blk p n buf mem w hnf hc hb hn hp
  have hst : ∀ c, c < rt.fields.length → ∀ i, i < n → Stored env.m w1.fs (blk' c) (p + i) := by
    intro c hcl i hi
    rw [(hsh c hcl).1.stored]
    unfold Stored
    rw [h2 c hcl i hi]
    unfold fieldOf
    have hfb := hb.block c hcl
    have hok := hfb.ok (hfb.good hc (List.getElem_mem hcl))
    rw [peek_length, hok.dummy.rowSize, (hfb.good hc (List.getElem_mem hcl)).size]
  obtain ⟨mem2', w2, h3, _, _, h4, h5⟩ := C41_read env bf rt blk' p n buf2 mem2 w1 hnf1 hc hb' hn
    (fun c hcl => by rw [(hsh c hcl).1.size]; exact hp c hcl) hst
  refine ⟨mem', w1, h1, mem2', w2, h3, ?_, ?_⟩
  · apply peek_ext
    intro x hx
    by_cases hR : rt.itemsize = 0
    · rw [hR] at hx; omega
    · have hi : x / rt.itemsize < n := (Nat.div_lt_iff_lt_mul (by omega)).mpr hx
      have hj : x % rt.itemsize < recordSize env.m rt.fields := by
        rw [← hc.size]; exact Nat.mod_lt _ (by omega)
      obtain ⟨c, hcl, k1, k2⟩ := fieldStart_cover env.m rt.fields _ hj
      have e1 := h4 c hcl _ hi
      rw [(hsh c hcl).1.row, h2 c hcl _ hi] at e1
      unfold fieldOf at e1
      have hoff := hc.offset c hcl
      have hxd := Nat.div_add_mod x rt.itemsize
      rw [Nat.mul_comm] at hxd
      have hlen : x % rt.itemsize - fieldStart env.m rt.fields c < fieldSize env.m (rt.fields[c]) := by omega
      have e2 := congrArg (fun l => l[x % rt.itemsize - fieldStart env.m rt.fields c]?) e1
      rw [List.getElem?_eq_getElem (by rw [peek_length]; exact hlen),
        List.getElem?_eq_getElem (by rw [peek_length]; exact hlen), peek_getElem, peek_getElem] at e2
      injection e2 with e2
      generalize x / rt.itemsize * rt.itemsize = q at *
      have a1 : ∀ b : Int, b + (q : Int) + (rt.fields[c]).offset +
          ((x % rt.itemsize - fieldStart env.m rt.fields c : Nat) : Int) = b + (x : Int) := by
        intro b; omega
      rw [a1, a1] at e2
      exact e2
  · intro y hy
    apply h5
    rintro f hf ⟨i, hi, k1, k2⟩
    obtain ⟨c, hcl, rfl⟩ := List.mem_iff_getElem.mp hf
    have hoff := hc.offset c hcl
    have hle := fieldStart_le env.m rt.fields hcl
    rw [← hc.size] at hle
    have := mul_step hi (Nat.le_refl rt.itemsize)
    omega

/-! ## An example -/

/-- Two fields: three native `i2` and a big-endian `i4`; 10 bytes. -/
def exR2 : RType := ⟨[⟨some b!"x", b!"i2", 3, 0, 2⟩, ⟨some b!"id", b!">i4", 1, 6, 4⟩], 10⟩

theorem exR2_complete : Complete exEnv.m exR2 := by
  refine ⟨?_, by decide, by decide, by decide, by decide⟩
  intro f hf
  simp only [exR2, List.mem_cons, List.not_mem_nil, or_false] at hf
  rcases hf with rfl | rfl <;> exact ⟨by decide, by decide, by decide, by decide⟩

/-- The result of creating its blocks, two files of 2 and 3 rows each. -/
def exR2Create : Res Int := createRecords exEnv b!"d" exR2 .wplus [2, 3] exEmpty

example : exR2Create.val? = some 0 := by decide +kernel

/-- The disk after that. -/
def exR2W : World := ⟨(exR2Create.fs?).getD exEmpty.fs, noFaults, 0⟩

theorem exR2W_nf : exR2W.faults = noFaults := rfl

attribute [irreducible] exR2W

/-- The blocks created. -/
def exR2Blk (c : Nat) : Block :=
  if c = 0 then freshBlock exEnv b!"d/x" b!"i2" 3 [2, 3] else freshBlock exEnv b!"d/id" b!">i4" 1 [2, 3]

theorem fieldBlock_fresh {env : Env} {fs : FS} {bf : CStr} {f : RField} {name dt : CStr} {nmemb : Int} {fsize : List Nat}
    (hname : f.name = some name) (hfmt : FmtOk env)
    (hdt : dtypeNormalize env.m dt = dtypeNormalize env.m f.dtype) (hm : nmemb = f.nmemb)
    (hm0 : 0 < f.nmemb) (hi0 : 0 < itemsize env.m f.dtype)
    (hgood : GoodHeader (freshBlock env (pathJoin bf name) dt nmemb fsize))
    (hsum : fsize.sum < 9223372036854775808)
    (hbuf : fieldSize env.m f ≤ env.chunkBytes) (hbufM : env.chunkBytes < 18446744073709551616)
    (hbytes : fsize.sum * fieldSize env.m f < 9223372036854775808)
    (hlen : (pathJoin bf name).length ≤ 8192) (hmeta : isMeta (pathJoin bf name) = false)
    (hdir : fs.node (resolve (pathJoin bf name)) = some .dir)
    (hdata : ∀ i, i < fsize.length → fs.node (fileKey (pathJoin bf name) (.data i)) = some (.file []))
    (hhead : fs.node (fileKey (pathJoin bf name) .header) =
      some (.file (headerText (freshBlock env (pathJoin bf name) dt nmemb fsize))))
    (hv1 : fs.node (fileKey (pathJoin bf name) .attr) = none)
    (hv2 : fs.node (fileKey (pathJoin bf name) .attrV2) = some (.file [])) :
    FieldBlock env fs bf f (freshBlock env (pathJoin bf name) dt nmemb fsize) := by
  have hview : attrView env.m (freshBlock env (pathJoin bf name) dt nmemb fsize).attrset = findE [] :=
    ((attrsetCreate_inv env).dirty false).view_eq
  have hlay : Layout (freshBlock env (pathJoin bf name) dt nmemb fsize) := by
    refine ⟨rfl, List.length_replicate, ?_, runningSums_last fsize (by omega), hsum, ?_⟩
    · show runningSums 0 fsize = _
      rw [runningSums_eq fsize 0 (by omega)]
      apply List.map_congr_left
      intro f _
      simp [start, freshBlock, newBlock]
    · intro c hc
      have := (List.mem_replicate.mp hc).2
      omega
  refine ⟨⟨name, hname, rfl⟩, ?_, hm, hm0, hi0, hlay, hbuf, hbufM, ?_,
    ⟨hfmt, hgood, rfl, rfl, ⟨[], (attrsetCreate_inv env).dirty false⟩, ?_, hlen, hmeta⟩, ⟨rfl, rfl⟩,
    ⟨hdir, ?_, ?_⟩, ?_, ⟨?_, ?_⟩, ?_⟩
  · show dtypeNormalize env.m (dtypeNormalize env.m dt) = _
    rw [normalize_idem, hdt]
  · rw [hlay.size]; exact hbytes
  · intro nm v h
    rw [hview] at h
    exact absurd h (by simp [findE_nil, AttrMap.empty])
  · show fs.node (fileKey (pathJoin bf name) .header) ≠ _
    rw [hhead]; simp
  · show fs.node (fileKey (pathJoin bf name) .attrV2) ≠ _
    rw [hv2]; simp
  · intro i hi
    exact ⟨[], hdata i hi⟩
  · show (fs.node (fileKey (pathJoin bf name) .header)).isSome = true
    rw [hhead]; rfl
  · show parseHeader (fs.bytes (fileKey (pathJoin bf name) .header)) = _
    unfold FS.bytes
    rw [hhead]
    exact parseHeader_headerText _ hgood
  · rw [hview]
    refine ⟨{ attrsetCreate env with dirty := false }, { attrsetCreate env with dirty := false }, ?_, ?_,
      ⟨[], (attrsetCreate_inv env).dirty false⟩, ((attrsetCreate_inv env).dirty false).view_eq⟩
    · show readsV1 env fs (pathJoin bf name) _ = _
      unfold readsV1
      rw [hv1]
      rfl
    · show readsV2 env fs (pathJoin bf name) _ = _
      unfold readsV2 FS.bytes
      rw [hv2]
      rfl

theorem exR2_blocks : RecordBlocks exEnv exR2W.fs b!"d" exR2 exR2Blk := by
  refine ⟨?_, ?_⟩
  rotate_left
  · intro c d hc hd
    have hc : c < 2 := hc
    have hd : d < 2 := hd
    revert hc hd
    match c, d with
    | 0, 0 | 1, 1 => simp
    | 0, 1 | 1, 0 => intro _ _ _; decide
    | _ + 2, _ => intro h; omega
    | 0, _ + 2 | 1, _ + 2 => intro _ h; omega
  intro c hc
  match c, hc with
  | 0, _ =>
    show FieldBlock exEnv exR2W.fs b!"d" ⟨some b!"x", b!"i2", 3, 0, 2⟩ _
    refine fieldBlock_fresh (bf := b!"d") (name := b!"x") rfl exFmt (by decide) (by decide) (by decide) (by decide)
      ⟨⟨by decide, by decide, by decide, by decide⟩, by decide, by decide, by decide, by decide, by decide,
        by decide, by decide⟩ (by decide) (by decide) (by decide) (by decide) (by decide) (by decide)
      (by decide +kernel) ?_ (by decide +kernel) (by decide +kernel) (by decide +kernel)
    decide +kernel
  | 1, _ =>
    show FieldBlock exEnv exR2W.fs b!"d" ⟨some b!"id", b!">i4", 1, 6, 4⟩ _
    refine fieldBlock_fresh (bf := b!"d") (name := b!"id") rfl exFmt (by decide) (by decide) (by decide) (by decide)
      ⟨⟨by decide, by decide, by decide, by decide⟩, by decide, by decide, by decide, by decide, by decide,
        by decide, by decide⟩ (by decide) (by decide) (by decide) (by decide) (by decide) (by decide)
      (by decide +kernel) ?_ (by decide +kernel) (by decide +kernel) (by decide +kernel)
    decide +kernel

-- three records at rows 1, 2, 3, which lie in both files
example (mem mem2 : Mem) : ∃ mem' w1, writeRecords exEnv b!"d" exR2 (1 : Nat) 3 500 mem exR2W = .ok (0, mem') w1 ∧
    ∃ mem2' w2, readRecords exEnv b!"d" exR2 (1 : Nat) 3 900 mem2 w1 = .ok (0, mem2') w2 ∧
      peek mem2' 900 30 = peek mem 500 30 ∧ (∀ y, y < 900 ∨ 900 + ((30 : Nat) : Int) ≤ y → mem2' y = mem2 y) :=
  C41_round_trip exEnv b!"d" exR2 exR2Blk 1 3 500 900 mem mem2 exR2W exR2W_nf exR2_complete exR2_blocks
    (by decide) (by decide)

/-- Although `big_file_write_records` takes a `const` buffer ("we don't really modify it"), fields that are
not in machine byte order are byte-swapped in place. -/
theorem C41_buffer_swapped : ((writeRecords exEnv b!"d" exR2 1 1 500 (fun y => UInt8.ofNat y.toNat) exR2W).val?.map
      fun r => (r.1, peek r.2 500 10)) =
    some (0, [244, 245, 246, 247, 248, 249, 253, 252, 251, 250]) := by decide +kernel

end Verif
