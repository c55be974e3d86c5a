import Verif.Proof.RecordMake
import Verif.Props.RecordIO
/-!
# C65: making and extending the blocks of a record type; failures are reported
-/

set_option autoImplicit false

namespace Verif

open Spec

/-! ## Failures are reported -/

/-- **C65** (writing). Whatever goes wrong, `big_file_write_records` returns 0 or -1, and it returns 0 exactly if for
each field, one after another, opening its block, seeking, writing and closing all succeeded. -/
theorem C65_write_reports (env : Env) (bf : CStr) (rt : RType) (p : Int) (n : Nat) (buf : Int) (mem : Mem) (w : World) :
    (∀ r w', writeRecords env bf rt p n buf mem w = .ok r w' → r.1 = 0 ∨ r.1 = -1) ∧
    (∀ mem' w', writeRecords env bf rt p n buf mem w = .ok (0, mem') w' ↔
      AllFields (FieldStored env bf rt p n buf) rt.fields mem w mem' w') :=
  ⟨fun r w' e => eachField_rc _ _ _ _ _ e, fun mem' w' => eachField_ok writeField_ok _ _ _ _ _⟩

/-- **C65** (reading). The same for `big_file_read_records`. -/
theorem C65_read_reports (env : Env) (bf : CStr) (rt : RType) (p : Int) (n : Nat) (buf : Int) (mem : Mem) (w : World) :
    (∀ r w', readRecords env bf rt p n buf mem w = .ok r w' → r.1 = 0 ∨ r.1 = -1) ∧
    (∀ mem' w', readRecords env bf rt p n buf mem w = .ok (0, mem') w' ↔
      AllFields (FieldFetched env bf rt p n buf) rt.fields mem w mem' w') :=
  ⟨fun r w' e => eachField_rc _ _ _ _ _ e, fun mem' w' => eachField_ok readField_ok _ _ _ _ _⟩

theorem createRecords_ok {env : Env} {bf : CStr} {rt : RType} {mode : RMode} {fsize : List Nat} {w w' : World} :
    createRecords env bf rt mode fsize w = .ok 0 w' ↔
      ∃ mem, AllFields (FieldMade env bf fsize mode) rt.fields (fun _ => 0) w mem w' := by
  unfold createRecords
  rw [bind_ok_iff]
  constructor
  · rintro ⟨⟨rc, mem⟩, w1, e1, e⟩
    obtain ⟨hrc, rfl⟩ := pure_ok_iff.mp e
    simp only at hrc
    subst hrc
    exact ⟨mem, (eachField_ok (createField_ok mode) _ _ _ _ _).mp e1⟩
  · rintro ⟨mem, h⟩
    exact ⟨(0, mem), w', (eachField_ok (createField_ok mode) _ _ _ _ _).mpr h, rfl⟩

/-- **C65** (creating). `big_file_create_records` returns 0 or -1, and it returns 0 exactly if for each field making its
block (opening and extending it) and closing it succeeded. -/
theorem C65_make_reports (env : Env) (bf : CStr) (rt : RType) (mode : RMode) (fsize : List Nat) (w : World) :
    (∀ rc w', createRecords env bf rt mode fsize w = .ok rc w' → rc = 0 ∨ rc = -1) ∧
    (∀ w', createRecords env bf rt mode fsize w = .ok 0 w' ↔
      ∃ mem, AllFields (FieldMade env bf fsize mode) rt.fields (fun _ => 0) w mem w') := by
  refine ⟨fun rc w' e => ?_, fun w' => createRecords_ok⟩
  obtain ⟨r, w1, e1, e⟩ := bind_ok_iff.mp e
  obtain ⟨rfl, _⟩ := pure_ok_iff.mp e
  exact eachField_rc _ _ _ _ _ e1

/-- **C65** (mode). With any other mode string it fails, and nothing happens. -/
theorem C65_other_mode (env : Env) (bf : CStr) (rt : RType) (fsize : List Nat) (w : World) (f : RField) (fs : List RField)
    (hf : rt.fields = f :: fs) (hn : f.name.isSome = true) : createRecords env bf rt .other fsize w = .ok (-1) w := by
  obtain ⟨name, hname⟩ := Option.isSome_iff_exists.mp hn
  unfold createRecords
  rw [hf]
  unfold eachField createField
  rw [hname]
  rfl

/-! ## Making and extending -/

theorem make_all {env : Env} {bf : CStr} {fsize : List Nat} (hfmt : FmtOk env) (hbufM : env.chunkBytes < 18446744073709551616)
    (hbf : bf ≠ []) : ∀ (fields : List RField) (mem : Mem) (w : World), w.faults = noFaults → TreeOk w.fs →
      w.fs.node (resolve bf) = some .dir → (∀ f ∈ fields, Makable env bf f ∧ SizesOk env fsize f ∧ Room w.fs (fieldPath bf f)) →
      FieldsApart bf fields →
      ∃ w', AllFields (FieldMade env bf fsize .wplus) fields mem w mem w' ∧ w'.faults = noFaults ∧ Later w.fs w'.fs ∧
        (∀ f ∈ fields, OnDisk env (fieldKind env f) w'.fs (fieldPath bf f) (Content.fresh fsize)) ∧
        (∀ K base A, (∀ f ∈ fields, Apart base (fieldPath bf f)) → OnDisk env K w.fs base A → OnDisk env K w'.fs base A) ∧
        (∀ k, w'.fs.node k ≠ w.fs.node k → ∃ f ∈ fields, (∃ id, k = fileKey (fieldPath bf f) id) ∨ k <+: resolve (fieldPath bf f)) := by
  intro fields
  induction fields with
  | nil =>
    intro mem w hnf ht _ _ _
    exact ⟨w, .nil _ _, hnf, Later.refl ht, fun f hf => absurd hf (List.not_mem_nil), fun _ _ _ _ h => h, fun k hk => absurd rfl hk⟩
  | cons f fs ih =>
    intro mem w hnf ht hdir hm hap
    obtain ⟨hap1, hap2⟩ := List.pairwise_cons.mp hap
    obtain ⟨hm1, hm2, hm3⟩ := hm f (List.mem_cons_self ..)
    obtain ⟨w1, e1, nf1, l1, d1, c1⟩ := make_step hfmt hbufM hnf ht hbf hdir hm1 hm2 hm3 mem
    have hd1 : w1.fs.node (resolve (fieldPath bf f)) = some .dir := by
      obtain ⟨_, _, b, hb, _, hh⟩ := d1
      have := hh.dir.dir
      rw [hb] at this
      exact this
    obtain ⟨w2, e2, nf2, l2, d2, o2, c2⟩ := ih mem w1 nf1 l1.1 ((l1.2 _).1 hdir) (fun g hg =>
      ⟨(hm g (List.mem_cons_of_mem _ hg)).1, (hm g (List.mem_cons_of_mem _ hg)).2.1,
        (hm g (List.mem_cons_of_mem _ hg)).2.2.changedAt (hap1 g hg).2 (hap1 g hg).1 l1.1 hd1 c1⟩) hap2
    refine ⟨w2, .cons e1 e2, nf2, l1.trans l2, ?_, ?_, ?_⟩
    · intro g hg
      rcases List.mem_cons.mp hg with rfl | hg
      · exact o2 _ _ _ (fun g hg => (hap1 g hg).1) d1
      · exact d2 g hg
    · intro K base A ha h
      exact o2 _ _ _ (fun g hg => ha g (List.mem_cons_of_mem _ hg)) (h.changedAt (ha f (List.mem_cons_self ..)) l1 c1)
    · intro k hk
      by_cases he : w1.fs.node k = w.fs.node k
      · obtain ⟨g, hg, h⟩ := c2 k (by rw [he]; exact hk)
        exact ⟨g, List.mem_cons_of_mem _ hg, h⟩
      · exact ⟨f, List.mem_cons_self .., c1 k he⟩

/-- **C65** (`w+`). In an existing directory, where every field's block has room and the blocks do not get into each
other's way, `big_file_create_records` makes for each field a block of the field's dtype and number of members, with files
of the given sizes and no attributes. Any other block keeps its rows and attributes, and nothing else changes but the
directories on the way. -/
theorem C65_create (env : Env) (bf : CStr) (rt : RType) (fsize : List Nat) (w : World) (hfmt : FmtOk env)
    (hbufM : env.chunkBytes < 18446744073709551616) (hnf : w.faults = noFaults) (ht : TreeOk w.fs) (hbf : bf ≠ [])
    (hdir : w.fs.node (resolve bf) = some .dir)
    (hm : ∀ f ∈ rt.fields, Makable env bf f ∧ SizesOk env fsize f ∧ Room w.fs (fieldPath bf f))
    (hap : FieldsApart bf rt.fields) :
    ∃ w', createRecords env bf rt .wplus fsize w = .ok 0 w' ∧ w'.faults = noFaults ∧ TreeOk w'.fs ∧
      (∀ f ∈ rt.fields, OnDisk env (fieldKind env f) w'.fs (fieldPath bf f) (Content.fresh fsize)) ∧
      (∀ K base A, (∀ f ∈ rt.fields, Apart base (fieldPath bf f)) → OnDisk env K w.fs base A → OnDisk env K w'.fs base A) ∧
      (∀ k, w'.fs.node k ≠ w.fs.node k →
        ∃ f ∈ rt.fields, (∃ id, k = fileKey (fieldPath bf f) id) ∨ k <+: resolve (fieldPath bf f)) := by
  obtain ⟨w', h1, h2, h3, h4, h5, h6⟩ := make_all hfmt hbufM hbf rt.fields (fun _ => 0) w hnf ht hdir hm hap
  exact ⟨w', createRecords_ok.mpr ⟨_, h1⟩, h2, h3.1, h4, h5, h6⟩

theorem extend_all {env : Env} {bf : CStr} {fsize : List Nat} {A : RField → Content} :
    ∀ (fields : List RField) (mem : Mem) (w : World), w.faults = noFaults → TreeOk w.fs →
      (∀ f ∈ fields, f.name.isSome = true ∧ OnDisk env (fieldKind env f) w.fs (fieldPath bf f) (A f) ∧
        (A f).legal env (fieldKind env f) (.grow fsize)) →
      FieldsApart bf fields →
      ∃ w', AllFields (FieldMade env bf fsize .aplus) fields mem w mem w' ∧ w'.faults = noFaults ∧ Later w.fs w'.fs ∧
        (∀ f ∈ fields, OnDisk env (fieldKind env f) w'.fs (fieldPath bf f) ((A f).next env (fieldKind env f) (.grow fsize))) ∧
        (∀ K base B, (∀ f ∈ fields, Apart base (fieldPath bf f)) → OnDisk env K w.fs base B → OnDisk env K w'.fs base B) := by
  intro fields
  induction fields with
  | nil =>
    intro mem w hnf ht _ _
    exact ⟨w, .nil _ _, hnf, Later.refl ht, fun f hf => absurd hf (List.not_mem_nil), fun _ _ _ _ h => h⟩
  | cons f fs ih =>
    intro mem w hnf ht hm hap
    obtain ⟨hap1, hap2⟩ := List.pairwise_cons.mp hap
    obtain ⟨hm1, hm2, hm3⟩ := hm f (List.mem_cons_self ..)
    obtain ⟨w1, e1, nf1, l1, d1, c1⟩ := extend_step hnf ht hm1 hm2 hm3 mem
    obtain ⟨w2, e2, nf2, l2, d2, o2⟩ := ih mem w1 nf1 l1.1 (fun g hg =>
      ⟨(hm g (List.mem_cons_of_mem _ hg)).1, (hm g (List.mem_cons_of_mem _ hg)).2.1.changedAt (hap1 g hg).2 l1 c1,
        (hm g (List.mem_cons_of_mem _ hg)).2.2⟩) hap2
    refine ⟨w2, .cons e1 e2, nf2, l1.trans l2, ?_, ?_⟩
    · intro g hg
      rcases List.mem_cons.mp hg with rfl | hg
      · exact o2 _ _ _ (fun g hg => (hap1 g hg).1) d1
      · exact d2 g hg
    · intro K base B ha h
      exact o2 _ _ _ (fun g hg => ha g (List.mem_cons_of_mem _ hg)) (h.changedAt (ha f (List.mem_cons_self ..)) l1 c1)

/-- **C65** (`a+`). If every field has its block on disk, `big_file_create_records` in append mode adds the given files
to each of them: the new size and number of files are the sums, rows and attributes are kept. Any other block keeps its
rows and attributes. -/
theorem C65_extend (env : Env) (bf : CStr) (rt : RType) (fsize : List Nat) (A : RField → Content) (w : World)
    (hnf : w.faults = noFaults) (ht : TreeOk w.fs)
    (hm : ∀ f ∈ rt.fields, f.name.isSome = true ∧ OnDisk env (fieldKind env f) w.fs (fieldPath bf f) (A f) ∧
      (A f).legal env (fieldKind env f) (.grow fsize))
    (hap : FieldsApart bf rt.fields) :
    ∃ w', createRecords env bf rt .aplus fsize w = .ok 0 w' ∧ w'.faults = noFaults ∧ TreeOk w'.fs ∧
      (∀ f ∈ rt.fields, OnDisk env (fieldKind env f) w'.fs (fieldPath bf f)
        { A f with size := (A f).size + fsize.sum, nfile := (A f).nfile + fsize.length }) ∧
      (∀ K base B, (∀ f ∈ rt.fields, Apart base (fieldPath bf f)) → OnDisk env K w.fs base B → OnDisk env K w'.fs base B) := by
  obtain ⟨w', h1, h2, h3, h4, h5⟩ := extend_all rt.fields (fun _ => 0) w hnf ht hm hap
  exact ⟨w', createRecords_ok.mpr ⟨_, h1⟩, h2, h3.1, h4, h5⟩

/-! ## Records can then be written and read -/

/-- A block on disk of the field's kind is the field's block. -/
theorem Spec.OnDisk.fieldBlock {env : Env} {bf : CStr} {f : RField} {fs : FS} {A : Content} (hn : f.name.isSome = true)
    (hi : 0 < itemsize env.m f.dtype) (hm : 0 < f.nmemb)
    (h : OnDisk env (fieldKind env f) fs (fieldPath bf f) A) :
    ∃ b, FieldBlock env fs bf f b ∧ b.basename = fieldPath bf f ∧ b.size = A.size := by
  obtain ⟨name, hname⟩ := Option.isSome_iff_exists.mp hn
  obtain ⟨h1, h2, b, hb, hd, hh⟩ := h
  refine ⟨b, ⟨⟨name, hname, by rw [hb]; unfold fieldPath; rw [hname]; rfl⟩, hh.kind, ?_, hm, hi, hh.ok.layout, ?_, hh.ok.bufMax, ?_,
    hh.savable, ⟨hd, hh.pending.trans h1⟩, hh.dir, hh.data, hh.header hd, ?_⟩, hb, hh.size⟩
  · rw [hh.ok.memb]; show ((f.nmemb.toNat : Nat) : Int) = _; omega
  · exact hh.ok.buf
  · have := hh.ok.offs
    rw [← hh.ok.layout.size] at this
    exact this
  · rw [hh.attrs, ← h2]; exact hh.saved h1

theorem recordBlocks_of {env : Env} {bf : CStr} {rt : RType} {fs : FS} {A : RField → Content}
    (hn : ∀ f ∈ rt.fields, f.name.isSome = true ∧ 0 < itemsize env.m f.dtype ∧ 0 < f.nmemb)
    (hap : FieldsApart bf rt.fields)
    (h : ∀ f ∈ rt.fields, OnDisk env (fieldKind env f) fs (fieldPath bf f) (A f)) :
    ∃ blk, RecordBlocks env fs bf rt blk ∧ ∀ c (hc : c < rt.fields.length), (blk c).size = (A (rt.fields[c])).size := by
  have hex : ∀ c, ∃ b : Block, ∀ hc : c < rt.fields.length, FieldBlock env fs bf (rt.fields[c]) b ∧
      b.basename = fieldPath bf (rt.fields[c]) ∧ b.size = (A (rt.fields[c])).size := by
    intro c
    by_cases hc : c < rt.fields.length
    · have hf := List.getElem_mem hc
      obtain ⟨b, hb⟩ := (h _ hf).fieldBlock (hn _ hf).1 (hn _ hf).2.1 (hn _ hf).2.2
      exact ⟨b, fun _ => hb⟩
    · exact ⟨freshBlock env [] [] 0 [], fun h => absurd h hc⟩
  obtain ⟨blk, hblk⟩ := Classical.axiomOfChoice hex
  refine ⟨blk, ⟨fun c hc => (hblk c hc).1, ?_⟩, fun c hc => (hblk c hc).2.2⟩
  intro c d hc hd hne
  rw [(hblk c hc).2.1, (hblk d hd).2.1]
  rcases Nat.lt_or_gt_of_ne hne with hlt | hlt
  · exact (List.pairwise_iff_getElem.mp hap c d hc hd hlt).1.ne
  · exact (List.pairwise_iff_getElem.mp hap d c hd hc hlt).2.ne

/-- **C65** (from nothing). A record type is made, `n` records are written at row `p` and read back somewhere else: the
bytes are the same. -/
theorem C65_create_write_read (env : Env) (bf : CStr) (rt : RType) (fsize : List Nat) (p n : Nat) (buf buf2 : Int)
    (mem mem2 : Mem) (w : World) (hfmt : FmtOk env)
    (hbufM : env.chunkBytes < 18446744073709551616) (hnf : w.faults = noFaults) (ht : TreeOk w.fs) (hbf : bf ≠ [])
    (hdir : w.fs.node (resolve bf) = some .dir) (hc : Complete env.m rt)
    (hm : ∀ f ∈ rt.fields, Makable env bf f ∧ SizesOk env fsize f ∧ Room w.fs (fieldPath bf f))
    (hap : FieldsApart bf rt.fields) (hn : n * rt.itemsize < 9223372036854775808) (hp : p + n ≤ fsize.sum) :
    ∃ w1, createRecords env bf rt .wplus fsize w = .ok 0 w1 ∧
    ∃ mem' w2, writeRecords env bf rt p n buf mem w1 = .ok (0, mem') w2 ∧
    ∃ mem2' w3, readRecords env bf rt p n buf2 mem2 w2 = .ok (0, mem2') w3 ∧
      peek mem2' buf2 (n * rt.itemsize) = peek mem buf (n * rt.itemsize) ∧
      (∀ y, y < buf2 ∨ buf2 + ((n * rt.itemsize : Nat) : Int) ≤ y → mem2' y = mem2 y) := by
  obtain ⟨w1, e1, nf1, _, d1, _⟩ := C65_create env bf rt fsize w hfmt hbufM hnf ht hbf hdir hm hap
  obtain ⟨blk, hb, hs⟩ := recordBlocks_of (A := fun _ => Content.fresh fsize)
    (fun f hf => ⟨(hm f hf).1.name, (hm f hf).1.item, (hm f hf).1.memb⟩) hap d1
  exact ⟨w1, e1, C41_round_trip env bf rt blk p n buf buf2 mem mem2 w1 nf1 hc hb hn (fun c hc => by rw [hs c hc]; exact hp)⟩

/-! ## Examples -/

/-- Two fields: three native `i2` and a big-endian `i4`; 10 bytes. -/
def exR3 : RType := ⟨[⟨some b!"p", b!"i2", 3, 0, 2⟩, ⟨some b!"q", b!">i4", 1, 6, 4⟩], 10⟩

theorem exR3_complete : Complete exEnv.m exR3 := by
  refine ⟨?_, by decide, by decide, by decide, by decide⟩
  intro f hf
  simp only [exR3, List.mem_cons, List.not_mem_nil, or_false] at hf
  rcases hf with rfl | rfl <;> exact ⟨by decide, by decide, by decide, by decide⟩

theorem exR3_apart : FieldsApart b!"d" exR3.fields := by
  have key : ∀ a b : CStr, (a = b!"d/p" ∧ b = b!"d/q") ∨ (a = b!"d/q" ∧ b = b!"d/p") → Apart a b := by
    rintro a b (⟨rfl, rfl⟩ | ⟨rfl, rfl⟩)
    all_goals
      refine ⟨by decide, fun id he => ?_, fun id he => ?_⟩
      · rw [fileKey_eq] at he
        exact absurd (congrArg List.length he) (by simp; decide)
      · rw [fileKey_eq] at he
        exact absurd (List.IsPrefix.trans (List.prefix_append _ _) he) (by decide)
  refine .cons ?_ (.cons ?_ .nil)
  · intro g hg
    simp only [List.mem_cons, List.not_mem_nil, or_false] at hg
    subst hg
    exact ⟨key _ _ (Or.inl ⟨by decide, by decide⟩), key _ _ (Or.inr ⟨by decide, by decide⟩)⟩
  · intro g hg
    exact absurd hg List.not_mem_nil

theorem exR3_makable : ∀ f ∈ exR3.fields, Makable exEnv b!"d" f ∧ SizesOk exEnv [2, 3] f ∧
    Room exTreeWorld.fs (fieldPath b!"d" f) := by
  intro f hf
  simp only [exR3, List.mem_cons, List.not_mem_nil, or_false] at hf
  rcases hf with rfl | rfl
  all_goals
    refine ⟨⟨by decide, by decide, by decide, by decide, ⟨by decide, by decide, by decide, by decide⟩, by decide, by decide, by decide, by decide⟩,
      by unfold SizesOk; decide, Room.of_absent exTree_ok (by decide) (by decide)⟩

/-- The two fields of `exR3` are made in the directory `d`, three records are written at row 1 and read back. -/
example (mem mem2 : Mem) := C65_create_write_read exEnv b!"d" exR3 [2, 3] 1 3 1000 5000 mem mem2 exTreeWorld exFmt (by decide) rfl
  exTree_ok (by decide) (by decide) exR3_complete exR3_makable exR3_apart (by decide) (by decide)

/-- They are made, and extended by a file of 4 rows. -/
example : ∃ w1 w2, createRecords exEnv b!"d" exR3 .wplus [2, 3] exTreeWorld = .ok 0 w1 ∧
    createRecords exEnv b!"d" exR3 .aplus [4] w1 = .ok 0 w2 ∧
    ∀ f ∈ exR3.fields, OnDisk exEnv (fieldKind exEnv f) w2.fs (fieldPath b!"d" f)
      ⟨9, 3, fun _ => none, AttrMap.empty, AttrMap.empty, false⟩ := by
  obtain ⟨w1, e1, nf1, t1, d1, _⟩ := C65_create exEnv b!"d" exR3 [2, 3] exTreeWorld exFmt (by decide) rfl
    exTree_ok (by decide) (by decide) exR3_makable exR3_apart
  obtain ⟨w2, e2, _, _, d2, _⟩ := C65_extend exEnv b!"d" exR3 [4] (fun _ => Content.fresh [2, 3]) w1 nf1 t1
    (fun f hf => ⟨(exR3_makable f hf).1.name, d1 f hf, by
      simp only [exR3, List.mem_cons, List.not_mem_nil, or_false] at hf
      rcases hf with rfl | rfl <;> exact ⟨by decide, by decide, by decide⟩⟩) exR3_apart
  exact ⟨w1, w2, e1, e2, d2⟩

/-- Nothing there to write to: -1. -/
example : (writeRecords exEnv b!"d" exR3 0 1 1000 (fun _ => 0) exTreeWorld).val?.map (·.1) = some (-1) := by decide +kernel

end Verif
