import Verif.Spec.RecordsAll
import Verif.Props.Shared
import Verif.Props.RecordMake
import Verif.Proof.CopyFiles
/-!
# Records of several processes
-/

set_option autoImplicit false

namespace Verif

open Spec

variable {env : Env} {A : Content} {w : World} {n : Nat} {bf : CStr} {rt : RType} {f : RField} {size : Nat → Nat}
  {buf : Nat → Int} {mem : Nat → Mem} {p : Nat}

theorem together0_good {α : Type} {F : Nat → Nat → Fault} {c : Nat → Int} {good bad : Phases α} {Q : α → World → Prop}
    (hc : ∀ r, r < n → c r = 0) (h : good.Ensures F w Q) : (together0 n c good bad).Ensures F w Q := by
  unfold together0
  rw [if_pos (by
    rw [List.all_eq_true]
    intro r hr
    rw [hc r (List.mem_range.mp hr)]
    rfl)]
  exact h

theorem Spec.Sharable.path (h : Sharable env bf f) {name : CStr} (hn : f.name = some name) :
    fieldPath bf f = pathJoin bf name ∧ (0 : Byte) ∉ mpiPath bf name ∧ (mpiPath bf name).length ≤ 8192 := by
  have h1 := h.chars; have h2 := h.length
  rw [hn] at h1 h2
  simp only [Option.getD_some, List.mem_append, not_or] at h1 h2
  refine ⟨by unfold fieldPath; rw [hn]; rfl, ?_, ?_⟩
  · unfold mpiPath
    simp only [List.mem_append, List.mem_cons, not_or, List.not_mem_nil, not_false_eq_true, and_true]
    exact ⟨h1.1, by decide, h1.2, by decide⟩
  · unfold mpiPath
    simp only [List.length_append, List.length_cons, List.length_nil]
    omega

theorem Spec.OnDisk.notMeta {K : Kind} {fs : FS} {base : CStr} (h : OnDisk env K fs base A) : isMeta base = false := by
  obtain ⟨_, _, b, rfl, _, hh⟩ := h
  exact hh.savable.notMeta

theorem Spec.OnDisk.outside {K : Kind} {fs fs' : FS} {base dst : CStr} (h : OnDisk env K fs base A) (ha : Apart base dst)
    (ho : SameOutside dst fs fs') : OnDisk env K fs' base A := h.congr (ha.outside ho).1 (ha.outside ho).2

/-- The array of a field of some process. -/
theorem view_share {wd nm : Nat} (hg : GoodField env.m rt f wd nm) (sz : Nat) (b : Int) (hs : sz * rt.itemsize < 9223372036854775808)
    {K : Kind} (hK : K.nm = nm) :
    (viewArr env.m rt f sz b).size / K.nm = sz ∧ ShareOk env K (viewArr env.m rt f sz b) wd := by
  have e : (viewArr env.m rt f sz b).size / K.nm = sz := by
    rw [hg.view_size, hK, Nat.mul_div_cancel _ hg.memb0]
  refine ⟨e, by rw [e]; rfl, by rw [e, hg.view_size, hK], by simp [viewArr], fun h0 => ?_⟩
  rw [e] at h0
  have h2 := hg.bytes_le sz
  have h3 : sz * nm ≤ sz * nm * wd := Nat.le_mul_of_pos_right _ hg.item0
  refine ⟨hg.arrOk sz b h0, by rw [hg.view_size]; omega, normalize_idem _ _, ?_, hg.item0, by rw [hg.view_size]; omega⟩
  show itemsize env.m (dtypeNormalize env.m f.dtype) = _
  rw [itemsize_normalize, hg.item]

theorem rowsBefore_congr {a b : Nat → Nat} : ∀ {n : Nat}, (∀ r, r < n → a r = b r) → rowsBefore a n = rowsBefore b n := by
  intro n h
  unfold rowsBefore
  rw [List.map_congr_left fun r hr => h r (List.mem_range.mp hr)]

theorem allOf_length (m : Machine) (rt : RType) (n : Nat) (size : Nat → Nat) (buf : Nat → Int) (mem : Nat → Mem) (f : RField) :
    (allOf m rt n size buf mem f).length = rowsBefore size n := by
  unfold allOf rowsBefore
  rw [List.length_flatMap]
  congr 1
  apply List.map_congr_left
  intro r _
  simp

/-- What is known when a field was written or read by all processes. -/
structure FieldDone (env : Env) (bf : CStr) (rt : RType) (n : Nat) (size : Nat → Nat) (buf : Nat → Int) (mem : Nat → Mem)
    (f : RField) (A' : Content) (w : World) (x : (Nat → Int) × (Nat → Mem)) (w' : World) : Prop where
  code : ∀ r, r < n → x.1 r = 0
  faults : w'.faults = noFaults
  disk : OnDisk env (fieldKind env f) w'.fs (fieldPath bf f) A'
  out : SameOutside (fieldPath bf f) w.fs w'.fs
  tree : TreeOk w.fs → Later w.fs w'.fs
  mem : ∀ r, r < n → ∀ y, ¬ InColumn env.m rt (buf r) (size r) f y → x.2 r y = mem r y

section
variable {conc : Int} {thr : Nat}

/-- The first phase: all processes make their arrays. -/
theorem view_all {wd nm : Nat} (hg : GoodField env.m rt f wd nm) (hs : ∀ r, r < n → size r * rt.itemsize < 9223372036854775808)
    {Q : (Nat → Arr) → World → Prop}
    (h : ∀ (arr : Nat → Arr) (dom : List Key), (∀ r, r < n → arr r = viewArr env.m rt f (size r) (buf r)) →
      (TreeOk w.fs → Later w.fs ⟨w.fs.node, dom⟩) → Q arr ⟨⟨w.fs.node, dom⟩, w.faults, w.clock⟩) :
    (Phases.together n fun r => Prog.lift (viewField env.m rt f (size r) (buf r))).Ensures faultless w Q := by
  apply Phases.ensures_together (P' := fun r => Prog.ret (viewArr env.m rt f (size r) (buf r)))
  · intro r hr
    rw [hg.view _ _ (hs r hr)]
    rfl
  · refine ⟨0, fun es s hr => ?_⟩
    have hs : es = [] ∧ s = startAll (fun r => .ret (viewArr env.m rt f (size r) (buf r))) w.fs.node := by
      cases hr with
      | nil => exact ⟨rfl, rfl⟩
      | cons h _ =>
        cases h with
        | file r op k t a nd hr ht he => cases ht
        | coll c hne hall =>
          obtain ⟨r, hr⟩ := List.exists_mem_of_ne_nil _ hne
          exact absurd (hall r hr).2 (by simp [startAll, Prog.WaitsAt])
    obtain ⟨rfl, rfl⟩ := hs
    exact ⟨Nat.le_refl _, fun _ => ⟨_, fun r _ => rfl, fun out dom hlat ho => h out dom ho hlat⟩⟩

/-- **One field written.** -/
theorem write_field (hc : Complete env.m rt) (hf : f ∈ rt.fields) (hsh : Sharable env bf f) (hbf : bf ≠ []) (hn : 0 < n ∧ n < 2147483648)
    (hnf : w.faults = noFaults) (hs : ∀ r, r < n → size r * rt.itemsize < 9223372036854775808)
    (hN : rowsBefore size n < 2147483648) (hconc : conc < 2147483648)
    (h : OnDisk env (fieldKind env f) w.fs (fieldPath bf f) A) (hp : p + rowsBefore size n ≤ A.size) :
    (mpiXferField env true n bf rt conc thr p size buf f mem).Ensures faultless w
      (FieldDone env bf rt n size buf mem f (A.put p (allOf env.m rt n size buf mem f)) w) := by
  obtain ⟨name, hname⟩ := Option.isSome_iff_exists.mp hsh.name
  obtain ⟨hpath, hz, hlen⟩ := hsh.path hname
  have hmeta := h.notMeta
  have hg := goodField hc hf hsh.memb hsh.item
  unfold mpiXferField
  apply Phases.ensures_bind
  apply view_all hg hs
  intro arr dom harr hlat0
  rw [hname]
  dsimp only
  rw [hpath] at h hmeta
  obtain ⟨H, w1, e1, fs1, f1, h1, hb1⟩ := C71_opened env (fieldKind env f) A bf name n ⟨⟨w.fs.node, dom⟩, w.faults, w.clock⟩ hbf hz hlen hn hnf
    (h.congr rfl fun _ => rfl)
  apply Phases.ensures_bind
  apply Phases.ensures_alone e1
  have hK : (fieldKind env f).nm = f.nmemb.toNat := rfl
  have hsz : ∀ r, r < n → rowsOf (fieldKind env f) arr r = size r := by
    intro r hr
    unfold rowsOf
    rw [harr r hr]
    exact (view_share hg _ _ (hs r hr) hK).1
  have hconv : ∀ r, r < n → ∀ e, toBlock env (fieldKind env f) (arr r) (mem r) (itemsize env.m f.dtype).toNat e =
      some (peek (mem r) (elemAddr (arr r) e) (itemsize env.m f.dtype).toNat) := by
    intro r hr e
    unfold toBlock
    rw [harr r hr]
    exact convElem_same _ _ _ _
  have hgath : gathered env (fieldKind env f) n arr mem (fun _ => (itemsize env.m f.dtype).toNat) = allOf env.m rt n size buf mem f := by
    unfold gathered allOf
    apply flatMap_congr'
    intro r hr
    have hr := List.mem_range.mp hr
    rw [hsz r hr]
    apply List.map_congr_left
    intro i hi
    unfold arrayRow
    rw [← hg.row (size r) (buf r) (mem r) i (List.mem_range.mp hi)]
    simp only [hconv r hr, Option.getD_some]
    rw [harr r hr]
    rfl
  have hb : rowsBefore (rowsOf (fieldKind env f) arr) n = rowsBefore size n := rowsBefore_congr hsz
  apply Phases.ensures_bind
  refine Phases.ensures_mono (write_all (p := p) (arr := arr) (mem := mem) (sw := fun _ => (itemsize env.m f.dtype).toNat) h1 conc thr ?_) ?_
  · refine ⟨by rw [hb]; exact hp, by rw [hb]; exact hN, hconc, fun r hr => ⟨?_, fun _ => ?_, fun e _ => ?_⟩⟩
    · rw [harr r hr]; exact (view_share hg _ _ (hs r hr) hK).2
    · rw [harr r hr]; exact hg.disjoint _ _
    · rw [hconv r hr]; rfl
  · intro out w2 d
    have hnext : A.nextAll env (fieldKind env f) n (.write p arr mem (fun _ => (itemsize env.m f.dtype).toNat) conc thr) =
        A.put p (allOf env.m rt n size buf mem f) := by
      unfold Content.nextAll Content.put
      dsimp only
      rw [hgath, hb, allOf_length]
    have hh2 := d.holds
    rw [hnext] at hh2
    have hb2 := d.base
    obtain ⟨w3, e3, f3, d3, o3, l3⟩ := C71_closed env (fieldKind env f) _ bf name n _ w2 hbf hlen hmeta (d.faults.trans f1) hh2 (hb2.trans hb1)
    apply Phases.ensures_bind
    apply Phases.ensures_alone e3
    have o2 := d.out
    rw [hb1, fs1] at o2
    have o2' := (o2.renamed (resolve_mpiPath bf name hbf)).trans o3
    refine Phases.ensures_pure ⟨fun r hr => ?_, f3, ?_, by rw [hpath]; exact fun k hk => o2' k hk, fun ht => ?_, fun r hr y hy => ?_⟩
    · have := (d.ans r hr).1
      dsimp only at this ⊢
      rw [this]
      rfl
    · rw [hpath]
      rw [closed_eq (A := A.put p _) h.1 h.2.1] at d3
      exact d3
    · have l0 := hlat0 ht
      have l2 := d.tree (by rw [fs1]; exact l0.1)
      rw [fs1] at l2
      exact (l0.trans l2).trans (l3 l2.1)
    · apply (d.ans r hr).2.frame
      intro hin
      apply hy
      rw [harr r hr, hg.view_size] at hin
      exact hg.inElems _ _ _ hin

/-- **One field read.** -/
theorem read_field (hc : Complete env.m rt) (hf : f ∈ rt.fields) (hsh : Sharable env bf f) (hbf : bf ≠ []) (hn : 0 < n ∧ n < 2147483648)
    (hnf : w.faults = noFaults) (hs : ∀ r, r < n → size r * rt.itemsize < 9223372036854775808)
    (hN : rowsBefore size n < 2147483648) (hconc : conc < 2147483648)
    (h : OnDisk env (fieldKind env f) w.fs (fieldPath bf f) A) (hp : p + rowsBefore size n ≤ A.size)
    (hrows : ∀ q, p ≤ q → q < p + rowsBefore size n → (A.rows q).isSome = true) :
    (mpiXferField env false n bf rt conc thr p size buf f mem).Ensures faultless w fun x w' =>
      FieldDone env bf rt n size buf mem f A w x w' ∧
      ∀ r, r < n → ∀ i, i < size r → A.rows (p + rowsBefore size r + i) = some (fieldOf env.m rt (buf r) (x.2 r) i f) := by
  obtain ⟨name, hname⟩ := Option.isSome_iff_exists.mp hsh.name
  obtain ⟨hpath, hz, hlen⟩ := hsh.path hname
  have hmeta := h.notMeta
  have hg := goodField hc hf hsh.memb hsh.item
  unfold mpiXferField
  apply Phases.ensures_bind
  apply view_all hg hs
  intro arr dom harr hlat0
  rw [hname]
  dsimp only
  rw [hpath] at h hmeta
  obtain ⟨H, w1, e1, fs1, f1, h1, hb1⟩ := C71_opened env (fieldKind env f) A bf name n ⟨⟨w.fs.node, dom⟩, w.faults, w.clock⟩ hbf hz hlen hn hnf
    (h.congr rfl fun _ => rfl)
  apply Phases.ensures_bind
  apply Phases.ensures_alone e1
  have hK : (fieldKind env f).nm = f.nmemb.toNat := rfl
  have hsz : ∀ r, r < n → rowsOf (fieldKind env f) arr r = size r := by
    intro r hr
    unfold rowsOf
    rw [harr r hr]
    exact (view_share hg _ _ (hs r hr) hK).1
  have hconv : ∀ r, r < n → ∀ bytes j, fromBlock env (fieldKind env f) (arr r) bytes j =
      some ((bytes.drop (j * (itemsize env.m f.dtype).toNat)).take (itemsize env.m f.dtype).toNat) := by
    intro r hr bytes j
    unfold fromBlock
    rw [harr r hr]
    exact convElem_same _ _ _ _
  have hb : ∀ r, r ≤ n → rowsBefore (rowsOf (fieldKind env f) arr) r = rowsBefore size r := fun r hr =>
    rowsBefore_congr fun q hq => hsz q (by omega)
  have hin : ∀ r, r < n → ∀ i, i < size r → rowsBefore size r + i < rowsBefore size n := by
    intro r hr i hi
    have h1 := rowsBefore_mono size (show r + 1 ≤ n from hr)
    rw [rowsBefore_succ] at h1
    omega
  apply Phases.ensures_bind
  refine Phases.ensures_mono (read_all (p := p) (arr := arr) (mem := mem) (sw := fun _ => (itemsize env.m f.dtype).toNat) h1 conc thr ?_) ?_
  · refine ⟨by rw [hb n (Nat.le_refl _)]; exact hp, by rw [hb n (Nat.le_refl _)]; exact hN, hconc, fun r hr => ⟨?_, ?_, fun _ => ?_, fun i hi => ?_⟩⟩
    · rw [harr r hr]; exact (view_share hg _ _ (hs r hr) hK).2
    · rw [harr r hr]; exact hg.disjoint _ _
    · rw [harr r hr]; exact convertible_same _ _ _
    · rw [hsz r hr] at hi
      rw [hb r (by omega)]
      have := hin r hr i hi
      obtain ⟨bytes, hbytes⟩ := Option.isSome_iff_exists.mp (hrows (p + rowsBefore size r + i) (by omega) (by omega))
      exact ⟨bytes, hbytes, fun j _ => by rw [hconv r hr]; rfl⟩
  · intro out w2 d
    have hh2 := d.holds
    have hb2 := d.base
    obtain ⟨w3, e3, f3, d3, o3, l3⟩ := C71_closed env (fieldKind env f) _ bf name n _ w2 hbf hlen hmeta (d.faults.trans f1) hh2 (hb2.trans hb1)
    apply Phases.ensures_bind
    apply Phases.ensures_alone e3
    have o2 := d.out
    rw [hb1, fs1] at o2
    have o2' := (o2.renamed (resolve_mpiPath bf name hbf)).trans o3
    refine Phases.ensures_pure ⟨⟨fun r hr => ?_, f3, ?_, by rw [hpath]; exact fun k hk => o2' k hk, fun ht => ?_, fun r hr y hy => ?_⟩, fun r hr i hi => ?_⟩
    · have := (d.ans r hr).1
      dsimp only at this ⊢
      rw [this]
      rfl
    · rw [hpath]
      have d4 : OnDisk env (fieldKind env f) w3.fs (pathJoin bf name) A.closed := d3
      rw [closed_eq (A := A) h.1 h.2.1] at d4
      exact d4
    · have l0 := hlat0 ht
      have l2 := d.tree (by rw [fs1]; exact l0.1)
      rw [fs1] at l2
      exact (l0.trans l2).trans (l3 l2.1)
    · apply (d.ans r hr).2.2
      intro hin
      apply hy
      rw [harr r hr, hg.view_size] at hin
      exact hg.inElems _ _ _ hin
    · have ha := (d.ans r hr).2.1
      dsimp only at ha
      rw [hsz r hr, hb r (by omega)] at ha
      have hq := hin r hr i hi
      obtain ⟨bytes, hbytes⟩ := Option.isSome_iff_exists.mp (hrows (p + rowsBefore size r + i) (by omega) (by omega))
      rw [hbytes]
      congr 1
      rw [← hg.row (size r) (buf r) _ i hi]
      have hlenb : bytes.length = f.nmemb.toNat * (itemsize env.m f.dtype).toNat := by
        obtain ⟨_, _, bb, _, _, hh⟩ := h
        obtain ⟨_, r1, r2⟩ := hh.rows _ _ hbytes
        unfold Stored at r2
        rw [← r1, r2, hh.rowSize]
        rfl
      unfold rowOfElems
      refine (flatN_slices bytes _ _ hlenb).symm.trans ?_
      apply flatN_congr
      intro j hj
      obtain ⟨b', hb', hj'⟩ := ha i hi j hj
      rw [hbytes] at hb'
      injection hb' with hb'
      subst hb'
      rw [hconv r hr] at hj'
      injection hj' with hj'
      rw [hj', harr r hr]
      rfl

end

/-! ## Making and extending -/

/-- What is known when a field's block was made or extended by all processes. -/
structure FieldReady (env : Env) (bf : CStr) (n : Nat) (f : RField) (A' : Content) (w : World) (c : Nat → Int) (w' : World) : Prop where
  code : ∀ r, r < n → c r = 0
  faults : w'.faults = noFaults
  later : Later w.fs w'.fs
  disk : OnDisk env (fieldKind env f) w'.fs (fieldPath bf f) A'
  changed : ChangedAt (fieldPath bf f) w.fs w'.fs

/-- **One field's block made.** -/
theorem make_field {fsize : List Nat} (hfmt : FmtOk env) (hbufM : env.chunkBytes < 18446744073709551616) (hnf : w.faults = noFaults)
    (ht : TreeOk w.fs) (hbf : bf ≠ []) (hdir : w.fs.node (resolve bf) = some .dir) (hn : 0 < n ∧ n < 2147483648)
    (hm : Makable env bf f) (hsh : Sharable env bf f) (hs : SizesOk env fsize f) (hroom : Room w.fs (fieldPath bf f)) :
    (mpiCreateField env n bf .wplus fsize f).Ensures faultless w (FieldReady env bf n f (Content.fresh fsize) w) := by
  obtain ⟨name, hname⟩ := Option.isSome_iff_exists.mp hsh.name
  obtain ⟨hpath, hz, hlen⟩ := hsh.path hname
  obtain ⟨s1, s2, s3⟩ := hs
  have m2 := hm.notMeta; have m3 := hm.blank
  rw [hpath] at hroom m2 m3
  have m4 := hm.item; have m5 := hm.memb; have m6 := hm.small; have m7 := hm.buf
  have hfs : fieldSize env.m f = (itemsize env.m f.dtype).toNat * f.nmemb.toNat := rfl
  rw [hfs] at m6 m7 s3
  unfold mpiCreateField
  rw [hname]
  dsimp only
  apply Phases.ensures_bind
  refine Phases.ensures_mono (C71_created env bf name f.dtype f.nmemb fsize n (itemsize env.m f.dtype).toNat f.nmemb.toNat w hbf hz hlen
    m2 m3 hn hnf ht hdir hroom hfmt hm.dtype (by omega) (by omega) (by omega) (by omega) m6 m7 hbufM s1 s2 s3) ?_
  rintro ⟨c, H'⟩ w1 ⟨H, rfl, hc, hh, f1, hb, l1, c1⟩
  dsimp only
  apply together0_good hc
  obtain ⟨w3, e3, f3, d3, o3, l3⟩ := C71_closed env _ _ bf name n H w1 hbf hlen m2 f1 hh hb
  apply Phases.ensures_bind
  apply Phases.ensures_alone e3
  refine Phases.ensures_pure ⟨fun r _ => rfl, f3, l1.trans (l3 l1.1), ?_, ?_⟩
  · rw [hpath]; exact d3
  · rw [hpath]; exact c1.trans (.of_outside o3)

/-- **One field's block extended.** -/
theorem extend_field {fsize : List Nat} (hnf : w.faults = noFaults) (ht : TreeOk w.fs) (hbf : bf ≠ []) (hn : 0 < n ∧ n < 2147483648)
    (hsh : Sharable env bf f) (h : OnDisk env (fieldKind env f) w.fs (fieldPath bf f) A)
    (hl : A.legal env (fieldKind env f) (.grow fsize)) :
    (mpiCreateField env n bf .aplus fsize f).Ensures faultless w
      (FieldReady env bf n f (A.next env (fieldKind env f) (.grow fsize)) w) := by
  obtain ⟨name, hname⟩ := Option.isSome_iff_exists.mp hsh.name
  obtain ⟨hpath, hz, hlen⟩ := hsh.path hname
  have hmeta := h.notMeta
  rw [hpath] at h hmeta
  unfold mpiCreateField
  rw [hname]
  dsimp only
  obtain ⟨H, w1, e1, fs1, f1, h1, hb1⟩ := C71_opened env (fieldKind env f) A bf name n w hbf hz hlen hn hnf h
  apply Phases.ensures_bind
  apply Phases.ensures_alone e1
  apply Phases.ensures_bind
  have hg : (mpiGrow env n H fsize).Ensures faultless w1 fun x w' => MDone env (fieldKind env f) n H w1 A (.grow fsize)
      (fun r => ⟨x.1 r, env.junk, none⟩, x.2) w' := grow_all h1 fsize hl
  refine Phases.ensures_mono hg ?_
  rintro ⟨c, H'⟩ w2 d
  dsimp only
  obtain ⟨w3, e3, f3, d3, o3, l3⟩ := C71_closed env (fieldKind env f) _ bf name n H' w2 hbf hlen hmeta (d.faults.trans f1) d.holds
    (d.base.trans hb1)
  apply Phases.ensures_bind
  apply Phases.ensures_alone e3
  have o2 := d.out
  rw [hb1, fs1] at o2
  have o2' := (o2.renamed (resolve_mpiPath bf name hbf)).trans o3
  have l2 := d.tree (by rw [fs1]; exact ht)
  rw [fs1] at l2
  refine Phases.ensures_pure ⟨fun r hr => ?_, f3, l2.trans (l3 l2.1), ?_, ?_⟩
  · have : c r = 0 := d.ans r hr
    simp [this]
  · rw [hpath]
    have d4 : OnDisk env (fieldKind env f) w3.fs (pathJoin bf name) (A.next env (fieldKind env f) (.grow fsize)).closed := d3
    rw [closed_eq (A := A.next env (fieldKind env f) (.grow fsize)) h.1 h.2.1] at d4
    exact d4
  · rw [hpath]; exact .of_outside o2'

end Verif
