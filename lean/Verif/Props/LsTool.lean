import Mathlib.Data.List.Forall2
import Verif.Proof.Check
import Verif.Props.Cat
/-!
# C76 and C77: `bigfile-ls` and `bigfile-check`
-/

set_option autoImplicit false

namespace Verif

open Spec

variable {env : Env} {K : Kind} {A : Content} {w : World}

/-! ## C76 -/

/-- **C76.** Without failures `bigfile-ls` prints one line for every visible directory below the file that has a complete header, wherever
it is (also inside other blocks), once each, in the order of the names (those of an outer directory first), and changes nothing. A line
is the name, or with `-l` also dtype, elements per row, number of rows, checksum, number of files and path. -/
theorem C76_ls (env : Env) (sort : List CStr → List CStr) (hsort : ∀ l, (sort l).Perm l) (le : CStr → CStr → Prop)
    (hle : ∀ l, (sort l).Pairwise le) (long : Bool) (file : CStr) (w : World) (hnf : w.faults = noFaults) (ht : TreeOk w.fs)
    (hf : file ≠ []) (hfl : file.length ≤ 8192) (hfile : (w.fs.node (resolve file)).isSome = true) (hr : AllReadable env w.fs file)
    (hsum : long = true → ∀ ds h, Visible ds → headerOf w.fs (pathJoin file (joinNames ds)) = some h → h.fsize.sum < 9223372036854775808) :
    ∃ (L : List (List CStr)) (w' : World), lsMain env sort long file none w = .ok (.done, L.flatMap (shownBlock long w.fs file)) w' ∧ w'.fs = w.fs ∧
      w'.faults = noFaults ∧ L.Nodup ∧ L.Pairwise (List.Lex le) ∧ ∀ ds, ds ∈ L ↔ IsBlock w.fs file ds := by
  obtain ⟨w1, e1, f1, nf1⟩ := bigFileOpen_succeeds hnf hf hfile hfl
  have hd1 : 1 ≤ w.fs.depth := by unfold FS.depth; omega
  obtain ⟨o, w2, e2, f2, nf2, L, rfl, h1, h2, h3⟩ := wpc_returns (lsR_spec (env := env) sort hsort le hle long file hf w.fs ht hr hsum w.fs.depth []
    w1 f1 nf1 (by simp) hd1 (by simpa using hfile) (by omega)) (fun _ h => h)
  refine ⟨L, w2, ?_, f2, nf2, h1, h2, ?_⟩
  · unfold lsMain
    simp only [bind, M.bind]
    rw [e1]
    simp only [ne_eq, not_true_eq_false, if_false]
    rw [M.bind, show getFS w1 = .ok w1.fs w1 from rfl]
    dsimp only
    rw [M.bind, f1, show ([] : CStr) = joinNames [] from rfl, e2]
    rfl
  · intro ds
    rw [h3]
    constructor
    · rintro ⟨t, _, rfl, h⟩; exact h
    · intro h; exact ⟨ds, h.1.ne, rfl, h⟩

/-- One block named by the user. If it cannot be opened nothing is printed, and the program ends normally. -/
theorem C76_one (env : Env) (sort : List CStr → List CStr) (long : Bool) (file block : CStr) (w : World) (hnf : w.faults = noFaults)
    (hf : file ≠ []) (hfl : file.length ≤ 8192) (hfile : (w.fs.node (resolve file)).isSome = true)
    (hlen : (pathJoin file block).length ≤ 8192) (hmeta : isMeta (pathJoin file block) = false)
    (hr : Readable env w.fs (pathJoin file block))
    (hsum : long = true → ∀ h, headerOf w.fs (pathJoin file block) = some h → h.fsize.sum < 9223372036854775808) :
    ∃ w', lsMain env sort long file (some block) w = .ok (.done, match headerOf w.fs (pathJoin file block) with
        | none => []
        | some h => if long then longLine file block h else block ++ b!"\n") w' ∧ w'.fs = w.fs ∧ w'.faults = noFaults := by
  obtain ⟨w1, e1, f1, nf1⟩ := bigFileOpen_succeeds hnf hf hfile hfl
  obtain ⟨r, w2, e2, f2, nf2, hq⟩ := wpc_returns (wpc_openBlock_readable (env := env) (long := long) (bf := file) (name := block) rfl nf1 hlen hmeta
    (by rw [f1]; exact hr) (by rw [f1]; exact hsum) (C := fun _ => False)
    (Q := fun r w' => w'.fs = w.fs ∧ w'.faults = noFaults ∧ r.2 = match headerOf w.fs (pathJoin file block) with
        | none => []
        | some h => if long then longLine file block h else block ++ b!"\n")
    (fun w' g1 g2 => ⟨g1.trans f1, g2, by rw [f1]; cases headerOf w.fs (pathJoin file block) <;> rfl⟩)) (fun _ h => h)
  refine ⟨w2, ?_, f2, nf2⟩
  unfold lsMain
  simp only [bind, M.bind]
  rw [e1]
  simp only [ne_eq, not_true_eq_false, if_false]
  rw [M.bind, e2]
  dsimp only
  rw [hq]
  rfl

/-! ## C77 -/

theorem Spec.OnDisk.readable {fs : FS} {path : CStr} (h : OnDisk env K fs path A) :
    Readable env fs path ∧ ∃ hd, headerOf fs path = some hd ∧ PlainDtype hd.dtype ∧ hd.fsize.sum = A.size ∧ hd.fsize.length = A.nfile ∧
      hd.nmemb = K.nm ∧ dtypeNormalize env.m hd.dtype = K.dtype := by
  obtain ⟨h1, h2, b, rfl, h3, hh⟩ := h
  obtain ⟨s1, s2, r1, r2, _, _⟩ := hh.saved h1
  obtain ⟨k1, k2⟩ := hh.header h3
  refine ⟨⟨⟨s1, s2, r1, r2⟩, fun _ => by rw [k2]; simp⟩, ⟨b.dtype, b.nmemb, b.fsize, b.fchecksum⟩, ?_, hh.savable.header.dt, ?_, ?_, ?_, ?_⟩
  · unfold headerOf
    rw [if_pos k1, k2]
  · rw [← hh.size, hh.ok.layout.size]
  · rw [← hh.nfile, hh.ok.layout.nfile]
  · exact hh.ok.memb
  · exact hh.kind

theorem PlainDtype.clean {dt : CStr} (h : PlainDtype dt) : Clean dt := by
  intro c hc
  obtain ⟨h1, h2⟩ := h.chars c hc
  refine ⟨h2, ?_, ?_, ?_⟩ <;> (rintro rfl; revert h1; decide)

/-- **C77.** For a complete block `bigfile-check` compares the byte sum of the data with the sum of the stored checksums, both as `sum -s` folds
them: it prints nothing if they agree and otherwise a line with both; nothing on disk changes. -/
theorem C77_check (env : Env) (sort : List CStr → List CStr) (K : Kind) (A : Content) (file block : CStr) (buf : Int) (mem : Mem)
    (w : World) (hnf : w.faults = noFaults) (ht : TreeOk w.fs) (hf : file ≠ []) (hfl : file.length ≤ 8192) (hfc : Clean file)
    (h : Checkable env K w.fs file block A) :
    ∃ hd w', headerOf w.fs (pathJoin file block) = some hd ∧
      checkBlock env sort file block buf mem w = .ok (checkReport block (folded (byteSum A.data)) (folded hd.cks.sum)) w' ∧
      w'.fs = w.fs ∧ w'.faults = noFaults := by
  obtain ⟨hrd, hd, hh, hpl, hsz, _⟩ := h.disk.readable
  obtain ⟨w1, e1, f1, nf1⟩ := C67_cat_partial env K A file block true 0 none 268435456 buf mem w hnf ht hf hfl h.disk (Nat.zero_le _)
    (fun r _ hr => h.full r (by simp only [wantedRows] at hr; omega)) h.row h.size (by simp) (Or.inr (Or.inr rfl))
  have hsrcdir : w.fs.node (resolve (pathJoin file block)) = some .dir := by
    obtain ⟨_, _, b, hb, _, h⟩ := h.disk
    rw [← hb]
    exact h.dir.dir
  have hfdir : w.fs.node (resolve file) = some .dir := by
    rw [resolve_join file block hf] at hsrcdir
    by_cases he : names block = []
    · rw [he, List.append_nil] at hsrcdir; exact hsrcdir
    · exact ht.prefix_dir _ _ (by rw [hsrcdir]; rfl) he
  have hlen : (pathJoin file block).length ≤ 8192 := by
    obtain ⟨_, _, b, hb, _, h⟩ := h.disk
    rw [← hb]
    exact h.savable.base
  have hmeta : isMeta (pathJoin file block) = false := by
    obtain ⟨_, _, b, hb, _, h⟩ := h.disk
    rw [← hb]
    exact h.savable.notMeta
  obtain ⟨w2, e2, f2, nf2⟩ := C76_one env sort true file block w1 nf1 hf hfl (by rw [f1, hfdir]; rfl) hlen hmeta
    (by rw [f1]; exact hrd) (by
      intro _ h' hh'
      rw [f1, hh] at hh'
      injection hh' with hh'
      have := h.size
      rw [← hh', hsz]
      omega)
  rw [f1, hh] at e2
  simp only [if_true] at e2
  refine ⟨hd, w2, hh, ?_, f2.trans f1, nf2⟩
  unfold checkBlock
  simp only [bind, M.bind]
  rw [show catMain env file block true 0 (-1) 268435456 buf mem w = _ from e1]
  dsimp only
  rw [e2]
  dsimp only
  have hdata : shownRows (showRow env K true) A 0 (wantedRows A 0 none) = A.data := by
    unfold shownRows showRow Content.data wantedRows
    simp only [if_true, Nat.zero_add, Nat.sub_zero]
  rw [hdata, sumTool_words, longLine_words h.name h.ne hfc hpl.clean hpl.ne]
  unfold testNe checkReport
  simp only [decVal_decStr, decVal_fieldZero, decide_eq_true_eq]
  by_cases he : folded (byteSum A.data) = folded hd.cks.sum
  · rw [if_neg (by simpa using he), if_pos he]
    rfl
  · rw [if_pos he, if_neg he]
    simp [List.intercalate, pure, M.pure]

/-- The text printed for one of several blocks. -/
def Spec.Reported (env : Env) (fs : FS) (file block : CStr) (text : CStr) : Prop :=
  ∃ K A hd, Checkable env K fs file block A ∧ headerOf fs (pathJoin file block) = some hd ∧
    text = checkReport block (folded (byteSum A.data)) (folded hd.cks.sum)

theorem checkBlocks_reports (env : Env) (sort : List CStr → List CStr) (file : CStr) (buf : Int) (mem : Mem) (fs : FS) (ht : TreeOk fs)
    (hf : file ≠ []) (hfl : file.length ≤ 8192) (hfc : Clean file) : ∀ (bs : List CStr) (w : World), w.fs = fs → w.faults = noFaults →
    (∀ b ∈ bs, ∃ K A, Checkable env K fs file b A) →
    ∃ (texts : List CStr) (w' : World), checkBlocks env sort file buf mem bs w = .ok texts.flatten w' ∧ w'.fs = fs ∧
      List.Forall₂ (Reported env fs file) bs texts := by
  intro bs
  induction bs with
  | nil => intro w hfs _ _; exact ⟨[], w, rfl, hfs, List.Forall₂.nil⟩
  | cons b bs ih =>
    intro w hfs hnf h
    obtain ⟨K, A, hc⟩ := h b (by simp)
    subst hfs
    obtain ⟨hd, w1, e0, e1, f1, nf1⟩ := C77_check env sort K A file b buf mem w hnf ht hf hfl hfc hc
    obtain ⟨texts, w2, e2, f2, h2⟩ := ih w1 f1 nf1 (fun b' hb' => h b' (by simp [hb']))
    refine ⟨_ :: texts, w2, ?_, f2, List.Forall₂.cons ⟨K, A, hd, hc, e0, rfl⟩ h2⟩
    unfold checkBlocks
    simp only [bind, M.bind]
    rw [e1]
    dsimp only
    rw [e2]
    rfl

/-- Blocks named by the user: the reports one after another. -/
theorem C77_blocks (env : Env) (sort : List CStr → List CStr) (file : CStr) (blocks : List CStr) (hne : blocks ≠ []) (buf : Int) (mem : Mem)
    (w : World) (hnf : w.faults = noFaults) (ht : TreeOk w.fs) (hf : file ≠ []) (hfl : file.length ≤ 8192) (hfc : Clean file)
    (h : ∀ b ∈ blocks, ∃ K A, Checkable env K w.fs file b A) :
    ∃ (texts : List CStr) (w' : World), checkMain env sort file blocks buf mem w = .ok texts.flatten w' ∧ w'.fs = w.fs ∧
      List.Forall₂ (Reported env w.fs file) blocks texts := by
  unfold checkMain
  rw [if_neg (by simpa using hne)]
  exact checkBlocks_reports env sort file buf mem w.fs ht hf hfl hfc blocks w rfl hnf h

theorem words_lines : ∀ (l : List CStr), (∀ a ∈ l, Clean a ∧ a ≠ []) → words (l.flatMap fun a => a ++ b!"\n") = l := by
  intro l
  induction l with
  | nil => intro _; rfl
  | cons a l ih =>
    intro h
    obtain ⟨h1, h2⟩ := h a (by simp)
    have ih := ih fun x hx => h x (by simp [hx])
    rw [List.flatMap_cons, List.append_assoc, List.cons_append, List.nil_append]
    unfold words at ih ⊢
    rw [wordsAux_clean h1, wordsAux, if_pos (Or.inr (Or.inr rfl)), List.append_nil, if_neg (by simpa using h2), List.reverse_reverse, ih]
    rfl

/-- All blocks of a file. -/
theorem C77_all (env : Env) (sort : List CStr → List CStr) (hsort : ∀ l, (sort l).Perm l) (file : CStr) (buf : Int) (mem : Mem)
    (w : World) (hnf : w.faults = noFaults) (ht : TreeOk w.fs) (hf : file ≠ []) (hfl : file.length ≤ 8192) (hfc : Clean file)
    (hfile : (w.fs.node (resolve file)).isSome = true) (hr : AllReadable env w.fs file)
    (h : ∀ ds, IsBlock w.fs file ds → ∃ K A, Checkable env K w.fs file (joinNames ds) A) :
    ∃ (L : List (List CStr)) (texts : List CStr) (w' : World), checkMain env sort file [] buf mem w = .ok texts.flatten w' ∧ w'.fs = w.fs ∧
      List.Forall₂ (Reported env w.fs file) (L.map joinNames) texts ∧ L.Nodup ∧ ∀ ds, ds ∈ L ↔ IsBlock w.fs file ds := by
  obtain ⟨L, w1, e1, f1, nf1, h1, _, h2⟩ := C76_ls env sort hsort (fun _ _ => True) (fun l => List.pairwise_of_forall fun _ _ => trivial)
    false file w hnf ht hf hfl hfile hr (by simp)
  have hw : L.flatMap (shownBlock false w.fs file) = (L.map joinNames).flatMap fun a => a ++ b!"\n" := by
    rw [List.flatMap_map]
    rfl
  have hall : ∀ b ∈ L.map joinNames, ∃ K A, Checkable env K w.fs file b A := by
    intro b hb
    obtain ⟨ds, hds, rfl⟩ := List.mem_map.mp hb
    exact h ds ((h2 ds).mp hds)
  obtain ⟨texts, w2, e2, f2, h3⟩ := checkBlocks_reports env sort file buf mem w.fs ht hf hfl hfc (L.map joinNames) w1 f1 nf1 hall
  refine ⟨L, texts, w2, ?_, f2, h3, h1, h2⟩
  unfold checkMain
  simp only [List.isEmpty_nil, if_true, bind, M.bind]
  rw [e1]
  dsimp only
  rw [hw, words_lines _ (fun b hb => by obtain ⟨_, _, hc⟩ := hall b hb; exact ⟨hc.name, hc.ne⟩)]
  exact e2

theorem sum_getD (l : List Nat) : ∀ n, l.length = n → l.sum = sumN (fun f => l.getD f 0) n := by
  intro n
  induction n generalizing l with
  | zero => intro h; rw [List.eq_nil_of_length_eq_zero h]; rfl
  | succ n ih =>
    intro h
    have hne : l ≠ [] := by intro h0; rw [h0] at h; simp at h
    have e := List.dropLast_concat_getLast hne
    have hl : l.dropLast.length = n := by rw [List.length_dropLast, h]; rfl
    have e1 : ∀ f, f < n → l.getD f 0 = l.dropLast.getD f 0 := by
      intro f hf
      conv => lhs; rw [← e]
      simp only [List.getD_eq_getElem?_getD]
      rw [List.getElem?_append_left (by omega)]
    have e2 : l.getD n 0 = l.getLast hne := by
      conv => lhs; rw [← e]
      simp only [List.getD_eq_getElem?_getD]
      rw [List.getElem?_append_right (by omega), hl]
      simp
    rw [sumN, sumN_congr e1, ← ih _ hl, e2]
    conv => lhs; rw [← e]
    simp

theorem sumN_mod (g : Nat → Nat) (n : Nat) : sumN (fun f => g f % 4294967296) n % 4294967296 = sumN g n % 4294967296 := by
  induction n with
  | zero => rfl
  | succ n ih => simp only [sumN]; omega

theorem folded_congr {a b : Nat} (h : a % 4294967296 = b % 4294967296) : folded a = folded b := by
  unfold folded
  rw [h]

/-- The data files hold exactly the rows: no bytes behind the last one. -/
def Spec.ExactFiles (K : Kind) (fs : FS) (path : CStr) (hd : Header) : Prop :=
  ∀ f (h : f < hd.fsize.length), (fs.bytes (fileKey path (.data f))).length = hd.fsize[f] * (K.w * K.nm)

/-- The bytes of a complete block are those of its files. -/
theorem data_files {fs : FS} {path : CStr} {hd : Header} (h : OnDisk env K fs path A) (hfull : A.full) (hh : headerOf fs path = some hd)
    (hex : ExactFiles K fs path hd) : A.data = flatN (fun f => fs.bytes (fileKey path (.data f))) A.nfile := by
  obtain ⟨h1, h2, b, rfl, h3, hb⟩ := h
  obtain ⟨k1, k2⟩ := hb.header h3
  unfold headerOf at hh
  rw [if_pos k1, k2] at hh
  injection hh with hh
  subst hh
  have hL := hb.ok.layout
  have hrs : rowSize env.m b = K.w * K.nm := by
    unfold rowSize
    rw [hb.ok.item, hb.ok.memb]
    simp
  have hfl := flatN_files (env := env) (bb := b) (fs := fs) (by
    intro f hf
    rw [hrs]
    exact hex f hf) b.fsize.length (Nat.le_refl _)
  have hst : start b.fsize b.fsize.length = A.size := by
    unfold start
    rw [List.take_length, ← hb.size, hL.size]
  rw [hst, hL.nfile, hb.nfile] at hfl
  rw [← hfl]
  unfold Content.data
  apply flatN_congr
  intro r hr
  obtain ⟨bytes, hbytes⟩ := Option.isSome_iff_exists.mp (hfull r hr)
  rw [hbytes, (hb.rows r bytes hbytes).2.1]
  rfl

/-- A block whose checksums are those of its files (see C18 and C19) is accepted. -/
theorem C77_accepts (env : Env) (sort : List CStr → List CStr) (K : Kind) (A : Content) (file block : CStr) (buf : Int) (mem : Mem)
    (w : World) (hnf : w.faults = noFaults) (ht : TreeOk w.fs) (hf : file ≠ []) (hfl : file.length ≤ 8192) (hfc : Clean file)
    (h : Checkable env K w.fs file block A) (hd : Header) (hh : headerOf w.fs (pathJoin file block) = some hd)
    (hex : ExactFiles K w.fs (pathJoin file block) hd)
    (hck : ∀ f, f < A.nfile → hd.cks.getD f 0 = byteSum (w.fs.bytes (fileKey (pathJoin file block) (.data f))) % 4294967296) :
    ∃ w', checkBlock env sort file block buf mem w = .ok [] w' ∧ w'.fs = w.fs := by
  obtain ⟨hd', w1, e0, e1, f1, _⟩ := C77_check env sort K A file block buf mem w hnf ht hf hfl hfc h
  rw [hh] at e0
  injection e0 with e0
  subst e0
  have hlen : hd.cks.length = A.nfile := by
    obtain ⟨_, _, b, hb, h3, hbb⟩ := h.disk
    obtain ⟨k1, k2⟩ := hbb.header h3
    rw [hb] at k1 k2
    unfold headerOf at hh
    rw [if_pos k1, k2] at hh
    injection hh with hh
    subst hh
    exact hbb.ok.layout.nck.trans hbb.nfile
  have he : folded (byteSum A.data) = folded hd.cks.sum := by
    apply folded_congr
    rw [data_files h.disk h.full hh hex, byteSum_flatN, sum_getD _ _ hlen, sumN_congr hck, sumN_mod]
  rw [he] at e1
  refine ⟨w1, ?_, f1⟩
  rw [e1]
  unfold checkReport
  rw [if_pos rfl]

/-- Changing the bytes of data files, but not their lengths, changes rows only. -/
theorem Spec.OnDisk.corrupted {fs fs' : FS} {path : CStr} (h : OnDisk env K fs path A) (hfull : A.full)
    (hother : ∀ k, (∀ f, k ≠ fileKey path (.data f)) → fs'.node k = fs.node k)
    (hfiles : ∀ f, (IsFile fs (fileKey path (.data f)) ↔ IsFile fs' (fileKey path (.data f))) ∧
      (fs'.node (fileKey path (.data f)) ≠ some .dir) ∧
      (fs'.bytes (fileKey path (.data f))).length = (fs.bytes (fileKey path (.data f))).length) :
    ∃ A', OnDisk env K fs' path A' ∧ A'.full ∧ A'.size = A.size ∧ A'.nfile = A.nfile := by
  obtain ⟨h1, h2, b, rfl, h3, hb⟩ := h
  have hid : ∀ id, (∀ f, id ≠ .data f) → fs'.node (fileKey b.basename id) = fs.node (fileKey b.basename id) := by
    intro id hne
    apply hother
    intro f he
    exact hne f (C38_files_distinct _ _ _ _ he).2
  have hhd := hid .header (by simp)
  have hst : ∀ r, Stored env.m fs b r → Stored env.m fs' b r := by
    intro r hr
    have hl := (hfiles (rowFile b r)).2.2
    unfold Stored row at hr ⊢
    simp only [List.length_take, List.length_drop] at hr ⊢
    rw [hl]
    exact hr
  refine ⟨{ A with rows := fun r => if r < A.size then some (row env.m fs' b r) else none },
    ⟨h1, h2, b, rfl, h3, ⟨hb.ok, hb.kind, hb.size, hb.nfile, hb.savable, hb.attrs, hb.pending, hb.tame, ?_, ?_, ?_, ?_, ?_, ?_, ?_⟩⟩,
    ?_, rfl, rfl⟩
  · intro hp
    obtain ⟨s1, s2, k1, k2, k3, k4⟩ := hb.saved hp
    exact ⟨s1, s2, by rw [readsV1_congr (hid _ (by simp))]; exact k1, by rw [readsV2_congr (hid _ (by simp))]; exact k2, k3, k4⟩
  · intro hh
    obtain ⟨k1, k2⟩ := hb.header hh
    exact ⟨by rw [hhd]; exact k1, by rw [bytes_congr hhd]; exact k2⟩
  · refine ⟨?_, ?_, ?_⟩
    · rw [hother _ (fun f he => resolve_ne_fileKey _ _ he)]; exact hb.dir.dir
    · rw [hhd]; exact hb.dir.header
    · rw [hid _ (by simp)]; exact hb.dir.attr
  · rw [hid _ (by simp)]; exact hb.noOld
  · exact fun f => (hfiles f).2.1
  · exact fun f hf => (hfiles f).1.mp (hb.data f hf)
  · intro r bytes hr
    simp only at hr
    split at hr
    · rename_i hlt
      injection hr with hr
      obtain ⟨by0, hby⟩ := Option.isSome_iff_exists.mp (hfull r hlt)
      exact ⟨hlt, hr, hst r (hb.rows r by0 hby).2.2⟩
    · cases hr
  · intro r hr
    simp only at hr ⊢
    rw [if_pos hr]
    rfl

/-- The sum of all files when byte `i` of file `f` is replaced. -/
theorem sumN_replaced (g : Nat → List Byte) (f n : Nat) (hf : f < n) (d : List Byte) :
    ∃ q, sumN (fun j => byteSum (g j)) n = q + byteSum (g f) ∧
      sumN (fun j => byteSum (if j = f then d else g j)) n = q + byteSum d := by
  induction n with
  | zero => omega
  | succ n ih =>
    simp only [sumN]
    by_cases he : f = n
    · subst he
      refine ⟨sumN (fun j => byteSum (g j)) f, rfl, ?_⟩
      rw [if_pos rfl]
      congr 1
      apply sumN_congr
      intro i hi
      rw [if_neg (by omega)]
    · obtain ⟨q, h1, h2⟩ := ih (by omega)
      refine ⟨q + byteSum (g n), by rw [h1]; omega, ?_⟩
      rw [h2, if_neg (fun h => he h.symm)]
      omega

/-- **C77**, detection: if a block is accepted and then any single byte of its data files is replaced by another one, it is no longer
accepted. -/
theorem C77_detects (env : Env) (sort : List CStr → List CStr) (K : Kind) (A : Content) (file block : CStr) (buf : Int) (mem : Mem)
    (w : World) (hnf : w.faults = noFaults) (ht : TreeOk w.fs) (hf : file ≠ []) (hfl : file.length ≤ 8192) (hfc : Clean file)
    (h : Checkable env K w.fs file block A) (hd : Header) (hh : headerOf w.fs (pathJoin file block) = some hd)
    (hex : ExactFiles K w.fs (pathJoin file block) hd) (w1 : World)
    (hacc : checkBlock env sort file block buf mem w = .ok [] w1)
    -- one byte of one file changes
    (f i : Nat) (old new : Byte) (d : List Byte) (hfn : f < A.nfile) (hold : w.fs.bytes (fileKey (pathJoin file block) (.data f)) = d)
    (hi : d[i]? = some old) (hne : new ≠ old) (w2 : World) (hnf2 : w2.faults = noFaults) (ht2 : TreeOk w2.fs)
    (hother : ∀ k, k ≠ fileKey (pathJoin file block) (.data f) → w2.fs.node k = w.fs.node k)
    (hnew : w2.fs.node (fileKey (pathJoin file block) (.data f)) = some (.file (d.set i new))) :
    ∃ x y w3, x ≠ y ∧ checkBlock env sort file block buf mem w2 = .ok (checkReport block x y) w3 ∧ checkReport block x y ≠ [] := by
  have hdata : ∀ j, w2.fs.bytes (fileKey (pathJoin file block) (.data j)) =
      if j = f then d.set i new else w.fs.bytes (fileKey (pathJoin file block) (.data j)) := by
    intro j
    by_cases hj : j = f
    · subst hj
      rw [if_pos rfl]
      unfold FS.bytes
      rw [hnew]
    · rw [if_neg hj]
      exact bytes_congr (hother _ fun he => hj (by simpa using (C38_files_distinct _ _ _ _ he).2))
  have hfile1 : IsFile w.fs (fileKey (pathJoin file block) (.data f)) := by
    obtain ⟨_, _, b, hb, _, hbb⟩ := h.disk
    rw [← hb]
    exact hbb.data f (by rw [hbb.nfile]; exact hfn)
  obtain ⟨A', hA', hfull', hsz', hnf'⟩ := h.disk.corrupted (fs' := w2.fs) h.full (fun k hk => hother k (hk f)) (by
    intro j
    by_cases hj : j = f
    · subst hj
      refine ⟨⟨fun _ => ⟨_, hnew⟩, fun _ => hfile1⟩, by rw [hnew]; simp, ?_⟩
      rw [hdata, if_pos rfl, List.length_set, hold]
    · have hn := hother (fileKey (pathJoin file block) (.data j)) fun he => hj (by simpa using (C38_files_distinct _ _ _ _ he).2)
      refine ⟨by unfold IsFile; rw [hn], ?_, by rw [hdata, if_neg hj]⟩
      rw [hn]
      obtain ⟨_, _, b, hb, _, hbb⟩ := h.disk
      rw [← hb]
      exact hbb.noDirs j)
  have hh' : headerOf w2.fs (pathJoin file block) = some hd := by
    have hn := hother (fileKey (pathJoin file block) .header) fun he => by
      have := (C38_files_distinct _ _ _ _ he).2
      cases this
    unfold headerOf at hh ⊢
    rw [hn, bytes_congr hn]
    exact hh
  have hc' : Checkable env K w2.fs file block A' :=
    ⟨hA', hfull', h.row, by rw [hsz']; exact h.size, h.name, h.ne⟩
  obtain ⟨hd1, w1', e0, e1, _, _⟩ := C77_check env sort K A file block buf mem w hnf ht hf hfl hfc h
  obtain ⟨hd2, w3, e2, e3, _, _⟩ := C77_check env sort K A' file block buf mem w2 hnf2 ht2 hf hfl hfc hc'
  rw [hh] at e0
  injection e0 with e0
  subst e0
  rw [hh'] at e2
  injection e2 with e2
  subst e2
  rw [e1] at hacc
  injection hacc with hacc _
  have hsum : folded (byteSum A.data) = folded hd.cks.sum := by
    by_cases he : folded (byteSum A.data) = folded hd.cks.sum
    · exact he
    · unfold checkReport at hacc
      rw [if_neg he] at hacc
      have := congrArg List.length hacc
      simp at this
  have hex' : ExactFiles K w2.fs (pathJoin file block) hd := by
    intro j hj
    rw [hdata]
    split
    · rename_i he
      subst he
      rw [List.length_set, ← hold]
      exact hex j hj
    · exact hex j hj
  -- the sums
  have hs1 : byteSum A.data = sumN (fun j => byteSum (w.fs.bytes (fileKey (pathJoin file block) (.data j)))) A.nfile := by
    rw [data_files h.disk h.full hh hex, byteSum_flatN]
  have hs2 : byteSum A'.data = sumN (fun j => byteSum (if j = f then d.set i new else w.fs.bytes (fileKey (pathJoin file block) (.data j)))) A.nfile := by
    rw [data_files hA' hfull' hh' hex', byteSum_flatN, hnf']
    exact sumN_congr fun j _ => by rw [hdata]
  obtain ⟨q, q1, q2⟩ := sumN_replaced (fun j => w.fs.bytes (fileKey (pathJoin file block) (.data j))) f A.nfile hfn (d.set i new)
  obtain ⟨hil, hio⟩ := List.getElem?_eq_some_iff.mp hi
  have hd1 : byteSum d = byteSum (d.take i) + old.toNat + byteSum (d.drop (i + 1)) := by
    conv => lhs; rw [← List.take_append_drop i d, List.drop_eq_getElem_cons hil, hio]
    simp only [byteSum, List.map_append, List.map_cons, List.sum_append, List.sum_cons]
    omega
  have hd2 : byteSum (d.set i new) = byteSum (d.take i) + new.toNat + byteSum (d.drop (i + 1)) := by
    rw [List.set_eq_take_append_cons_drop, if_pos hil]
    simp only [byteSum, List.map_append, List.map_cons, List.sum_append, List.sum_cons]
    omega
  have hne' : folded (byteSum A'.data) ≠ folded hd.cks.sum := by
    rw [← hsum, hs1, hs2, q1, q2, hold, hd1, hd2]
    have := folded_one (q + byteSum (d.take i)) new.toNat old.toNat (byteSum (d.drop (i + 1))) (UInt8.toNat_lt _) (UInt8.toNat_lt _)
      (fun he => hne (UInt8.toNat_inj.mp he))
    simpa only [Nat.add_assoc] using this
  refine ⟨_, _, w3, hne', e3, ?_⟩
  unfold checkReport
  rw [if_neg hne']
  simp

/-- A block without a complete header is not reported. -/
theorem C77_unreadable (env : Env) (sort : List CStr → List CStr) (file block : CStr) (buf : Int) (mem : Mem)
    (w : World) (hnf : w.faults = noFaults) (hf : file ≠ []) (hfl : file.length ≤ 8192)
    (hfile : (w.fs.node (resolve file)).isSome = true) (hlen : (pathJoin file block).length ≤ 8192)
    (hmeta : isMeta (pathJoin file block) = false) (hr : Readable env w.fs (pathJoin file block))
    (hh : headerOf w.fs (pathJoin file block) = none) :
    ∃ w', checkBlock env sort file block buf mem w = .ok [] w' ∧ w'.fs = w.fs := by
  obtain ⟨w1, e1, f1, nf1⟩ := bigFileOpen_succeeds hnf hf hfile hfl
  obtain ⟨s1, s2, h1, h2⟩ := hr.1
  obtain ⟨r, w2, e2, f2, nf2, hr2⟩ := wpc_returns (wpc_blockOpen_nf (env := env) (C := fun _ => False) nf1 hlen hmeta (by rw [f1]; exact h1)
    (by rw [f1]; exact h2) (by rw [f1]; exact hr.2)) (fun _ h => h)
  have hrn : r = (-1, none) := by
    rcases hr2 with ⟨hr2, _⟩ | ⟨k1, dtype, nmemb, nfile, fsize, fck, k2, _⟩
    · exact hr2
    · rw [f1] at k1 k2
      unfold headerOf at hh
      rw [if_pos k1, k2] at hh
      cases hh
  subst hrn
  have hcat : catMain env file block true 0 (-1) 268435456 buf mem w = .ok (.failed, []) w2 := by
    unfold catMain openBlock
    simp only [bind, M.bind]
    rw [e1]
    simp only [ne_eq, not_true_eq_false, if_false]
    rw [M.bind, e2]
    rfl
  have hfs2 : w2.fs = w.fs := f2.trans f1
  obtain ⟨w3, e3, f3, _⟩ := C76_one env sort true file block w2 nf2 hf hfl (by rw [hfs2]; exact hfile) hlen hmeta (by rw [hfs2]; exact hr)
    (by rw [hfs2, hh]; simp)
  rw [hfs2, hh] at e3
  refine ⟨w3, ?_, f3.trans hfs2⟩
  unfold checkBlock
  simp only [bind, M.bind]
  rw [hcat]
  dsimp only
  rw [e3]
  dsimp only
  rw [show awkWords 5 [] = [] from rfl]
  have : ∀ l, testNe l [] = false := by
    intro l
    unfold testNe
    split
    · rename_i h0; cases h0
    · rfl
  rw [this]
  rfl

/-! ## Examples -/

/-- A sorting function. -/
def exSort (l : List CStr) : List CStr := l.mergeSort (fun a b => decide (a ≤ b))

theorem exSort_perm (l : List CStr) : (exSort l).Perm l := List.mergeSort_perm _ _

theorem exSort_le (l : List CStr) : (exSort l).Pairwise (fun a b => decide (a ≤ b) = true) := List.pairwise_mergeSort (by
  intro a b c h1 h2
  exact decide_eq_true (List.le_trans (of_decide_eq_true h1) (of_decide_eq_true h2))) (by
  intro a b
  rcases List.le_total a b with h | h
  · simp [h]
  · simp [h]) l

/-- Three rows, written once. -/
def exCheckSrc : M Int := do
  let r ← createBlock exEnv b!"d" b!"z" (some b!"i4") 1 [2, 0, 1]
  match r.2 with
  | none => pure 7
  | some b =>
    let (_, b) ← runBOps exEnv b [.write 0 exSrc exMem 8]
    blockClose exEnv b

def exCheckA : Content := ((Content.fresh [2, 0, 1]).after exEnv exKind [.write 0 exSrc exMem 8]).closed

theorem exCheck_src : ∃ w, exCheckSrc exTreeWorld = .ok 0 w ∧ w.faults = noFaults ∧ TreeOk w.fs ∧
    OnDisk exEnv exKind w.fs b!"d/z" exCheckA := by
  obtain ⟨w0, e0⟩ := createBlock_succeeds (env := exEnv) (w := exTreeWorld) (bf := b!"d") (name := b!"z") (dt := b!"i4")
    (nmemb := 1) (fsize := [2, 0, 1]) rfl (by decide) (by decide) (by decide) (by decide) (by decide) exCopy_room
  obtain ⟨h1, nf1⟩ := fresh_holds (dt := b!"i4") exFmt rfl (by decide) (by decide) exB_good.dt (by decide : _ = ((4 : Nat) : Int))
    (by decide) (by decide : (1 : Int) = ((1 : Nat) : Int)) (by decide) (by decide) (by decide)
    (by decide) (by decide) (by decide) (by decide) e0 (fun d hd => exCopy_room.way _ (List.prefix_refl _) ⟨d, hd⟩)
    exCopy_room.noOld (fun f => exCopy_room.files _)
  have hK : (⟨dtypeNormalize exEnv.m (dtypeNormalize exEnv.m b!"i4"), 4, 1⟩ : Kind) = exKind := by
    unfold exKind; congr 1
  rw [hK] at h1
  obtain ⟨xs, b2, w2, w3, e2, e3, nf3, h3⟩ := history_closed h1 nf1 (ops := [.write 0 exSrc exMem 8])
    ⟨⟨by decide, exSrc_array, fun h => absurd h (by decide), fun _ => by decide +kernel⟩, trivial⟩
  have e : exCheckSrc exTreeWorld = .ok 0 w3 := by
    unfold exCheckSrc
    simp only [bind, M.bind]
    rw [e0]
    simp only
    rw [M.bind, e2]
    exact e3
  have hk : KeepsTree exCheckSrc := by
    refine KeepsTree.bind (createBlock_keeps _ _ _ _ _ _) ?_
    rintro ⟨rc, o⟩
    cases o with
    | none => exact KeepsTree.pure _
    | some b => exact KeepsTree.bind (runBOps_keeps _ _ _) fun _ => blockClose_keeps _ _
  exact ⟨w3, e, nf3, hk.ok exTree_ok e, h3⟩

theorem exCheck_checkable {fs : FS} {A : Content} (h : OnDisk exEnv exKind fs b!"d/z" A) (hf : ∀ r < A.size, (A.rows r).isSome = true)
    (hs : A.size < 100) : Checkable exEnv exKind fs b!"d" b!"z" A :=
  ⟨h, hf, by decide, by omega, by unfold Clean; decide, by decide⟩

/-- Whether reading the attributes and the header of a directory is defined and succeeds. -/
def exReadable (fs : FS) (path : CStr) : Bool :=
  (match readsV1 exEnv fs path (attrsetCreate exEnv) with
    | some (0, s1) => match readsV2 exEnv fs path s1 with
      | some (0, _) => true
      | _ => false
    | _ => false) &&
  (match parseHeader (fs.bytes (fileKey path .header)) with
    | .ub => false
    | _ => true)

theorem exReadable_readable {fs : FS} {path : CStr} (h : exReadable fs path = true) : Readable exEnv fs path := by
  unfold exReadable at h
  rw [Bool.and_eq_true] at h
  refine ⟨?_, fun _ he => ?_⟩
  · have h := h.1
    split at h
    · rename_i s1 e1
      split at h
      · rename_i s2 e2; exact ⟨s1, s2, e1, e2⟩
      · cases h
    · cases h
  · rw [he] at h
    exact absurd h.2 (by simp)

theorem exAllReadable {fs : FS} (ht : TreeOk fs) (h : ∀ k ∈ fs.dom, k.take 1 = [b!"d"] → k.drop 1 ≠ [] →
    exReadable fs (pathJoin b!"d" (joinNames (k.drop 1))) = true ∧ (pathJoin b!"d" (joinNames (k.drop 1))).length ≤ 8192) :
    AllReadable exEnv fs b!"d" := by
  intro ds hv hn
  have := h _ (ht.dom _ hn) rfl hv.ne
  exact ⟨exReadable_readable this.1, this.2⟩

/-- The example of `C76_ls`: a file with one block that has a complete header, others with torn headers. -/
example : ∃ w L w', exCheckSrc exTreeWorld = .ok 0 w ∧
    lsMain exEnv exSort true b!"d" none w = .ok (.done, (L : List (List CStr)).flatMap (shownBlock true w.fs b!"d")) w' ∧
    [b!"z"] ∈ L ∧ [b!"x"] ∉ L ∧
    shownBlock true w.fs b!"d" [b!"z"] = b!"z                            <i4 1            3 00033 3 d/z\n" := by
  obtain ⟨w, e, nf, ht, h⟩ := exCheck_src
  have hchk : (exCheckSrc exTreeWorld).fs?.map (fun fs => ((∀ k ∈ fs.dom, k.take 1 = [b!"d"] → k.drop 1 ≠ [] →
    exReadable fs (pathJoin b!"d" (joinNames (k.drop 1))) = true ∧ (pathJoin b!"d" (joinNames (k.drop 1))).length ≤ 8192) ∧
    (∀ k ∈ fs.dom, ((headerOf fs (pathJoin b!"d" (joinNames (k.drop 1)))).all fun h => h.fsize.sum < 9223372036854775808) = true) ∧
    (headerOf fs b!"d/z").isSome = true ∧ (headerOf fs b!"d/x").isSome = false ∧
    shownBlock true fs b!"d" [b!"z"] = b!"z                            <i4 1            3 00033 3 d/z\n" : Bool)) = some true := by
    decide +kernel
  rw [e] at hchk
  have hc := of_decide_eq_true (Option.some.inj hchk)
  obtain ⟨L, w', e', _, _, _, _, hL⟩ := C76_ls exEnv exSort exSort_perm _ exSort_le true b!"d" w nf ht (by decide) (by decide)
    (ht.parent (resolve b!"d/z") (by obtain ⟨_, _, b, hb, _, hbb⟩ := h; have := hbb.dir.dir; rw [hb] at this; rw [this]; rfl) (by decide) ▸ rfl)
    (exAllReadable ht hc.1) (by
      intro _ ds hd hv hh
      have hn := headerOf_node ht (base := b!"d") (by decide) ⟨hv, by rw [hh]; rfl⟩
      have := hc.2.1 _ (ht.dom _ (by rw [hn]; rfl))
      rw [show (resolve b!"d" ++ ds).drop 1 = ds from rfl, hh] at this
      simpa using this)
  have hv : Visible [b!"z"] := ⟨by decide, by
    intro c hc
    rw [List.mem_singleton] at hc
    subst hc
    exact ⟨by decide, by decide, by decide⟩, by decide⟩
  refine ⟨w, L, w', e, e', (hL _).mpr ⟨hv, hc.2.2.1⟩, ?_, hc.2.2.2.2⟩
  intro h'
  have h1 := ((hL _).mp h').2
  have h2 := hc.2.2.2.1
  rw [show pathJoin b!"d" (joinNames [b!"x"]) = b!"d/x" from rfl, h2] at h1
  cases h1

/-- The block is as long as its files, and these have the sums in the header. -/
def exChecked (fs : FS) : Bool :=
  match headerOf fs b!"d/z" with
  | none => false
  | some hd => ((List.range hd.fsize.length).all fun f =>
      (fs.bytes (fileKey b!"d/z" (.data f))).length == hd.fsize.getD f 0 * (exKind.w * exKind.nm)) &&
    ((List.range 3).all fun f => hd.cks.getD f 0 == byteSum (fs.bytes (fileKey b!"d/z" (.data f))) % 4294967296) &&
    (fs.bytes (fileKey b!"d/z" (.data 2)) == [12, 0, 0, 0])

/-- The example of `C77_accepts` and `C77_detects`. -/
example : ∃ w w', exCheckSrc exTreeWorld = .ok 0 w ∧ checkBlock exEnv exSort b!"d" b!"z" 500 exMem w = .ok [] w' ∧
    (∀ (new : Byte), new ≠ 12 → ∀ w2 : World, w2.faults = noFaults → TreeOk w2.fs →
      (∀ k, k ≠ fileKey b!"d/z" (.data 2) → w2.fs.node k = w.fs.node k) →
      w2.fs.node (fileKey b!"d/z" (.data 2)) = some (.file [new, 0, 0, 0]) →
      ∃ text w3, checkBlock exEnv exSort b!"d" b!"z" 500 exMem w2 = .ok text w3 ∧ text ≠ []) := by
  obtain ⟨w, e, nf, ht, h⟩ := exCheck_src
  have hc := exCheck_checkable h (by decide +kernel) (by decide +kernel)
  have hchk : (exCheckSrc exTreeWorld).fs?.map exChecked = some true := by decide +kernel
  rw [e] at hchk
  have hk : exChecked w.fs = true := Option.some.inj hchk
  unfold exChecked at hk
  cases hh : headerOf w.fs b!"d/z" with
  | none => simp only [hh] at hk; cases hk
  | some hd =>
    simp only [hh] at hk
    simp only [Bool.and_eq_true, List.all_eq_true, List.mem_range, beq_iff_eq] at hk
    obtain ⟨⟨hk1, hk2⟩, hk3⟩ := hk
    have hn : exCheckA.nfile = 3 := rfl
    have hex : ExactFiles exKind w.fs b!"d/z" hd := by
      intro f hf
      have := hk1 f hf
      rw [List.getD_eq_getElem?_getD, List.getElem?_eq_getElem hf] at this
      exact this
    obtain ⟨w', e', _⟩ := C77_accepts exEnv exSort exKind exCheckA b!"d" b!"z" 500 exMem w nf ht (by decide) (by decide) (by unfold Clean; decide) hc hd hh hex
      (by rw [hn]; exact hk2)
    refine ⟨w, w', e, e', ?_⟩
    intro new hne w2 nf2 ht2 h1 h2
    obtain ⟨x, y, w3, _, e3, h3⟩ := C77_detects exEnv exSort exKind exCheckA b!"d" b!"z" 500 exMem w nf ht (by decide) (by decide) (by unfold Clean; decide) hc hd
      hh hex w' e' 2 0 12 new _ (by rw [hn]; decide) hk3 rfl hne w2 nf2 ht2 h1 h2
    exact ⟨_, w3, e3, h3⟩

/-- The example of `C77_all`: all blocks of a file. -/
example : ∃ w L texts w', exCheckSrc exTreeWorld = .ok 0 w ∧
    checkMain exEnv exSort b!"d" [] 500 exMem w = .ok (List.flatten texts) w' ∧
    List.Forall₂ (Reported exEnv w.fs b!"d") (List.map joinNames L) texts ∧ [b!"z"] ∈ L := by
  obtain ⟨w, e, nf, ht, h⟩ := exCheck_src
  have hc := exCheck_checkable h (by decide +kernel) (by decide +kernel)
  have hchk : (exCheckSrc exTreeWorld).fs?.map (fun fs => ((∀ k ∈ fs.dom, k.take 1 = [b!"d"] → k.drop 1 ≠ [] →
    exReadable fs (pathJoin b!"d" (joinNames (k.drop 1))) = true ∧ (pathJoin b!"d" (joinNames (k.drop 1))).length ≤ 8192) ∧
    (∀ k ∈ fs.dom, (headerOf fs (pathJoin b!"d" (joinNames (k.drop 1)))).isSome = true → k.drop 1 = [b!"z"]) ∧
    (headerOf fs b!"d/z").isSome = true ∧ (fs.node (resolve b!"d")).isSome = true : Bool)) = some true := by
    decide +kernel
  rw [e] at hchk
  have hk := of_decide_eq_true (Option.some.inj hchk)
  obtain ⟨L, texts, w', e', _, h1, _, h2⟩ := C77_all exEnv exSort exSort_perm b!"d" 500 exMem w nf ht (by decide) (by decide)
    (by unfold Clean; decide) hk.2.2.2 (exAllReadable ht hk.1) (by
      intro ds hds
      have hn := headerOf_node ht (base := b!"d") (by decide) hds
      have := hk.2.1 (resolve b!"d" ++ ds) (ht.dom _ (by rw [hn]; rfl)) hds.2
      rw [show (resolve b!"d" ++ ds).drop 1 = ds from rfl] at this
      subst this
      exact ⟨_, _, hc⟩)
  refine ⟨w, L, texts, w', e, e', h1, (h2 _).mpr ⟨⟨by decide, ?_, by decide⟩, hk.2.2.1⟩⟩
  intro c hc
  rw [List.mem_singleton] at hc
  subst hc
  exact ⟨by decide, by decide, by decide⟩

/-- A row written twice: the block is as the user wanted it, but reported. -/
theorem C77_rewritten : ((do let _ ← exCopySrc; checkBlock exEnv exSort b!"d" b!"z" 500 exMem) exTreeWorld : Res CStr).val? =
    some b!"check sum failed z 54 00066\n" := by decide +kernel

/-- A block whose header was cut short is not reported. -/
theorem C77_torn : (checkBlock exEnv exSort b!"d" b!"x" 500 exMem exTreeWorld : Res CStr).val? = some [] := by decide +kernel

end Verif
