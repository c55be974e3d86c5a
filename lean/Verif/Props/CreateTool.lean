import Verif.Proof.CreateTool
/-!
# C74: `bigfile-create`
-/

set_option autoImplicit false

namespace Verif

open Spec

variable {env : Env} {K : Kind} {w : World}

/-- What is on disk after making a block of one file, depends on the number of rows only in the header. -/
theorem createBlock_any {bf name dt : CStr} {nmemb : Int} (hnf : w.faults = noFaults) (hbf : bf ≠ [])
    (hdirbf : w.fs.node (resolve bf) = some .dir)
    (hlen : (pathJoin bf name).length ≤ 8192) (hmeta : isMeta (pathJoin bf name) = false) (hblank : hasBlank (pathJoin bf name) = false)
    (hroom : Room w.fs (pathJoin bf name)) :
    ∃ w1 : World, DirOk w1.fs (pathJoin bf name) ∧ ∀ n, ∃ w', createBlock env bf name (some dt) nmemb [n] w =
      .ok (0, some (freshBlock env (pathJoin bf name) dt nmemb [n])) w' ∧
      w'.fs = createFS env (pathJoin bf name) dt nmemb [n] w1.fs ∧ w'.faults = noFaults := by
  have hbk : baseKey bf name = resolve bf := by unfold baseKey; rw [if_neg hbf]
  have hres := resolve_join bf name hbf
  have hclear : ClearWay w.fs bf name := by
    refine ⟨by rw [hbk]; exact hdirbf, ?_⟩
    intro t d hp hn
    rw [hbk] at hn
    refine hroom.way (resolve bf ++ t) ?_ ⟨d, hn⟩
    obtain ⟨u, hu⟩ := hp
    exact ⟨u, by rw [List.append_assoc, hu, hres]⟩
  obtain ⟨rc, w1, e1, h1, _, _, h4⟩ := wpc_returns (mksubdirR_spec bf name w (pathJoin_length hlen) (Or.inr hbf)) (fun _ h => h.1 hnf)
  obtain ⟨rfl, h5⟩ := h4 hnf hclear
  rw [hbk, ← hres] at h5
  have hid : ∀ id, w1.fs.node (fileKey (pathJoin bf name) id) ≠ some .dir := by
    intro id hd
    by_cases he : w1.fs.node (fileKey (pathJoin bf name) id) = w.fs.node (fileKey (pathJoin bf name) id)
    · exact hroom.files id (he ▸ hd)
    · obtain ⟨t, ht, hk⟩ := h1.where_ _ he
      rw [hbk, fileKey_eq, hres] at hk
      have h2 := congrArg List.length hk
      have h3 := ht.length_le
      simp at h2
      omega
  have hdok : DirOk w1.fs (pathJoin bf name) := ⟨h5, hid _, hid _⟩
  refine ⟨w1, hdok, fun n => ?_⟩
  obtain ⟨r, w2, e2, f2, _, h6, h7⟩ := wpc_returns (wpc_blockCreate (env := env) (dt := dt) (nmemb := nmemb) (fsize := [n]) (w := w1) hlen hmeta)
    (fun _ h => h.1 (h1.faults.trans hnf))
  have h8 := h7 (h1.faults.trans hnf) hdok hblank (fun f _ => hid _)
  rcases h6 with h6 | ⟨h6, _, h9⟩
  · rw [h6] at h8; exact absurd h8 (by decide)
  · subst h6
    refine ⟨w2, ?_, h9 (by rw [h1.faults, hnf]; intro i n; simp [noFaults]), f2.trans (h1.faults.trans hnf)⟩
    unfold createBlock
    show M.bind _ _ w = _
    unfold M.bind
    rw [e1]
    exact e2

/-- The header aside, the number of rows does not matter. -/
theorem createFS_any (base dt : CStr) (nmemb : Int) (m n : Nat) (fs : FS) (k : Key) (hk : k ≠ fileKey base .header) :
    (createFS env base dt nmemb [m] fs).node k = (createFS env base dt nmemb [n] fs).node k := by
  unfold createFS
  show (truncFS base 0 1 _).node k = (truncFS base 0 1 _).node k
  by_cases h0 : k = fileKey base (.data 0)
  · subst h0
    rw [truncFS_data _ _ _ _ 0 (by omega) (by omega), truncFS_data _ _ _ _ 0 (by omega) (by omega)]
  · have hne : ∀ f, 0 ≤ f → f < 0 + 1 → k ≠ fileKey base (.data f) := by
      intro f _ hf
      have : f = 0 := by omega
      rw [this]
      exact h0
    rw [truncFS_other _ _ _ _ _ hne, truncFS_other _ _ _ _ _ hne]
    by_cases h2 : k = fileKey base .attrV2
    · subst h2
      unfold flushFS
      simp [newBlock, FS.set]
    · rw [flushFS_other _ _ _ k hk h2, flushFS_other _ _ _ k hk h2]

theorem createFS_header (base dt : CStr) (nmemb : Int) (n : Nat) (fs : FS) :
    (createFS env base dt nmemb [n] fs).node (fileKey base .header) = some (.file (headerText (newBlock env base dt nmemb [n]))) := by
  rw [createFS_node _ (by simp)]
  unfold flushFS
  have : fileKey base .header ≠ fileKey base .attrV2 := fileKey_ne (by simp)
  simp [newBlock, FS.set, this]

/-- A handle that is going to store its header does not need it on disk. -/
theorem Spec.Holds.marked {fs fs' : FS} {bb : Block} {A : Content} (h : Holds env K bb fs A)
    (hk : ∀ k, k ≠ fileKey bb.basename .header → fs'.node k = fs.node k) (hh : fs'.node (fileKey bb.basename .header) ≠ some .dir) :
    Holds env K { bb with dirty := true } fs' A := by
  have hf : ∀ id, id ≠ .header → fs'.node (fileKey bb.basename id) = fs.node (fileKey bb.basename id) :=
    fun id hid => hk _ (fileKey_ne hid)
  have hl : Layout { bb with dirty := true } :=
    ⟨h.ok.layout.nfile, h.ok.layout.nck, h.ok.layout.foff, h.ok.layout.size, h.ok.layout.small, h.ok.layout.ck32⟩
  refine ⟨⟨hl, h.ok.item, h.ok.item0, h.ok.memb, h.ok.memb0, h.ok.felInt, h.ok.buf, h.ok.bufMax, h.ok.offs⟩, h.kind, h.size, h.nfile,
    ⟨h.savable.fmt, ?_, h.savable.offsets, h.savable.size, h.savable.attrs, h.savable.storable, h.savable.base, h.savable.notMeta⟩,
    h.attrs, h.pending, h.tame, ?_, ?_, ?_, ?_, ?_, ?_, ?_⟩
  · have := h.savable.header
    exact ⟨this.dt, this.nmemb0, this.nmembMax, this.nfile, this.nck, this.nfileMax, this.sizes, this.cks⟩
  · intro hp
    obtain ⟨s1, s2, k1, k2, k3, k4⟩ := h.saved hp
    exact ⟨s1, s2, by rw [readsV1_congr (hf .attr (by simp))]; exact k1, by rw [readsV2_congr (hf .attrV2 (by simp))]; exact k2, k3, k4⟩
  · intro hd; cases hd
  · exact ⟨(hk _ (resolve_ne_fileKey _ _)).trans h.dir.dir, hh, by
      show fs'.node (fileKey bb.basename .attrV2) ≠ _
      rw [hf _ (by simp)]; exact h.dir.attr⟩
  · show fs'.node (fileKey bb.basename .attr) = none
    rw [hf _ (by simp)]; exact h.noOld
  · intro f
    show fs'.node (fileKey bb.basename (.data f)) ≠ _
    rw [hf _ (by simp)]; exact h.noDirs f
  · intro f hl
    unfold IsFile
    show ∃ d, fs'.node (fileKey bb.basename (.data f)) = _
    rw [hf _ (by simp)]
    exact h.data f hl
  · intro r bytes hr
    obtain ⟨g1, g2, g3⟩ := h.rows r bytes hr
    have hrow : row env.m fs' { bb with dirty := true } r = row env.m fs bb r := by
      unfold row
      show ((fs'.bytes (fileKey bb.basename (.data _))).drop _).take _ = _
      rw [bytes_congr (hf _ (by simp))]
      rfl
    exact ⟨g1, hrow.trans g2, by unfold Stored; rw [hrow]; exact g3⟩

theorem blockClose_foffset (b : Block) (l : List Nat) (w : World) : blockClose env { b with foffset := l } w = blockClose env b w := by
  unfold blockClose blockFlush flushHeader
  simp only [bind, M.bind, pure, M.pure]
  have htxt : headerText { b with foffset := l } = headerText b := rfl
  rw [htxt]
  cases hd : b.dirty with
  | true =>
    simp only [if_true, M.bind]
    cases openAFile b.basename .header .w w with
    | ok x w1 =>
      cases x with
      | true =>
        simp only [if_true, M.bind]
        cases writeText (filePath b.basename .header) (headerText b) w1 with
        | ok y w2 =>
          cases y with
          | true =>
            simp only [if_true, Bool.not_true, Bool.false_eq_true, if_false, M.pure]
            cases b.attrset.dirty with
            | true =>
              simp only [if_true, M.bind]
              cases writeAttrsV2 env b.attrset b.basename w2 with
              | ok z w3 =>
                dsimp only
                by_cases hz : z.1 ≠ 0
                · rw [if_pos hz, if_pos hz]; rfl
                · rw [if_neg hz, if_neg hz]; rfl
              | _ => rfl
            | false => rfl
          | false => rfl
        | _ => rfl
      | false => rfl
    | _ => rfl
  | false =>
    simp only [Bool.false_eq_true, if_false, M.pure, Bool.not_true]
    cases b.attrset.dirty with
    | true =>
      simp only [if_true, M.bind]
      cases writeAttrsV2 env b.attrset b.basename w with
      | ok z w3 =>
        dsimp only
        by_cases hz : z.1 ≠ 0
        · rw [if_pos hz, if_pos hz]; rfl
        · rw [if_neg hz, if_neg hz]; rfl
      | _ => rfl
    | false => rfl

/-- What the program has done when it comes to the loop; the block will have `R` rows. -/
theorem create_start {file block dtype : CStr} {wd nm : Nat} (h : CreateOk env file block dtype wd nm w) (R : Nat)
    (hRm : R * (wd * nm) < 9223372036854775808) :
    ∃ w2 wh s0, (∀ buffersize buf input mem, createMain env file block dtype nm buffersize buf input mem w =
        (do
          let (bb, offset) ← createLoop env (wd * nm) (buffersize / (wd * nm)) buf (input.length + 2) { sized sizeMax s0 with dirty := false } none 0 input mem
          let _ ← blockClose env { bb with size := offset, fsize := bb.fsize.set 0 offset }
          pure .done : M Exit) wh) ∧
      w2.faults = Verif.noFaults ∧ Room w2.fs (pathJoin file block) ∧
      createBlock env file block (some dtype) nm [sizeMax] w2 = .ok (0, some { sized sizeMax s0 with dirty := false }) wh ∧
      OneFile R s0 ∧ s0.basename = pathJoin file block ∧ s0.attrset.dirty = false ∧ wh.faults = Verif.noFaults ∧
      Holds env ⟨dtypeNormalize env.m dtype, wd, nm⟩ s0 wh.fs (Content.fresh [R]) ∧
      ∀ k, wh.fs.node k ≠ w.fs.node k → (∃ id, k = fileKey (pathJoin file block) id) ∨
        (k <+: resolve (pathJoin file block) ∧ w.fs.node k = none ∧ wh.fs.node k = some .dir) := by
  obtain ⟨hnf, hfmt, ht, hf, hfl, hroom, hlen, hmeta, hblank, hdt, hwd, hwd0, hnm0, hrow, hchunk, hchunkm⟩ := h
  have hres := resolve_join file block hf
  have hpre : ∀ k, k <+: resolve file → k <+: resolve (pathJoin file block) := by
    intro k hk
    rw [hres]
    exact hk.trans (List.prefix_append _ _)
  have hkeynot : ∀ id, ¬ fileKey (pathJoin file block) id <+: resolve (pathJoin file block) := by
    intro id hc
    have := hc.length_le
    rw [fileKey_eq] at this
    simp at this
    omega
  obtain ⟨w2, e2, nf2, t2, d2, c2⟩ := bigFileCreate_makes hnf ht hf hfl (fun k hk => hroom.way k (hpre k hk))
  have same2 : ∀ id, w2.fs.node (fileKey (pathJoin file block) id) = w.fs.node (fileKey (pathJoin file block) id) := by
    intro id
    by_cases he : w2.fs.node (fileKey (pathJoin file block) id) = w.fs.node (fileKey (pathJoin file block) id)
    · exact he
    · exact absurd (hpre _ (c2 _ he).1) (hkeynot id)
  have room2 : Room w2.fs (pathJoin file block) := by
    refine ⟨?_, fun id => by rw [same2]; exact hroom.files id, by rw [same2]; exact hroom.noOld⟩
    intro k hk hfile
    by_cases he : w2.fs.node k = w.fs.node k
    · apply hroom.way k hk
      unfold IsFile at hfile ⊢
      rw [← he]
      exact hfile
    · obtain ⟨d, hd⟩ := hfile
      rw [(c2 k he).2.2] at hd
      cases hd
  obtain ⟨wm, dm, hany⟩ := createBlock_any (env := env) (dt := dtype) (nmemb := (nm : Int)) nf2 hf d2 hlen hmeta hblank room2
  have hrb0 : 0 < wd * nm := Nat.mul_pos hwd0 hnm0
  have hR63 : R ≤ R * (wd * nm) := Nat.le_mul_of_pos_right R hrb0
  obtain ⟨wr, er, fr, nfr⟩ := hany R
  obtain ⟨wh, eh, fh, nfh⟩ := hany sizeMax
  obtain ⟨hr, _⟩ := fresh_holds hfmt nf2 hlen hmeta (hdt.normalize env.m) (by rw [itemsize_normalize]; exact hwd) hwd0 rfl hnm0 hrow
    hchunk hchunkm (by simp) (by simp; omega) (by simp; omega) er
    (fun d hd => room2.way _ (List.prefix_refl _) ⟨d, hd⟩) room2.noOld (fun f => room2.files _)
  rw [normalize_idem] at hr
  have hbase : (freshBlock env (pathJoin file block) dtype (nm : Int) [R]).basename = pathJoin file block := rfl
  have hr' := hr.marked (fs' := wh.fs) (by
      rw [hbase, fr, fh]
      exact fun k hk => createFS_any _ _ _ _ _ _ _ hk)
    (by rw [hbase, fh, createFS_header]; simp)
  have hu : ∀ n, n < 18446744073709551616 → runningSums 0 [n] = [0, n] := by
    intro n hn
    show [0, u64 ((0 + n : Nat) : Int)] = _
    rw [u64_of_nat (by omega), Nat.zero_add]
  obtain ⟨⟨t4, l4⟩, c4, _⟩ := wlp_ok (createBlock_out env file block (some dtype) (nm : Int) [sizeMax] w2 t2 hf hlen) eh
  have c4' : ∀ k, wh.fs.node k ≠ w2.fs.node k → (∃ id, k = fileKey (pathJoin file block) id) ∨
      k <+: resolve (pathJoin file block) := by
    intro k hk
    rcases c4 k hk with h | ⟨t, h, hk⟩
    · exact Or.inl h
    · obtain ⟨u, hu⟩ := h
      exact Or.inr ⟨u, by rw [hk, List.append_assoc, hu, hres]⟩
  generalize hs0 : ({ freshBlock env (pathJoin file block) dtype (nm : Int) [R] with dirty := true } : Block) = s0 at hr'
  have hof : OneFile R s0 := by
    subst hs0
    refine ⟨rfl, hu R (by omega), ?_, rfl, rfl⟩
    show (runningSums 0 [R]).getLastD 0 = R
    rw [hu R (by omega)]
    rfl
  have hbb : freshBlock env (pathJoin file block) dtype (nm : Int) [sizeMax] = { sized sizeMax s0 with dirty := false } := by
    subst hs0
    unfold freshBlock newBlock sized
    rw [hu sizeMax (by unfold sizeMax; omega)]
    rfl
  have hb0 : s0.basename = pathJoin file block := by subst hs0; rfl
  have hdt0 : s0.dtype = dtypeNormalize env.m dtype := by subst hs0; rfl
  have hnm1 : s0.nmemb = (nm : Int) := by subst hs0; rfl
  have hat : s0.attrset.dirty = false := by subst hs0; rfl
  clear hs0
  rw [hbb] at eh
  refine ⟨w2, wh, s0, ?_, nf2, room2, eh, hof, hb0, hat, nfh, hr', ?_⟩
  · intro buffersize buf input mem
    have hrow' : ({ sized sizeMax s0 with dirty := false } : Block).nmemb * itemsize env.m ({ sized sizeMax s0 with dirty := false } : Block).dtype = ((wd * nm : Nat) : Int) := by
      show s0.nmemb * itemsize env.m s0.dtype = _
      rw [hnm1, hdt0, itemsize_normalize, hwd, Int.natCast_mul, Int.mul_comm]
    have hfi : fitsInt ((wd * nm : Nat) : Int) = true := by
      unfold fitsInt
      simp only [Bool.and_eq_true, decide_eq_true_eq]
      omega
    have hne : ¬ (((wd * nm : Nat) : Int) = 0) := by omega
    unfold createMain
    simp only [bind, M.bind]
    rw [e2]
    simp only [ne_eq, not_true_eq_false, if_false]
    rw [M.bind, eh]
    dsimp only
    rw [hrow', hfi, u64_of_nat (by omega)]
    simp only [M.bind, Bool.not_true, Bool.false_or, hne, decide_false, Bool.false_eq_true, if_false, M.lift, M.pure]
  · intro k hk
    by_cases h8 : ∃ id, k = fileKey (pathJoin file block) id
    · exact Or.inl h8
    · right
      have hp : k <+: resolve (pathJoin file block) := by
        by_cases h10 : wh.fs.node k = w2.fs.node k
        · rw [h10] at hk
          exact hpre k (c2 k hk).1
        · rcases c4' k h10 with h11 | h11
          · exact absurd h11 h8
          · exact h11
      have hdst : wh.fs.node (resolve (pathJoin file block)) = some .dir := by rw [← hb0]; exact hr'.dir.dir
      have hd : wh.fs.node k = some .dir := by
        by_cases h10 : k = resolve (pathJoin file block)
        · rw [h10]; exact hdst
        · exact prefix_dir_of t4 (by rw [hdst]; rfl) hp h10
      refine ⟨hp, ?_, hd⟩
      rw [hd] at hk
      cases h10 : w.fs.node k with
      | none => rfl
      | some n =>
        cases n with
        | dir => exact absurd h10.symm hk
        | file d => exact absurd ⟨d, h10⟩ (hroom.way k hp)

/-- **C74** (partial: the input has at least one complete row and fewer than 2^63 bytes, a row fits into the buffer, and no files of an
older block are in the way). `bigfile-create` makes a block of one file with the complete rows of its input, and touches nothing
else. -/
theorem C74_create_partial (env : Env) (file block dtype : CStr) (wd nm buffersize : Nat) (buf : Int) (input : List Byte) (mem : Mem)
    (w : World) (hok : CreateOk env file block dtype wd nm w)
    (hbuf : wd * nm ≤ buffersize) (hone : wd * nm ≤ input.length) (hin : input.length < 9223372036854775808) :
    ∃ w', createMain env file block dtype nm buffersize buf input mem w = .ok .done w' ∧
      OnDisk env ⟨dtypeNormalize env.m dtype, wd, nm⟩ w'.fs (pathJoin file block) (streamContent input (wd * nm)) ∧
      ∀ k, w'.fs.node k ≠ w.fs.node k → (∃ id, k = fileKey (pathJoin file block) id) ∨
        (k <+: resolve (pathJoin file block) ∧ w.fs.node k = none ∧ w'.fs.node k = some .dir) := by
  have hrb0 : 0 < wd * nm := Nat.mul_pos hok.item0 hok.memb0
  generalize hR : input.length / (wd * nm) = R
  have hR0 : 0 < R := by rw [← hR]; exact Nat.div_pos hone hrb0
  have hRle : R * (wd * nm) ≤ input.length := by rw [← hR]; exact Nat.div_mul_le_self _ _
  have hR63 : R ≤ R * (wd * nm) := Nat.le_mul_of_pos_right R hrb0
  obtain ⟨_, wh, s0, hmain, _, _, _, hof, hb0, _, nfh, hr', hwhere⟩ := create_start hok R (by omega)
  obtain ⟨s', w5, e5, hof5, hb5, nf5, ho5, h5⟩ := createLoop_spec (env := env) (K := ⟨dtypeNormalize env.m dtype, wd, nm⟩) input (buffersize / (wd * nm)) R sizeMax
    (by unfold sizeMax; omega) (by unfold sizeMax; omega) (Nat.div_pos hbuf hrb0) hR.symm hR0 hin buf (Content.fresh [R]) (by simp [Content.fresh])
    (input.length + 2) s0 false none 0 mem wh (by omega) (by omega) (by omega) hof nfh (by
      refine Eq.mp ?_ hr'
      congr 1)
  obtain ⟨w6, e6, nf6, ho6, h6⟩ := h5.closes nf5
  rw [hb5, hb0] at ho6 h6
  rw [hb0] at ho5
  have hclose : blockClose env { sized sizeMax s' with size := R, fsize := (sized sizeMax s').fsize.set 0 R } w5 = .ok 0 w6 := by
    rw [← e6, ← blockClose_foffset s' [0, sizeMax]]
    congr 1
    have h1 := hof5.fsize
    have h2 := hof5.size
    cases s'
    simp only at h1 h2
    subst h1 h2
    rfl
  refine ⟨w6, ?_, ?_, ?_⟩
  · rw [Nat.zero_mul, List.drop_zero] at e5
    rw [hmain]
    simp only [bind, M.bind]
    rw [e5]
    dsimp only
    rw [hclose]
    rfl
  · refine Eq.mp ?_ h6
    congr 1
    unfold streamContent Content.closed upTo Content.fresh
    rw [hR]
    simp
  · intro k hk
    by_cases h8 : ∃ id, k = fileKey (pathJoin file block) id
    · exact Or.inl h8
    · have h9 : w6.fs.node k = wh.fs.node k := (ho5.trans ho6) k (fun id he => h8 ⟨id, he⟩)
      rw [h9] at hk ⊢
      exact hwhere k hk

/-- One round that reads no complete row. -/
theorem createLoop_idle {s : Block} {A : Content} {R : Nat} (hs : Holds env K s w.fs A) (hof : OneFile R s) (chunk : Nat) (buf : Int) (fuel : Nat) (ptr : Option Ptr)
    (input : List Byte) (mem : Mem) (h0 : (freadIn (K.w * K.nm) chunk input).nread = 0) :
    createLoop env (K.w * K.nm) chunk buf (fuel + 1) { sized sizeMax s with dirty := false } ptr 0 input mem w =
      (if (freadIn (K.w * K.nm) chunk input).eof then .ok ({ sized sizeMax s with dirty := false }, 0) w
        else createLoop env (K.w * K.nm) chunk buf fuel { sized sizeMax s with dirty := false } (some ⟨0, 0, 0⟩) 0
          (freadIn (K.w * K.nm) chunk input).rest (poke mem buf (freadIn (K.w * K.nm) chunk input).bytes) w) := by
  have hseek : seek { sized sizeMax s with dirty := false } (ptr.getD ⟨0, 0, 0⟩) ((0 : Nat) : Int) = some (0, ⟨0, (0 : Nat), (0 : Nat)⟩) :=
    seek_sized sizeMax 0 { s with dirty := false } _ hof.nfile (by unfold sizeMax; omega) (by omega) (by omega)
  have hinit : arrayInit env.m buf ({ sized sizeMax s with dirty := false } : Block).dtype [0, u64 ({ sized sizeMax s with dirty := false } : Block).nmemb] none =
      some (freshArr env.m s.dtype 0 K.nm K.w buf) :=
    hs.ok.freshInit s.dtype 0 K.w buf hs.ok.item hs.ok.item0 (by omega)
  rw [createLoop]
  rw [h0, hinit, hseek, M.lift_some_bind, M.lift_some_bind]
  simp only [ne_eq, not_true_eq_false, false_and, if_false]
  have hw : blockWrite env { sized sizeMax s with dirty := false } ⟨0, (0 : Nat), (0 : Nat)⟩ (freshArr env.m s.dtype 0 K.nm K.w buf)
      (poke mem buf (freadIn (K.w * K.nm) chunk input).bytes) w = .ok ⟨0, { sized sizeMax s with dirty := false }, ⟨0, (0 : Nat), (0 : Nat)⟩,
        poke mem buf (freadIn (K.w * K.nm) chunk input).bytes⟩ w := by
    unfold blockWrite blockWriteFuel
    rw [if_pos (by simp [freshArr])]
    rfl
  show (M.bind (blockWrite env _ _ _ _) _) w = _
  unfold M.bind
  rw [hw]
  dsimp only
  split <;> rfl

/-- **C74, short input**: when the input has no complete row, `bigfile-create` succeeds and leaves a block that claims to have
2^64-1 rows. -/
theorem C74_empty (env : Env) (file block dtype : CStr) (wd nm buffersize : Nat) (buf : Int) (input : List Byte) (mem : Mem)
    (w : World) (hok : CreateOk env file block dtype wd nm w) (hbuf : wd * nm ≤ buffersize) (hone : input.length < wd * nm) :
    ∃ w', createMain env file block dtype nm buffersize buf input mem w = .ok .done w' ∧
      ∃ b w2, openBlock env file block w' = .ok (0, some b) w2 ∧ b.fsize = [18446744073709551615] := by
  have hrb0 : 0 < wd * nm := Nat.mul_pos hok.item0 hok.memb0
  have hrow := hok.row
  obtain ⟨w2, wh, s0, hmain, nf2, room2, eh, hof, hb0, hat, nfh, hr', _⟩ := create_start hok 1 (by omega)
  have hch : 0 < buffersize / (wd * nm) := Nat.div_pos hbuf hrb0
  have hlt : input.length < wd * nm * (buffersize / (wd * nm)) := by
    have := Nat.le_mul_of_pos_right (wd * nm) hch
    omega
  have hl := createLoop_idle (K := ⟨dtypeNormalize env.m dtype, wd, nm⟩) hr' hof (buffersize / (wd * nm)) buf (input.length + 1) none input mem (by
    show (input.take (wd * nm * (buffersize / (wd * nm)))).length / (wd * nm) = 0
    apply Nat.div_eq_of_lt
    rw [List.length_take]
    omega)
  rw [if_pos (by show decide (input.length < wd * nm * (buffersize / (wd * nm))) = true; simpa using hlt)] at hl
  refine ⟨wh, ?_, ?_⟩
  · rw [hmain]
    simp only [bind, M.bind]
    rw [show createLoop env (wd * nm) (buffersize / (wd * nm)) buf (input.length + 2) _ none 0 input mem wh = _ from hl]
    dsimp only
    have hcl : blockClose env { sized sizeMax s0 with size := 0, fsize := (sized sizeMax s0).fsize.set 0 0, dirty := false } wh = .ok 0 wh :=
      blockClose_clean rfl hat
    rw [hcl]
    rfl
  · obtain ⟨b2, w3, e3, _, _, _, _, h3, _⟩ := C12_create_open_partial env file block dtype nm [sizeMax] w2 wh _
      (by rw [nf2]; intro i n; simp [noFaults]) hok.len hok.notMeta (hok.plain.normalize env.m)
      ⟨by omega, by have := Nat.le_mul_of_pos_left nm hok.item0; omega⟩ (by simp) (by simp [sizeMax])
      (by
        refine ⟨{ attrsetCreate env with dirty := false }, ?_, [], (attrsetCreate_inv env).dirty false⟩
        unfold readsV1 FS.bytes
        rw [room2.noOld]
        rfl) eh
    have : ({ wh with faults := noFaults } : World) = wh := by rw [← nfh]
    rw [this] at e3
    exact ⟨b2, w3, e3, h3⟩

theorem createLoop_forever {s : Block} {A : Content} {R : Nat} (hs : Holds env K s w.fs A) (hof : OneFile R s) (buf : Int) (input : List Byte) :
    ∀ (fuel : Nat) (ptr : Option Ptr) (mem : Mem),
    createLoop env (K.w * K.nm) 0 buf fuel { sized sizeMax s with dirty := false } ptr 0 input mem w = .hang := by
  intro fuel
  induction fuel with
  | zero => intros; rfl
  | succ fuel ih =>
    intro ptr mem
    rw [createLoop_idle hs hof 0 buf fuel ptr input mem (by simp [freadIn])]
    rw [if_neg (by simp [freadIn])]
    have : (freadIn (K.w * K.nm) 0 input).rest = input := by simp [freadIn]
    rw [this]
    exact ih _ _

/-- **C74, small buffer**: with a buffer smaller than a row the program does not end: no number of rounds is enough. -/
theorem C74_small_buffer (env : Env) (file block dtype : CStr) (wd nm buffersize : Nat) (buf : Int) (input : List Byte) (mem : Mem)
    (w : World) (hok : CreateOk env file block dtype wd nm w) (hbuf : buffersize < wd * nm) :
    createMain env file block dtype nm buffersize buf input mem w = .hang ∧
    ∃ s wh, ∀ fuel, createLoop env (wd * nm) (buffersize / (wd * nm)) buf fuel s none 0 input mem wh = .hang := by
  have hrow := hok.row
  obtain ⟨w2, wh, s0, hmain, nf2, room2, eh, hof, hb0, hat, nfh, hr', _⟩ := create_start hok 1 (by omega)
  have hl := fun fuel => createLoop_forever (K := ⟨dtypeNormalize env.m dtype, wd, nm⟩) hr' hof buf input fuel none mem
  rw [hmain, Nat.div_eq_of_lt hbuf]
  refine ⟨?_, _, wh, hl⟩
  simp only [bind, M.bind]
  rw [show createLoop env (wd * nm) 0 buf (input.length + 2) _ none 0 input mem wh = _ from hl _]

/-! ### The example -/

theorem exCreate_ok : CreateOk exEnv b!"e" b!"s" b!"<i4" 4 2 exTreeWorld :=
  ⟨rfl, exFmt, exTree_ok, by decide, by decide, Room.of_absent exTree_ok (by decide) (by decide), by decide, by decide, by decide,
    ⟨by decide, by decide, by decide, by decide⟩, by decide, by decide, by decide, by decide, by decide, by decide⟩

/-- Twenty-one bytes. -/
def exStream : List Byte := (List.range 21).map (fun i => UInt8.ofNat i)

/-- Two rows of eight bytes in rounds of one; the last five bytes are dropped. -/
example : ∃ w', createMain exEnv b!"e" b!"s" b!"<i4" 2 9 500 exStream exMem exTreeWorld = .ok .done w' ∧
    OnDisk exEnv ⟨b!"<i4", 4, 2⟩ w'.fs b!"e/s" (streamContent exStream 8) ∧ (streamContent exStream 8).size = 2 ∧
    (streamContent exStream 8).rows 1 = some [8, 9, 10, 11, 12, 13, 14, 15] := by
  obtain ⟨w', h1, h2, _⟩ := C74_create_partial exEnv b!"e" b!"s" b!"<i4" 4 2 9 500 exStream exMem exTreeWorld exCreate_ok
    (by decide) (by decide) (by decide)
  exact ⟨w', h1, h2, by decide, by decide⟩

example : ∃ w', createMain exEnv b!"e" b!"s" b!"<i4" 2 9 500 [1, 2, 3] exMem exTreeWorld = .ok .done w' ∧
    ∃ b w2, openBlock exEnv b!"e" b!"s" w' = .ok (0, some b) w2 ∧ b.fsize = [18446744073709551615] :=
  C74_empty exEnv b!"e" b!"s" b!"<i4" 4 2 9 500 [1, 2, 3] exMem exTreeWorld exCreate_ok (by decide) (by decide)

example : createMain exEnv b!"e" b!"s" b!"<i4" 2 7 500 exStream exMem exTreeWorld = .hang :=
  (C74_small_buffer exEnv b!"e" b!"s" b!"<i4" 4 2 7 500 exStream exMem exTreeWorld exCreate_ok (by decide)).1

/-- Failures go unnoticed: the second row cannot be written (operation 9), yet the program ends as if all was well, and the
block has two rows of which one is not in its file. If the header cannot be opened at the end (operation 11), the program ends
as if all was well, too, and the block claims 2^64-1 rows. -/
theorem C74_unnoticed :
    (∃ w', createMain exEnv b!"e" b!"s" b!"<i4" 2 9 500 exStream exMem { exTreeWorld with faults := fun i => if i = 9 then .fail else .none } = .ok .done w' ∧
      w'.fs.bytes (fileKey b!"e/s" .header) = b!"DTYPE: <i4\nNMEMB: 2\nNFILE: 1\n000000: 2 : 120 : 120\n" ∧
      w'.fs.bytes (fileKey b!"e/s" (.data 0)) = [0, 1, 2, 3, 4, 5, 6, 7]) ∧
    (∃ w', createMain exEnv b!"e" b!"s" b!"<i4" 2 9 500 exStream exMem { exTreeWorld with faults := fun i => if i = 11 then .fail else .none } = .ok .done w' ∧
      w'.fs.bytes (fileKey b!"e/s" .header) = b!"DTYPE: <i4\nNMEMB: 2\nNFILE: 1\n000000: -1 : 0 : 0\n") := by
  constructor
  · have h : (match createMain exEnv b!"e" b!"s" b!"<i4" 2 9 500 exStream exMem { exTreeWorld with faults := fun i => if i = 9 then .fail else .none } with
      | .ok .done w' => (w'.fs.bytes (fileKey b!"e/s" .header) = b!"DTYPE: <i4\nNMEMB: 2\nNFILE: 1\n000000: 2 : 120 : 120\n" ∧
          w'.fs.bytes (fileKey b!"e/s" (.data 0)) = [0, 1, 2, 3, 4, 5, 6, 7] : Bool)
      | _ => false) = true := by decide +kernel
    split at h
    · rename_i w' e
      exact ⟨w', e, by simpa using h⟩
    · cases h
  · have h : (match createMain exEnv b!"e" b!"s" b!"<i4" 2 9 500 exStream exMem { exTreeWorld with faults := fun i => if i = 11 then .fail else .none } with
      | .ok .done w' => (w'.fs.bytes (fileKey b!"e/s" .header) = b!"DTYPE: <i4\nNMEMB: 2\nNFILE: 1\n000000: -1 : 0 : 0\n" : Bool)
      | _ => false) = true := by decide +kernel
    split at h
    · rename_i w' e
      exact ⟨w', e, by simpa using h⟩
    · cases h

end Verif
