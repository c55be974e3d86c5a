import Verif.Proof.Object
import Verif.Props.Create
import Verif.Props.MpiBlock
/-!
# C56: any history of operations on a block
-/

set_option autoImplicit false

namespace Verif

open Spec

/-- **C56, from any state.** If a handle and its directory hold the content `A`, then any legal history of operations
through the handle (and the handles that reopening gives) is answered as the content prescribes, and at the end
handle and directory hold the content that the history describes. -/
theorem C56_history_partial (env : Env) (K : Kind) (ops : List BOp) : ∀ (bb : Block) (w : World) (A : Content),
    Holds env K bb w.fs A → w.faults = noFaults → A.allLegal env K ops →
    ∃ xs bb' w', runBOps env bb ops w = .ok (xs, bb') w' ∧ A.allAnswered env K ops xs ∧
      Holds env K bb' w'.fs (A.after env K ops) ∧ w'.faults = noFaults ∧ bb'.basename = bb.basename := by
  induction ops with
  | nil => intro bb w A h hnf _; exact ⟨[], bb, w, rfl, trivial, h, hnf, rfl⟩
  | cons op ops ih =>
    intro bb w A h hnf hl
    obtain ⟨x, bb1, w1, e1, d⟩ := bop_step h hnf op hl.1
    obtain ⟨xs, bb2, w2, e2, k1, k2, k3, k4⟩ := ih bb1 w1 _ d.holds d.faults hl.2
    refine ⟨x :: xs, bb2, w2, ?_, ⟨d.ans, k1⟩, k2, k3, k4.trans d.base⟩
    unfold runBOps
    simp only [bind, M.bind, pure, M.pure]
    rw [e1]
    simp only
    rw [e2]

theorem pathJoin_length {p s : CStr} {n : Nat} (h : (pathJoin p s).length ≤ n) : s.length ≤ n := by
  unfold pathJoin at h
  split at h
  · exact h
  · split at h <;> simp at h <;> omega

theorem strdup_short {s : CStr} (h : s.length ≤ 8192) : strdup s = s := by
  unfold strdup; exact List.take_of_length_le h

/-- The directory after a complete creation holds a block without rows. -/
theorem created_holds {env : Env} {base dt : CStr} {nmemb : Int} {fsize : List Nat} {fs1 fs' : FS} {wd nm : Nat}
    (hfmt : FmtOk env) (hlen : base.length ≤ 8192)
    (hmeta : isMeta base = false) (hdt : PlainDtype (dtypeNormalize env.m dt))
    (hit : itemsize env.m (dtypeNormalize env.m dt) = wd) (hwd : 0 < wd) (hnm : nmemb = nm) (hnm0 : 0 < nm)
    (hrow : wd * nm < 2147483648) (hbuf : wd * nm ≤ env.chunkBytes) (hbufm : env.chunkBytes < 18446744073709551616)
    (hn : fsize.length ≤ 16777216) (hs : fsize.sum < 9223372036854775808)
    (hoff : fsize.sum * (wd * nm) < 9223372036854775808)
    (hfs : fs' = createFS env base dt nmemb fsize fs1) (hfd : fs1.node (resolve base) = some .dir)
    (hold : fs1.node (fileKey base .attr) = none) (hnd : ∀ f, fs1.node (fileKey base (.data f)) ≠ some .dir) :
    Holds env ⟨dtypeNormalize env.m (dtypeNormalize env.m dt), wd, nm⟩ (freshBlock env base dt nmemb fsize) fs' (Content.fresh fsize) := by
  have hff := fun k h1 h2 => flushFS_other (newBlock env base dt nmemb fsize) [] fs1 k h1 h2
  have hbn : (newBlock env base dt nmemb fsize).basename = base := rfl
  rw [hbn] at hff
  have hdir' : fs'.node (resolve base) = some .dir := by
    rw [hfs]
    unfold createFS
    rw [truncFS_other _ _ _ _ _ (fun f _ _ => resolve_ne_fileKey _ _),
      hff _ (resolve_ne_fileKey _ _) (resolve_ne_fileKey _ _)]
    exact hfd
  have hold' : fs'.node (fileKey base .attr) = none := by
    rw [hfs, createFS_node _ (by simp), hff _ (fileKey_ne (by simp)) (fileKey_ne (by simp))]
    exact hold
  have hnd' : ∀ f, fs'.node (fileKey base (.data f)) ≠ some .dir := by
    intro f
    rw [hfs]
    unfold createFS
    by_cases hlt : f < fsize.length
    · rw [truncFS_data _ _ _ _ f (Nat.zero_le _) (by omega)]
      simp
    · rw [truncFS_other _ _ _ _ _ (fun f' _ h2 => fileKey_ne (by simp; omega)),
        hff _ (fileKey_ne (by simp)) (fileKey_ne (by simp))]
      exact hnd f
  have hsz : ∀ s ∈ fsize, s < 18446744073709551616 := by
    intro s h; have := mem_le_sum h; omega
  have hl : Layout (freshBlock env base dt nmemb fsize) := freshBlock_layout hs
  have hg : GoodHeader (newBlock env base dt nmemb fsize) :=
    freshBlock_header hdt (by rw [hnm]; exact ⟨by omega, by
      have : nm ≤ wd * nm := Nat.le_mul_of_pos_left _ hwd
      omega⟩) hn hsz
  have hinv : AttrInv env.m { attrsetCreate env with dirty := false } [] := (attrsetCreate_inv env).dirty false
  have hview : attrView env.m (freshBlock env base dt nmemb fsize).attrset = AttrMap.empty := hinv.view_eq
  have htame : Tame env.m AttrMap.empty := by intro name v hv; exact absurd hv (by simp [AttrMap.empty])
  have hv2 : fs'.node (fileKey base .attrV2) = some (.file []) := by
    rw [hfs, createFS_node _ (by simp)]
    exact (flushFS_attr _ _ _).trans (if_pos rfl)
  have hh : fs'.node (fileKey base .header) =
      some (.file (headerText (newBlock env base dt nmemb fsize))) := by
    rw [hfs, createFS_node _ (by simp)]
    exact (flushFS_header _ _ _).trans (if_pos rfl)
  refine ⟨⟨hl, hit, hwd, hnm, hnm0, hrow, hbuf, hbufm, hoff⟩, rfl, ?_, rfl,
    ⟨hfmt, ⟨hg.dt, hg.nmemb0, hg.nmembMax, hg.nfile, hg.nck, hg.nfileMax, hg.sizes, hg.cks⟩, rfl, rfl, ⟨[], hinv⟩,
      by rw [hview]; exact htame.storable, hlen, hmeta⟩, hview, rfl, ⟨htame, fun _ => htame⟩, ?_, ?_, ?_, hold', hnd', ?_, ?_⟩
  · exact hl.size
  · intro _
    refine ⟨{ attrsetCreate env with dirty := false }, { attrsetCreate env with dirty := false }, ?_, ?_, ⟨[], hinv⟩, hview⟩
    · unfold readsV1
      have hb : (freshBlock env base dt nmemb fsize).basename = base := rfl
      rw [hb, hold']
      rfl
    · unfold readsV2 FS.bytes
      have hb : (freshBlock env base dt nmemb fsize).basename = base := rfl
      rw [hb, hv2]
      rfl
  · intro _
    unfold HeaderSays FS.bytes
    show (fs'.node (fileKey base .header)).isSome = true ∧
      parseHeader (match fs'.node (fileKey base .header) with
        | some (.file d) => d | _ => []) = _
    rw [hh]
    exact ⟨rfl, parseHeader_headerText _ hg⟩
  · refine ⟨hdir', ?_, ?_⟩
    · show fs'.node (fileKey base .header) ≠ _
      rw [hh]; simp
    · show fs'.node (fileKey base .attrV2) ≠ _
      rw [hv2]; simp
  · intro f hf
    exact ⟨[], by rw [hfs]; exact truncFS_data _ _ _ _ f (Nat.zero_le _) (by rw [Nat.zero_add]; exact hf)⟩
  · intro r bytes hr
    exact absurd hr (by simp [Content.fresh])

/-- A block that was just created holds nothing, whatever else failed on the way. -/
theorem fresh_holds_may {env : Env} {bf name dt : CStr} {nmemb : Int} {fsize : List Nat} {w w' : World} {b : Block} {wd nm : Nat}
    (hfmt : FmtOk env) (hns : NoSilent w.faults) (hlen : (pathJoin bf name).length ≤ 8192)
    (hmeta : isMeta (pathJoin bf name) = false) (hdt : PlainDtype (dtypeNormalize env.m dt))
    (hit : itemsize env.m (dtypeNormalize env.m dt) = wd) (hwd : 0 < wd) (hnm : nmemb = nm) (hnm0 : 0 < nm)
    (hrow : wd * nm < 2147483648) (hbuf : wd * nm ≤ env.chunkBytes) (hbufm : env.chunkBytes < 18446744073709551616)
    (hn : fsize.length ≤ 16777216) (hs : fsize.sum < 9223372036854775808)
    (hoff : fsize.sum * (wd * nm) < 9223372036854775808)
    (h : createBlock env bf name (some dt) nmemb fsize w = .ok (0, some b) w')
    (hdir : ∀ d, w.fs.node (resolve (pathJoin bf name)) ≠ some (.file d))
    (hold : w.fs.node (fileKey (pathJoin bf name) .attr) = none)
    (hnd : ∀ f, w.fs.node (fileKey (pathJoin bf name) (.data f)) ≠ some .dir) :
    Holds env ⟨dtypeNormalize env.m (dtypeNormalize env.m dt), wd, nm⟩ b w'.fs (Content.fresh fsize) ∧
      w'.faults = w.faults := by
  have key : wpc (createBlock env bf name (some dt) nmemb fsize) w
      (fun r w' => w'.faults = w.faults ∧
        (r = (-1, none) ∨ r = (0, some (freshBlock env (pathJoin bf name) dt nmemb fsize)) ∧
        ∃ fs1, w'.fs = createFS env (pathJoin bf name) dt nmemb fsize fs1 ∧
          fs1.node (resolve (pathJoin bf name)) = some .dir ∧ ∀ id, fs1.node (fileKey (pathJoin bf name) id) =
            w.fs.node (fileKey (pathJoin bf name) id)))
      (fun _ => True) := by
    unfold createBlock
    rw [wpc_bind]
    apply wpc_mono (wpc_mksubdirR_depth bf name w)
    · rintro rc w1 ⟨f1, h1, h2, h5, h6⟩
      rw [strdup_short (pathJoin_length hlen)] at h5 h6
      rcases h2 with rfl | rfl
      · have hd1 : w1.fs.node (resolve (pathJoin bf name)) = some .dir := by
          rcases h1 (resolve (pathJoin bf name)) with h7 | ⟨_, h7⟩
          · have h8 := h5 rfl
            cases h9 : w1.fs.node (resolve (pathJoin bf name)) with
            | none => rw [h9] at h8; cases h8
            | some n =>
              cases n with
              | dir => rfl
              | file d => exact absurd (h7.symm.trans h9) (hdir d)
          · exact h7
        have hid : ∀ id, w1.fs.node (fileKey (pathJoin bf name) id) = w.fs.node (fileKey (pathJoin bf name) id) := by
          intro id
          apply h6
          rw [fileKey_eq]
          simp
        simp only [ne_eq, not_true_eq_false, if_false]
        apply wpc_mono (wpc_blockCreate hlen hmeta)
        · rintro r w2 ⟨f2, _, (h3 | ⟨h3, _, h4⟩), _⟩
          · exact ⟨f2.trans f1, Or.inl h3⟩
          · exact ⟨f2.trans f1, Or.inr ⟨h3, w1.fs, h4 (by rw [f1]; exact hns), hd1, hid⟩⟩
        · intro _ _; trivial
      · simp only [ne_eq, show (-1 : Int) ≠ 0 by decide, not_false_eq_true, if_true]
        rw [wpc_pure]
        exact ⟨f1, Or.inl rfl⟩
    · intro _ _; trivial
  obtain ⟨hf, h0 | ⟨h0, fs1, hfs, hfd, hfid⟩⟩ := wpc_ok key h
  · exact absurd h0 (by simp)
  injection h0 with _ h0
  injection h0 with h0
  subst h0
  refine ⟨?_, hf⟩
  exact created_holds hfmt hlen hmeta hdt hit hwd hnm hnm0 hrow hbuf hbufm hn hs hoff hfs hfd (by rw [hfid]; exact hold)
    (fun f => by rw [hfid]; exact hnd f)

/-- A block that was just created holds nothing. -/
theorem fresh_holds {env : Env} {bf name dt : CStr} {nmemb : Int} {fsize : List Nat} {w w' : World} {b : Block} {wd nm : Nat}
    (hfmt : FmtOk env) (hnf : w.faults = noFaults) (hlen : (pathJoin bf name).length ≤ 8192)
    (hmeta : isMeta (pathJoin bf name) = false) (hdt : PlainDtype (dtypeNormalize env.m dt))
    (hit : itemsize env.m (dtypeNormalize env.m dt) = wd) (hwd : 0 < wd) (hnm : nmemb = nm) (hnm0 : 0 < nm)
    (hrow : wd * nm < 2147483648) (hbuf : wd * nm ≤ env.chunkBytes) (hbufm : env.chunkBytes < 18446744073709551616)
    (hn : fsize.length ≤ 16777216) (hs : fsize.sum < 9223372036854775808)
    (hoff : fsize.sum * (wd * nm) < 9223372036854775808)
    (h : createBlock env bf name (some dt) nmemb fsize w = .ok (0, some b) w')
    (hdir : ∀ d, w.fs.node (resolve (pathJoin bf name)) ≠ some (.file d))
    (hold : w.fs.node (fileKey (pathJoin bf name) .attr) = none)
    (hnd : ∀ f, w.fs.node (fileKey (pathJoin bf name) (.data f)) ≠ some .dir) :
    Holds env ⟨dtypeNormalize env.m (dtypeNormalize env.m dt), wd, nm⟩ b w'.fs (Content.fresh fsize) ∧
      w'.faults = noFaults := by
  obtain ⟨h1, h2⟩ := fresh_holds_may hfmt (by rw [hnf]; intro i n; simp [noFaults]) hlen hmeta hdt hit hwd hnm hnm0 hrow hbuf hbufm hn hs
    hoff h hdir hold hnd
  exact ⟨h1, h2.trans hnf⟩

/-- **C56** (partial: rows must have been written before they are read; all attributes are in machine byte order and can
be represented in the attribute file; at most 16^6 files). Create a block where no old attribute file is,
and run any legal history of writes, reads, growing, attribute operations, flushes and close-and-reopen: every operation
is answered as the array of rows with attributes prescribes. In particular every read returns, converted, the bytes last
written to each of its rows. -/
theorem C56_created_partial (env : Env) (bf name dt : CStr) (nmemb : Int) (fsize : List Nat) (w w' : World) (b : Block)
    (wd nm : Nat) (ops : List BOp)
    (hfmt : FmtOk env) (hnf : w.faults = noFaults) (hlen : (pathJoin bf name).length ≤ 8192)
    (hmeta : isMeta (pathJoin bf name) = false) (hdt : PlainDtype (dtypeNormalize env.m dt))
    (hit : itemsize env.m (dtypeNormalize env.m dt) = wd) (hwd : 0 < wd) (hnm : nmemb = nm) (hnm0 : 0 < nm)
    (hrow : wd * nm < 2147483648) (hbuf : wd * nm ≤ env.chunkBytes) (hbufm : env.chunkBytes < 18446744073709551616)
    (hn : fsize.length ≤ 16777216) (hs : fsize.sum < 9223372036854775808)
    (hoff : fsize.sum * (wd * nm) < 9223372036854775808)
    (h : createBlock env bf name (some dt) nmemb fsize w = .ok (0, some b) w')
    (hdir : ∀ d, w.fs.node (resolve (pathJoin bf name)) ≠ some (.file d))
    (hold : w.fs.node (fileKey (pathJoin bf name) .attr) = none)
    (hnd : ∀ f, w.fs.node (fileKey (pathJoin bf name) (.data f)) ≠ some .dir)
    (hl : (Content.fresh fsize).allLegal env ⟨dtypeNormalize env.m (dtypeNormalize env.m dt), wd, nm⟩ ops) :
    ∃ xs bb' w2, runBOps env b ops w' = .ok (xs, bb') w2 ∧
      (Content.fresh fsize).allAnswered env ⟨dtypeNormalize env.m (dtypeNormalize env.m dt), wd, nm⟩ ops xs := by
  obtain ⟨h1, h2⟩ := fresh_holds hfmt hnf hlen hmeta hdt hit hwd hnm hnm0 hrow hbuf hbufm hn hs hoff h hdir hold hnd
  obtain ⟨xs, bb', w2, e, k, _⟩ := C56_history_partial env _ ops b w' _ h1 h2 hl
  exact ⟨xs, bb', w2, e, k⟩

/-! ### The example -/

/-- Write rows 1 to 3, try to write beyond the end, set an attribute, grow, close and open, read rows 1 to 3 into an array
of the other byte order, flush, remove the attribute, close and open. -/
def exBOps : List BOp :=
  [.write 1 exSrc exMem 8, .write 3 exSrc exMem 8, .attr (.set b!"a" b!"i4" 1 exMem 100), .grow [4], .reopen,
    .read 1 exDst exMem 4, .flush, .attr (.remove b!"a"), .reopen, .attr .list]

def exKind : Kind := ⟨b!"<i4", 4, 1⟩

theorem exSrc_array : ArrayOk exEnv exSrc 8 :=
  ⟨exSrc_ok.arr, by decide, by decide, by decide, by decide, by decide⟩

theorem exDst_array : ArrayOk exEnv exDst 4 :=
  ⟨exDst_ok.arr, by decide, by decide, by decide, by decide, by decide⟩

theorem exTame : Tame exEnv.m (attrNext exEnv.m AttrMap.empty (.set b!"a" b!"i4" 1 exMem 100)) := by
  intro name v h
  simp only [attrNext] at h
  rw [if_neg (by decide)] at h
  simp only [AttrMap.put, AttrMap.empty] at h
  split at h
  · subst name
    injection h with h
    subst h
    exact ⟨⟨by decide, by unfold Clean; decide, by decide, by unfold Clean; decide +kernel, by decide,
      by simp only [peek_length]; decide +kernel⟩, Or.inl (by decide +kernel)⟩
  · exact absurd h (by simp)

theorem exBOps_legal : (Content.fresh [2, 0, 3]).allLegal exEnv exKind exBOps := by
  refine ⟨⟨by decide, exSrc_array, fun h => absurd h (by decide), fun _ => by decide +kernel⟩, ⟨by decide, exSrc_array, fun h => absurd h (by decide), fun h => absurd h (by decide)⟩,
    ⟨⟨by decide, by decide, by decide, by decide⟩, exTame⟩, ⟨by decide, by decide, by decide⟩, trivial,
    ⟨by decide, exDst_array, exDst_disjoint, by decide, fun _ i hi => ?_⟩, trivial, ⟨?_, ?_⟩, trivial, ⟨trivial, ?_⟩, trivial⟩
  · refine ⟨arrayRow exEnv exKind exSrc exMem 8 i, ?_, ?_⟩
    · have : ∀ i < 3, (if 1 ≤ 1 + i ∧ 1 + i < 1 + 3 / 1 then some (arrayRow exEnv exKind exSrc exMem 8 (1 + i - 1)) else none) =
          some (arrayRow exEnv exKind exSrc exMem 8 i) := by
        intro i hi
        rw [if_pos ⟨by omega, by omega⟩, show 1 + i - 1 = i by omega]
      exact this i hi
    · have : ∀ i < 3, ∀ j < 1, (fromBlock exEnv exKind exDst (arrayRow exEnv exKind exSrc exMem 8 i) j).isSome = true := by
        decide +kernel
      exact this i hi
  · show (0 : Byte) ∉ b!"a"; decide
  · intro name v h
    apply exTame name v
    have : (AttrMap.del (attrNext exEnv.m AttrMap.empty (.set b!"a" b!"i4" 1 exMem 100)) b!"a") name = some v := h
    unfold AttrMap.del at this
    split at this
    · cases this
    · exact this
  · exact exTame

example : ∃ b w' xs bb' w2, exCreate = .ok (0, some b) w' ∧ runBOps exEnv b exBOps w' = .ok (xs, bb') w2 ∧
    (Content.fresh [2, 0, 3]).allAnswered exEnv exKind exBOps xs := by
  obtain ⟨rc, b, w', e⟩ : ∃ rc b w', exCreate = .ok (rc, b) w' := by
    have : exCreate.val?.isSome = true := by decide +kernel
    cases h : exCreate with
    | ok r w1 => exact ⟨r.1, r.2, w1, rfl⟩
    | crash _ => rw [h] at this; cases this
    | ub => rw [h] at this; cases this
    | hang => rw [h] at this; cases this
  have hrc : rc = 0 ∧ b.isSome = true := by
    have : exCreate.val?.map (fun r => (r.1, r.2.isSome)) = some (0, true) := by decide +kernel
    rw [e] at this
    have := Option.some.inj this
    injection this with h1 h2
    exact ⟨h1, h2⟩
  obtain ⟨rfl, hb⟩ := hrc
  obtain ⟨b, rfl⟩ := Option.isSome_iff_exists.mp hb
  obtain ⟨xs, bb', w2, e2, h⟩ := C56_created_partial exEnv b!"d" b!"x" b!"i4" 1 [2, 0, 3] exEmpty w' b 4 1 exBOps
    exFmt rfl (by decide) (by decide) exB_good.dt (by decide) (by decide) (by decide) (by decide) (by decide) (by decide)
    (by decide) (by decide) (by decide) (by decide) e (by
      intro d
      have : exEmpty.fs.node (resolve (pathJoin b!"d" b!"x")) = none := by decide
      rw [this]
      simp)
    (by decide) (by
      intro f
      have : fileKey (pathJoin b!"d" b!"x") (.data f) = [b!"d", b!"x", (FileId.data f).name] := by
        rw [fileKey_eq]; rfl
      rw [this]
      simp only [exEmpty, exEmptyFS]
      rw [if_neg (by simp)]
      simp) exBOps_legal
  exact ⟨b, w', xs, bb', w2, e, e2, h⟩

end Verif
