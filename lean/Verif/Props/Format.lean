import Verif.Proof.Format
import Verif.Props.Holes
import Verif.Props.Copy
/-!
# C100: the documented files
-/

set_option autoImplicit false

namespace Verif

open Spec

/-- The file `header` of a handle that is not dirty. -/
theorem HoldsF.headerFile {env : Env} {K : Kind} {dt : CStr} {bb : Block} {fs : FS} {H : Holey} (h : HoldsF env K dt bb fs H)
    (hd : bb.dirty = false) :
    fs.node (resolve (pathJoin bb.basename b!"header")) = some (.file (Spec.headerFile dt K.nm H.sizes bb.fchecksum)) ∧
      bb.fchecksum.length = H.sizes.length := by
  have hL := h.holey.holds.ok.layout
  have hck : bb.fchecksum.length = bb.fsize.length := by rw [hL.nck, hL.nfile]
  refine ⟨?_, by rw [hck, h.holey.sizes]⟩
  have h1 := h.header hd
  rw [show resolve (pathJoin bb.basename b!"header") = fileKey bb.basename .header from rfl, h1]
  have hsz : ∀ s ∈ bb.fsize, s < 9223372036854775808 := by
    intro s hs
    have := mem_le_sum hs
    have := hL.small
    omega
  have hlines := headerLines_eq bb.fsize bb.fchecksum 0 hck hsz hL.ck32
    (by rw [Nat.zero_add, hL.nfile]; exact h.holey.holds.savable.header.nfileMax)
  have hint : ∀ n : Nat, intStr (n : Int) = decStr n := by
    intro n
    unfold intStr
    rw [if_neg (by omega)]
    rfl
  unfold headerText Spec.headerFile
  rw [hlines, h.dtype, ← h.holey.sizes, h.holey.holds.ok.memb, hint, hint, ← hL.nfile]
  simp only [Nat.zero_add]

/-- **C100, from any state.** After any history, the data files are as documented. After a flush or after closing,
so is the header. -/
theorem C100_history (env : Env) (K : Kind) (dt : CStr) (ops : List BOp) : ∀ (bb : Block) (w : World) (H : Holey),
    HoldsF env K dt bb w.fs H → w.faults = noFaults → H.allLegal env K ops →
    ∃ xs bb' w', runBOps env bb ops w = .ok (xs, bb') w' ∧ H.allAnswered env K ops xs ∧
      HoldsF env K dt bb' w'.fs (H.after env K ops) ∧ w'.faults = noFaults ∧ bb'.basename = bb.basename ∧
      ((ops.getLast?.map BOp.cleans).getD bb.dirty.not = true → bb'.dirty = false) := by
  induction ops with
  | nil => intro bb w H h hnf _; exact ⟨[], bb, w, rfl, trivial, h, hnf, rfl, by simp⟩
  | cons op ops ih =>
    intro bb w H h hnf hl
    obtain ⟨x, bb1, w1, e1, h1, h2, h3, h4, h5⟩ := h.step hnf op hl.1
    obtain ⟨xs, bb2, w2, e2, k1, k2, k3, k4, k5⟩ := ih bb1 w1 _ h4 h1 hl.2
    refine ⟨x :: xs, bb2, w2, ?_, ⟨h3, k1⟩, k2, k3, k4.trans h2, ?_⟩
    · unfold runBOps
      simp only [bind, M.bind, pure, M.pure]
      rw [e1]
      simp only
      rw [e2]
    · intro hc
      cases ops with
      | nil =>
        have e3 : bb2 = bb1 := by
          unfold runBOps at e2
          injection e2 with e2 _
          injection e2 with _ e2
          exact e2.symm
        rw [e3]
        exact h5 hc
      | cons o ops =>
        rw [List.getLast?_cons_cons] at hc
        apply k5
        have : (o :: ops).getLast?.isSome = true := by simp
        obtain ⟨y, hy⟩ := Option.isSome_iff_exists.mp this
        rw [hy] at hc ⊢
        exact hc

/-- The header of a block that was just created. -/
theorem fresh_header {env : Env} {bf name dt : CStr} {nmemb : Int} {fsize : List Nat} {w w' : World} {b : Block}
    (hns : NoSilent w.faults) (hlen : (pathJoin bf name).length ≤ 8192) (hmeta : isMeta (pathJoin bf name) = false)
    (h : createBlock env bf name (some dt) nmemb fsize w = .ok (0, some b) w') :
    HeaderIs b w'.fs ∧ b.dtype = dtypeNormalize env.m dt ∧ b.dirty = false ∧
      w'.fs.node (fileKey b.basename .attrV2) = some (.file []) := by
  have key : wpc (createBlock env bf name (some dt) nmemb fsize) w
      (fun r w' => r = (-1, none) ∨ r = (0, some (freshBlock env (pathJoin bf name) dt nmemb fsize)) ∧
        ∃ fs1, w'.fs = createFS env (pathJoin bf name) dt nmemb fsize fs1)
      (fun _ => True) := by
    unfold createBlock
    rw [wpc_bind]
    apply wpc_mono (wpc_mksubdirR bf name w)
    · rintro rc w1 ⟨f1, h1, h2, _⟩
      rcases h2 with rfl | rfl
      · simp only [ne_eq, not_true_eq_false, if_false]
        apply wpc_mono (wpc_blockCreate hlen hmeta)
        · rintro r w2 ⟨_, _, (h3 | ⟨h3, _, h4⟩), _⟩
          · exact Or.inl h3
          · exact Or.inr ⟨h3, w1.fs, h4 (by rw [f1]; exact hns)⟩
        · intro _ _; trivial
      · simp only [ne_eq, show (-1 : Int) ≠ 0 by decide, not_false_eq_true, if_true]
        rw [wpc_pure]
        exact Or.inl rfl
    · intro _ _; trivial
  rcases wpc_ok key h with h0 | ⟨h0, fs1, hfs⟩
  · exact absurd h0 (by simp)
  injection h0 with _ h0
  injection h0 with h0
  subst h0
  refine ⟨fun _ => ?_, rfl, rfl, ?_⟩
  · rw [hfs]
    unfold createFS
    rw [show (freshBlock env (pathJoin bf name) dt nmemb fsize).basename = pathJoin bf name from rfl,
      truncFS_other _ _ _ _ _ (fun f _ _ => fileKey_ne (by simp))]
    have := flushFS_header (newBlock env (pathJoin bf name) dt nmemb fsize) [] fs1
    rw [show (newBlock env (pathJoin bf name) dt nmemb fsize).basename = pathJoin bf name from rfl] at this
    rw [this]
    rfl
  · rw [hfs]
    unfold createFS
    rw [show (freshBlock env (pathJoin bf name) dt nmemb fsize).basename = pathJoin bf name from rfl,
      truncFS_other _ _ _ _ _ (fun f _ _ => fileKey_ne (by simp))]
    have := flushFS_attr (newBlock env (pathJoin bf name) dt nmemb fsize) [] fs1
    rw [show (newBlock env (pathJoin bf name) dt nmemb fsize).basename = pathJoin bf name from rfl] at this
    rw [this]
    rfl

/-- After a flush or after closing, no attribute waits to be stored. -/
theorem after_saved (env : Env) (K : Kind) (ops : List BOp) {last : BOp} (hlast : last = .flush ∨ last = .reopen) :
    ∀ H : Holey, (H.after env K (ops ++ [last])).content.pending = false := by
  induction ops with
  | nil =>
    intro H
    show (H.content.next env K last).pending = false
    rcases hlast with rfl | rfl <;> (simp only [Content.next]; cases hp : H.content.pending <;> simp [hp])
  | cons op ops ih => intro H; exact ih _

/-- **C100.** Create a block and run any history of writes, reads, growing, attribute operations, flushes and
close-and-reopen that ends with a flush or with closing. Then a program that does not use the library finds in the directory of
the block exactly what is documented: the text `header` with dtype, elements per row, number of files and, for every
file, its name, its number of rows and its checksum; and in the data files, named by six hexadecimal digits, the rows in
order, with zeros for rows that were skipped, up to the last row that was written, and nothing else; and the text
`attr-v2`, with a line for every attribute that was stored, sorted by name: its name, dtype, number of elements and
bytes in hexadecimal. -/
theorem C100_format (env : Env) (bf name dt : CStr) (nmemb : Int) (fsize : List Nat) (w w' : World) (b : Block)
    (wd nm : Nat) (ops : List BOp) (last : BOp) (hlast : last = .flush ∨ last = .reopen)
    (hfmt : FmtOk env) (hnf : w.faults = noFaults) (hlen : (pathJoin bf name).length ≤ 8192)
    (hmeta : isMeta (pathJoin bf name) = false) (hdt : PlainDtype (dtypeNormalize env.m dt))
    (hit : itemsize env.m (dtypeNormalize env.m dt) = wd) (hwd : 0 < wd) (hnm : nmemb = nm) (hnm0 : 0 < nm)
    (hrow : wd * nm < 2147483648) (hbuf : wd * nm ≤ env.chunkBytes) (hbufm : env.chunkBytes < 18446744073709551616)
    (hn : fsize.length ≤ 16777216) (hs : fsize.sum < 9223372036854775808)
    (hoff : fsize.sum * (wd * nm) < 9223372036854775808)
    (h : createBlock env bf name (some dt) nmemb fsize w = .ok (0, some b) w')
    (hdir : ∀ d, w.fs.node (resolve (pathJoin bf name)) ≠ some (.file d))
    (hold : w.fs.node (fileKey (pathJoin bf name) .attr) = none)
    (hnd : ∀ f, w.fs.node (fileKey (pathJoin bf name) (.data f)) ≠ some .dir)
    (hl : (Holey.fresh fsize).allLegal env ⟨dtypeNormalize env.m (dtypeNormalize env.m dt), wd, nm⟩ (ops ++ [last])) :
    ∃ xs bb' w2, runBOps env b (ops ++ [last]) w' = .ok (xs, bb') w2 ∧
      Documented ⟨dtypeNormalize env.m (dtypeNormalize env.m dt), wd, nm⟩ (dtypeNormalize env.m dt) w2.fs (pathJoin bf name)
        ((Holey.fresh fsize).after env ⟨dtypeNormalize env.m (dtypeNormalize env.m dt), wd, nm⟩ (ops ++ [last])) := by
  obtain ⟨h1, h2⟩ := fresh_holds hfmt hnf hlen hmeta hdt hit hwd hnm hnm0 hrow hbuf hbufm hn hs hoff h hdir hold hnd
  have hns : NoSilent w.faults := by rw [hnf]; intro i n; simp [noFaults]
  obtain ⟨h3, h4, h5⟩ := fresh_empty hns hlen hmeta h
  obtain ⟨h6, h7, h8, h9⟩ := fresh_header hns hlen hmeta h
  have hfit : FilesFit env.m b w'.fs := by
    intro f hf
    rw [h3] at hf
    unfold FS.bytes
    rw [h4, h5 f hf]
    exact ⟨Nat.zero_le _, Nat.dvd_zero _⟩
  obtain ⟨xs, bb', w2, e, k1, k2, k3, k4, k5⟩ := C100_history env _ (dtypeNormalize env.m dt) (ops ++ [last]) b w' _
    ⟨holdsH_fresh h1 h3 (by rw [h4]; exact h5), hfit, h6, h7, fun _ => ⟨[], h9, [], ⟨fun n v => ⟨fun h => (nomatch (h : none = some v)), fun ⟨_, h⟩ => (nomatch h)⟩, nofun⟩,
      List.Pairwise.nil, rfl⟩⟩ h2 hl
  have hd : bb'.dirty = false := k5 (by
    rw [List.getLast?_append]
    rcases hlast with rfl | rfl <;> rfl)
  have hbase : bb'.basename = pathJoin bf name := k4.trans h4
  have hpend : ((Holey.fresh fsize).after env ⟨dtypeNormalize env.m (dtypeNormalize env.m dt), wd, nm⟩ (ops ++ [last])).content.pending = false := by
    exact after_saved env _ ops hlast _
  refine ⟨xs, bb', w2, e, ?_, ?_, by rw [← hbase]; exact k2.attrs hpend⟩
  · obtain ⟨g1, g2⟩ := k2.headerFile hd
    exact ⟨bb'.fchecksum, g2, by rw [← hbase]; exact g1⟩
  · intro f hf
    obtain ⟨bytes, g1, g2⟩ := k2.file f hf
    have hlt : f < 16777216 := by
      have g3 := k2.holey.holds.savable.header.nfileMax
      rw [← k2.holey.holds.ok.layout.nfile, k2.holey.sizes] at g3
      omega
    refine ⟨bytes, ?_, g2⟩
    rw [sixHex_eq f hlt, ← hbase]
    exact g1

/-- **C100, reading the files one after the other** (`example/ftn.f03`). If every row was written, the bytes of the data
files, one file after the other, are the rows in order. -/
theorem C100_concat (K : Kind) (dt : CStr) (fs : FS) (base : CStr) (H : Holey) (h : Documented K dt fs base H)
    (hfull : ∀ r, r < H.sizes.sum → (H.content.rows r).isSome = true) :
    readAllFiles fs base H.sizes.length = flatN (fun r => (H.content.rows r).getD []) H.sizes.sum := by
  have key : ∀ k, k ≤ H.sizes.length → readAllFiles fs base k = flatN (fun r => (H.content.rows r).getD []) (start H.sizes k) := by
    intro k
    induction k with
    | zero => intro _; simp [readAllFiles, flatN, start]
    | succ k ih =>
      intro hk
      obtain ⟨bytes, h1, n, h2, h3, h4, h5⟩ := h.data k (by omega)
      have hget : H.sizes.getD k 0 = H.sizes[k] := by
        rw [List.getD_eq_getElem?_getD, List.getElem?_eq_getElem (by omega)]
        rfl
      have hss := start_succ' H.sizes k (by omega)
      have hle : start H.sizes (k + 1) ≤ H.sizes.sum := start_le _ _
      have hn : n = H.sizes[k] := by
        rw [hget] at h2 h5
        rcases Nat.lt_or_ge n H.sizes[k] with h6 | h6
        · exfalso
          have h7 := h5 n (Nat.le_refl _) h6
          have h8 := hfull (start H.sizes k + n) (by omega)
          rw [h7] at h8
          cases h8
        · omega
      have hb : fs.bytes (resolve (pathJoin base (sixHex k))) = bytes := by
        unfold FS.bytes
        rw [h1]
      rw [hss, flatN_add, ← ih (by omega)]
      show readAllFiles fs base k ++ fs.bytes (resolve (pathJoin base (sixHex k))) = _
      rw [hb, h3, hn]
      congr 1
      apply flatN_congr
      intro i hi
      unfold Holey.shown
      obtain ⟨v, hv⟩ := Option.isSome_iff_exists.mp (hfull (start H.sizes k + i) (by omega))
      rw [hv]
      rfl
  rw [key _ (Nat.le_refl _)]
  unfold start
  rw [List.take_length]

/-- The attributes that another program wrote are read. -/
theorem elsewhere_attrs {env : Env} {fs : FS} {base : CStr} {M : AttrMap}
    (hM : ∀ n v, M n = some v → Typed env.m v ∧ Storable n v ∧ Native env.m v)
    (h : (fs.node (resolve (pathJoin base b!"attr-v2")) = none ∧ M = AttrMap.empty) ∨
      ∃ ls, fs.node (resolve (pathJoin base b!"attr-v2")) = some (.file (ls.map attrFileLine).flatten) ∧ LinesSay M ls) :
    ∃ s2 es, AttrInv env.m s2 es ∧ findE es = M ∧
      readsV2 env fs base { attrsetCreate env with dirty := false } = some (0, { s2 with dirty := false }) := by
  have hinv : AttrInv env.m { attrsetCreate env with dirty := false } [] := (attrsetCreate_inv env).dirty false
  rcases h with ⟨h1, h2⟩ | ⟨ls, h1, h2⟩
  · refine ⟨_, [], hinv, h2.symm, ?_⟩
    unfold readsV2
    rw [show fs.node (fileKey base .attrV2) = none from h1]
    rfl
  · have hfile : fs.node (fileKey base .attrV2) = some (.file (ls.map attrFileLine).flatten) := h1
    have hlen : ls.length ≤ (ls.map attrFileLine).flatten.length := by
      clear h1 h2 hfile
      induction ls with
      | nil => exact Nat.le_refl _
      | cons l ls ih =>
        rw [List.map_cons, List.flatten_cons, List.length_append, List.length_cons]
        have : 0 < (attrFileLine l).length := by
          unfold attrFileLine
          rw [List.length_append]
          exact Nat.lt_of_lt_of_le (by decide : 0 < (b!" ]\n").length) (Nat.le_add_left _ _)
        omega
    obtain ⟨txt, htxt⟩ : ∃ txt, txt = (ls.map attrFileLine).flatten := ⟨_, rfl⟩
    obtain ⟨f, hf⟩ : ∃ f, txt.length + 1 = ls.length + (f + 1) := ⟨txt.length - ls.length, by rw [← htxt] at hlen; omega⟩
    obtain ⟨sp', ep', k1, k2, k3⟩ := parse_fileLines ls (fun l hl => by
      have := hM l.1 l.2.1 ((h2.1 l.1 l.2.1).mpr ⟨l.2.2, hl⟩)
      exact ⟨this.1, this.2.1⟩) h2.2 (f + 1) [] _ [] hinv
    rw [← hf, List.append_nil, ← htxt] at k1
    have hend : parseV2 env (f + 1) [] sp' = some (0, sp') := by simp [parseV2]
    rw [hend] at k1
    refine ⟨sp', ep', k2, k3.trans (linesSay_fold h2), ?_⟩
    have hb : fs.bytes (fileKey base .attrV2) = txt := by unfold FS.bytes; rw [hfile, htxt]
    unfold readsV2
    rw [hfile, hb, if_pos (by rfl)]
    rw [k1]
    rfl

/-- What another program wrote as documented is a block with its rows. -/
theorem elsewhere_onDisk (env : Env) (K : Kind) (dt : CStr) (fs : FS) (base : CStr) (sizes : List Nat) (rows : Nat → List Byte)
    (M : AttrMap) (hM : ∀ n v, M n = some v → Typed env.m v ∧ Storable n v ∧ Native env.m v)
    (h : MadeElsewhere K dt fs base sizes rows M) (hfmt : FmtOk env) (hlen : base.length ≤ 8192) (hmeta : isMeta base = false)
    (hdt : PlainDtype dt) (hk : dtypeNormalize env.m dt = K.dtype) (hit : itemsize env.m dt = K.w) (hwd : 0 < K.w) (hnm0 : 0 < K.nm)
    (hrow : K.w * K.nm < 2147483648) (hbuf : K.w * K.nm ≤ env.chunkBytes) (hbufm : env.chunkBytes < 18446744073709551616)
    (hn : sizes.length ≤ 16777216) (hs : sizes.sum < 9223372036854775808)
    (hoff : sizes.sum * (K.w * K.nm) < 9223372036854775808) : OnDisk env K fs base (Content.ofRows sizes rows M) := by
  obtain ⟨s2, es, hinv0, hes, hread⟩ := elsewhere_attrs hM h.attrs
  obtain ⟨cks, hc1, hc2, hh⟩ := h.header
  let b : Block := ⟨dt, K.nm, base, (runningSums 0 sizes).getLastD 0, sizes, runningSums 0 sizes, cks, sizes.length,
    { s2 with dirty := false }, false⟩
  have hsum : (runningSums 0 sizes).getLastD 0 = sizes.sum := runningSums_last sizes (by omega)
  have hl : Layout b := ⟨rfl, hc1, by
    show runningSums 0 sizes = _
    rw [runningSums_eq sizes 0 (by omega)]
    simp [start, b], hsum, hs, hc2⟩
  have hsz : ∀ s ∈ sizes, s < 9223372036854775808 := fun s hs' => by
    have := mem_le_sum hs'
    omega
  have hint : ∀ n : Nat, intStr (n : Int) = decStr n := by
    intro n
    unfold intStr
    rw [if_neg (by omega)]
    rfl
  have htext : headerFile dt K.nm sizes cks = headerText b := by
    have hlines := headerLines_eq sizes cks 0 hc1 hsz hc2 (by omega)
    unfold headerText Spec.headerFile
    show _ = b!"DTYPE: " ++ dt ++ b!"\nNMEMB: " ++ intStr (K.nm : Int) ++ b!"\nNFILE: " ++ intStr (sizes.length : Int) ++ b!"\n" ++
      headerLines 0 sizes cks
    rw [hlines, hint, hint]
    simp only [Nat.zero_add]
  have hg : GoodHeader b := ⟨hdt, Int.natCast_nonneg _, by
    show (K.nm : Int) < 2147483648
    have : K.nm ≤ K.w * K.nm := Nat.le_mul_of_pos_left _ hwd
    omega, rfl, hc1, hn, fun s hs' => by have := hsz s hs'; omega, hc2⟩
  have hinv : AttrInv env.m { s2 with dirty := false } es := hinv0.dirty false
  have hview : attrView env.m b.attrset = M := hinv.view_eq.trans hes
  have htame : Tame env.m M := fun n v hv => (hM n v hv).2
  have hold : fs.node (fileKey base .attr) = none := h.noAttr
  have hh' : fs.node (fileKey base .header) = some (.file (headerText b)) := by rw [← htext]; exact hh
  have hdata : ∀ f, f < sizes.length → fs.node (fileKey base (.data f)) =
      some (.file (flatN (fun i => rows (start sizes f + i)) (sizes.getD f 0))) := by
    intro f hf
    have := h.data f hf
    rw [sixHex_eq f (by omega)] at this
    exact this
  have hrs : rowSize env.m b = K.w * K.nm := by
    unfold rowSize
    show (itemsize env.m dt).toNat * ((K.nm : Int)).toNat = _
    rw [hit]
    rfl
  have hpos : 0 < K.w * K.nm := Nat.mul_pos hwd hnm0
  have hrows : ∀ r, r < sizes.sum → row env.m fs b r = rows r := by
    intro r hr
    obtain ⟨h1, h2⟩ := locate_lt sizes r hr
    have h3 := locate_start sizes r
    have hget : sizes.getD (locate sizes r).1 0 = sizes[(locate sizes r).1] := by
      rw [List.getD_eq_getElem?_getD, List.getElem?_eq_getElem h1]
      rfl
    have hss := start_succ' sizes _ h1
    have hle : start sizes ((locate sizes r).1 + 1) ≤ sizes.sum := start_le _ _
    unfold row rowFile rowOff FS.bytes
    rw [hrs]
    show (List.drop ((locate sizes r).2 * (K.w * K.nm)) (match fs.node (fileKey base (.data (locate sizes r).1)) with
      | some (.file d) => d | _ => [])).take (K.w * K.nm) = _
    rw [hdata _ h1]
    dsimp only
    rw [hget, show sizes[(locate sizes r).1] = (locate sizes r).2 + (1 + (sizes[(locate sizes r).1] - (locate sizes r).2 - 1)) by omega,
      flatN_add, List.drop_left' (flatN_length _ _ _ fun i hi => h.len _ (by omega)), flatN_add]
    have h4 : flatN (fun i => rows (start sizes (locate sizes r).1 + ((locate sizes r).2 + i))) 1 = rows r := by
      show [] ++ rows _ = _
      rw [List.nil_append]
      congr 1
    rw [h4, List.take_left' (h.len r hr)]
  refine ⟨rfl, rfl, b, rfl, rfl, ⟨hl, hit, hwd, rfl, hnm0, hrow, hbuf, hbufm, hoff⟩, hk, hsum, rfl,
    ⟨hfmt, hg, rfl, rfl, ⟨es, hinv⟩, by rw [hview]; exact htame.storable, hlen, hmeta⟩, hview, rfl, ⟨htame, fun _ => htame⟩, ?_, ?_,
    ⟨h.dir, by rw [hh']; simp, by
      rcases h.attrs with ⟨h1, _⟩ | ⟨ls, h1, _⟩
      · exact fun h2 => by rw [show fs.node (fileKey base .attrV2) = none from h1] at h2; cases h2
      · exact fun h2 => by rw [show fs.node (fileKey base .attrV2) = some _ from h1] at h2; cases h2⟩, hold, h.noDirs, ?_, ?_⟩
  · intro _
    refine ⟨{ attrsetCreate env with dirty := false }, { s2 with dirty := false }, ?_, hread, ⟨es, hinv⟩, hview⟩
    unfold readsV1
    rw [show b.basename = base from rfl, hold]
    rfl
  · intro _
    unfold HeaderSays FS.bytes
    rw [show b.basename = base from rfl, hh']
    exact ⟨rfl, parseHeader_headerText b hg⟩
  · intro f hf
    exact ⟨_, hdata f hf⟩
  · intro r bytes hr
    simp only [Content.ofRows] at hr ⊢
    split at hr
    · rename_i hlt
      injection hr with hr
      subst hr
      refine ⟨hlt, hrows r hlt, ?_⟩
      unfold Stored
      rw [hrows r hlt, hrs]
      exact h.len r hlt
    · cases hr

/-- **C100, the other direction.** If another program has made the files as documented, the library opens them as a
block, and every operation of any history on it is answered as for a block with these rows and attributes. -/
theorem C100_elsewhere (env : Env) (K : Kind) (dt : CStr) (w : World) (base : CStr) (sizes : List Nat) (rows : Nat → List Byte)
    (M : AttrMap) (hM : ∀ n v, M n = some v → Typed env.m v ∧ Storable n v ∧ Native env.m v)
    (ops : List BOp) (h : MadeElsewhere K dt w.fs base sizes rows M) (hnf : w.faults = noFaults) (hfmt : FmtOk env)
    (hlen : base.length ≤ 8192) (hmeta : isMeta base = false)
    (hdt : PlainDtype dt) (hk : dtypeNormalize env.m dt = K.dtype) (hit : itemsize env.m dt = K.w) (hwd : 0 < K.w) (hnm0 : 0 < K.nm)
    (hrow : K.w * K.nm < 2147483648) (hbuf : K.w * K.nm ≤ env.chunkBytes) (hbufm : env.chunkBytes < 18446744073709551616)
    (hn : sizes.length ≤ 16777216) (hs : sizes.sum < 9223372036854775808)
    (hoff : sizes.sum * (K.w * K.nm) < 9223372036854775808) (hl : (Content.ofRows sizes rows M).allLegal env K ops) :
    ∃ bb w1 xs bb' w2, blockOpen env base w = .ok (0, some bb) w1 ∧ runBOps env bb ops w1 = .ok (xs, bb') w2 ∧
      (Content.ofRows sizes rows M).allAnswered env K ops xs := by
  have hd := elsewhere_onDisk env K dt w.fs base sizes rows M hM h hfmt hlen hmeta hdt hk hit hwd hnm0 hrow hbuf hbufm hn hs hoff
  obtain ⟨bb, w1, e, f, g, _, _, hh⟩ := hd.opens hnf
  obtain ⟨xs, bb', w2, e2, k, _⟩ := C56_history_partial env K ops bb w1 _ (by rw [f]; exact hh) g hl
  exact ⟨bb, w1, xs, bb', w2, e, e2, k⟩

/-! ### Examples -/

/-- Write rows 1 to 3 of a block with files of 2, 0 and 3 rows, and grow. -/
def exFOps : List BOp := [.write 1 exSrc exMem 8, .grow [4]]

theorem exFOps_legal : (Holey.fresh [2, 0, 3]).allLegal exEnv exKind (exFOps ++ [.reopen]) :=
  ⟨⟨by decide, exSrc_array, fun h => absurd h (by decide), fun _ => by decide +kernel⟩,
    ⟨by decide, by decide, by decide⟩, trivial, trivial⟩

example (w' : World) (b : Block)
    (h : createBlock exEnv b!"d" b!"x" (some b!"i4") 1 [2, 0, 3] exEmpty = .ok (0, some b) w') :
    ∃ xs bb' w2, runBOps exEnv b (exFOps ++ [.reopen]) w' = .ok (xs, bb') w2 ∧
      Documented exKind b!"<i4" w2.fs b!"d/x" ((Holey.fresh [2, 0, 3]).after exEnv exKind (exFOps ++ [.reopen])) :=
  C100_format exEnv b!"d" b!"x" b!"i4" 1 [2, 0, 3] exEmpty w' b 4 1 exFOps .reopen (Or.inr rfl)
    exFmt rfl (by decide) (by decide) exB_good.dt (by decide) (by decide) (by decide) (by decide) (by decide) (by decide)
    (by decide) (by decide) (by decide) (by decide) h (by
      intro d
      have : exEmpty.fs.node (resolve (pathJoin b!"d" b!"x")) = none := by decide
      rw [this]
      simp)
    (by decide) (by
      intro f
      have : fileKey (pathJoin b!"d" b!"x") (.data f) = [b!"d", b!"x", (FileId.data f).name] := by
        rw [fileKey_eq]; rfl
      rw [this]
      simp only [exEmpty, exEmptyFS]
      rw [if_neg (by simp)]
      simp) exFOps_legal

/-- The files of a small block. -/
def exFiles (sizes : List Nat) (ops : List BOp) (fs : List CStr) : Option (List (Option (List Byte))) :=
  match createBlock exEnv b!"d" b!"x" (some b!"i4") 1 sizes exEmpty with
  | .ok (0, some b) w =>
    match runBOps exEnv b ops w with
    | .ok _ w => some (fs.map fun f => match w.fs.node (resolve (pathJoin b!"d/x" f)) with
      | some (.file d) => some d
      | _ => none)
    | _ => none
  | _ => none

example : exFiles [2, 0, 3] (exFOps ++ [.reopen]) [b!"header", b!"000000", b!"000001", b!"000002", b!"000003", b!"000004"] =
    some [some b!"DTYPE: <i4\nNMEMB: 1\nNFILE: 4\n000000: 2 : 10 : 10\n000001: 0 : 0 : 0\n000002: 3 : 23 : 23\n000003: 4 : 0 : 0\n",
      some [0, 0, 0, 0, 10, 0, 0, 0], some [], some [11, 0, 0, 0, 12, 0, 0, 0], some [], none] := by decide +kernel

/-- The attributes of a block, in order, in its file. -/
example : exFiles [1] [.attr (.set b!"mass" b!"i4" 1 exMem 100), .attr (.set b!"axes" b!"u2" 2 exMem 100), .flush] [b!"attr-v2"] =
    some [some b!"axes <u2 2 0A000000 #HUMANE [ <<u2> <<u2> ]\nmass <i4 1 0A000000 #HUMANE [ 10 ]\n"] := by decide +kernel

/-- The rows of a block all of whose rows were written, from its files. -/
example (w' : World) (b : Block)
    (h : createBlock exEnv b!"d" b!"x" (some b!"i4") 1 [2, 1] exEmpty = .ok (0, some b) w') :
    ∃ xs bb' w2, runBOps exEnv b [.write 0 exSrc exMem 8, .flush] w' = .ok (xs, bb') w2 ∧
      readAllFiles w2.fs b!"d/x" 2 = [10, 0, 0, 0, 11, 0, 0, 0, 12, 0, 0, 0] := by
  obtain ⟨xs, bb', w2, e, hd⟩ := C100_format exEnv b!"d" b!"x" b!"i4" 1 [2, 1] exEmpty w' b 4 1 [.write 0 exSrc exMem 8] .flush (Or.inl rfl)
    exFmt rfl (by decide) (by decide) exB_good.dt (by decide) (by decide) (by decide) (by decide) (by decide) (by decide)
    (by decide) (by decide) (by decide) (by decide) h (by
      intro d
      have : exEmpty.fs.node (resolve (pathJoin b!"d" b!"x")) = none := by decide
      rw [this]
      simp)
    (by decide) (by
      intro f
      have : fileKey (pathJoin b!"d" b!"x") (.data f) = [b!"d", b!"x", (FileId.data f).name] := by
        rw [fileKey_eq]; rfl
      rw [this]
      simp only [exEmpty, exEmptyFS]
      rw [if_neg (by simp)]
      simp) ⟨⟨by decide, exSrc_array, fun h => absurd h (by decide), fun _ => by decide +kernel⟩, trivial, trivial⟩
  have hk := C100_concat _ _ _ _ _ hd (by decide +kernel)
  exact ⟨xs, bb', w2, e, hk.trans (by decide +kernel)⟩

/-- Files made by hand: three rows of two `u2` elements each, in files of one and two rows, and two attributes. -/
def exMadeFS : FS := ⟨fun k =>
  if k = [] ∨ k = [b!"d"] ∨ k = [b!"d", b!"y"] then some .dir
  else if k = [b!"d", b!"y", b!"header"] then some (.file b!"DTYPE: <u2\nNMEMB: 2\nNFILE: 2\n000000: 1 : 0 : 0\n000001: 2 : 70000 : 4465\n")
  else if k = [b!"d", b!"y", b!"000000"] then some (.file [1, 0, 2, 0])
  else if k = [b!"d", b!"y", b!"000001"] then some (.file [3, 0, 4, 0, 5, 0, 6, 0])
  else if k = [b!"d", b!"y", b!"attr-v2"] then some (.file b!"z <i4 1 0700ABFF #HUMANE [  ]\na <u2 2 01000200 #HUMANE [ one two ]\n")
  else none, [[], [b!"d"], [b!"d", b!"y"], [b!"d", b!"y", b!"header"], [b!"d", b!"y", b!"000000"], [b!"d", b!"y", b!"000001"],
    [b!"d", b!"y", b!"attr-v2"]]⟩

/-- Their rows. -/
def exMadeRow (r : Nat) : List Byte := [UInt8.ofNat (2 * r + 1), 0, UInt8.ofNat (2 * r + 2), 0]

/-- Their lines of attributes. -/
def exMadeLines : List (CStr × AttrVal × CStr) :=
  [(b!"z", ⟨b!"<i4", 1, [7, 0, 171, 255]⟩, []), (b!"a", ⟨b!"<u2", 2, [1, 0, 2, 0]⟩, b!"one two")]

/-- Their attributes. -/
def exMadeAttrs : AttrMap := fun n =>
  if n = b!"z" then some ⟨b!"<i4", 1, [7, 0, 171, 255]⟩ else if n = b!"a" then some ⟨b!"<u2", 2, [1, 0, 2, 0]⟩ else none

theorem exMadeLines_say : LinesSay exMadeAttrs exMadeLines := by
  refine ⟨fun n v => ?_, by unfold exMadeLines OneLine; decide⟩
  unfold exMadeAttrs exMadeLines
  constructor
  · intro h
    split at h
    · rename_i hn
      injection h with h
      subst hn h
      exact ⟨[], by simp⟩
    · split at h
      · rename_i hn
        injection h with h
        subst hn h
        exact ⟨b!"one two", by simp⟩
      · cases h
  · rintro ⟨t, ht⟩
    simp only [List.mem_cons, Prod.mk.injEq, List.not_mem_nil, or_false] at ht
    rcases ht with ⟨rfl, rfl, _⟩ | ⟨rfl, rfl, _⟩
    · rfl
    · rfl

theorem exMadeAttrs_plain : ∀ n v, exMadeAttrs n = some v → Typed exEnv.m v ∧ Storable n v ∧ Native exEnv.m v := by
  intro n v h
  unfold exMadeAttrs at h
  split at h
  · rename_i hn
    injection h with h
    subst hn h
    exact ⟨⟨by decide, by decide, by decide⟩, ⟨by decide, by unfold Clean; decide, by decide, by unfold Clean; decide, by decide, by decide⟩,
      Or.inl (by decide)⟩
  · split at h
    · rename_i hn
      injection h with h
      subst hn h
      exact ⟨⟨by decide, by decide, by decide⟩, ⟨by decide, by unfold Clean; decide, by decide, by unfold Clean; decide, by decide, by decide⟩,
        Or.inl (by decide)⟩
    · cases h

theorem exMadeElsewhere : MadeElsewhere ⟨b!"<u2", 2, 2⟩ b!"<u2" exMadeFS b!"d/y" [1, 2] exMadeRow exMadeAttrs := by
  refine ⟨by decide, ⟨[0, 70000], rfl, by decide, by decide +kernel⟩, by decide +kernel, by decide,
    Or.inr ⟨exMadeLines, by decide +kernel, exMadeLines_say⟩, ?_, fun _ _ => rfl⟩
  intro f
  have : fileKey b!"d/y" (.data f) = [b!"d", b!"y", (FileId.data f).name] := by
    rw [fileKey_eq]; rfl
  rw [this]
  simp only [exMadeFS]
  rw [if_neg (by simp)]
  split
  · simp
  · split
    · simp
    · split
      · simp
      · split <;> simp

/-- Open them, grow the block by two rows, close and open it: the rows and the attributes are known to be there. -/
example : ∃ bb w1 xs bb' w2, blockOpen exEnv b!"d/y" ⟨exMadeFS, noFaults, 0⟩ = .ok (0, some bb) w1 ∧
    runBOps exEnv bb [.grow [2], .reopen] w1 = .ok (xs, bb') w2 ∧
      (Content.ofRows [1, 2] exMadeRow exMadeAttrs).allAnswered exEnv ⟨b!"<u2", 2, 2⟩ [.grow [2], .reopen] xs :=
  C100_elsewhere exEnv ⟨b!"<u2", 2, 2⟩ b!"<u2" ⟨exMadeFS, noFaults, 0⟩ b!"d/y" [1, 2] exMadeRow exMadeAttrs exMadeAttrs_plain
    [.grow [2], .reopen] exMadeElsewhere rfl
    exFmt (by decide) (by decide) ⟨by decide, by decide, by decide, by decide⟩ (by decide) (by decide) (by decide) (by decide) (by decide)
    (by decide) (by decide) (by decide) (by decide) (by decide) ⟨⟨by decide, by decide, by decide⟩, trivial, trivial⟩

end Verif
