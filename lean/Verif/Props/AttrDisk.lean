import Verif.Proof.AttrV1
import Verif.Props.Create
/-!
# C30, C31, C33: attributes on disk
-/

set_option autoImplicit false

namespace Verif

open Spec

/-! ## Which histories make an attribute set dirty -/

theorem attrStep_dirty {env : Env} {s s' : AttrSet} {es : List Entry} (h : AttrInv env.m s es) (op : AttrOp)
    (hl : LegalOp env.m env.fo (findE es) op) {ans : AttrAns} (hs : attrStep env s op = some (ans, s')) :
    s'.dirty = (s.dirty || op.isSet) := by
  cases op with
  | set name dtype nmemb mem buf =>
    obtain ⟨h0, h1, h2, h3⟩ := hl
    simp only [attrStep] at hs
    by_cases hb : hasBlank name = true
    · unfold setAttr at hs
      simp only at hs
      rw [if_pos hb] at hs
      injection hs with hs
      injection hs with _ hs
      rw [← hs]
      simp [AttrOp.isSet]
    · have hb' : hasBlank name = false := by simpa using hb
      obtain ⟨s1, es', sm', k1, _, _, k4, _⟩ := setAttr_spec h name dtype nmemb mem buf h0 h2 h3 h1 hb'
      rw [k1] at hs
      injection hs with hs
      injection hs with _ hs
      rw [← hs, k4]
      simp [AttrOp.isSet]
  | remove name =>
    simp only [attrStep] at hs
    injection hs with hs
    injection hs with _ hs
    rw [← hs]
    unfold removeAttr
    split <;> simp [AttrOp.isSet]
  | get name dtype nmemb mem buf =>
    obtain ⟨h0, h1, h2, h3⟩ := hl
    obtain ⟨rc, dm', k1, k2⟩ := getAttr_spec h name dtype nmemb mem buf h1 h2 h3
    simp only [attrStep] at hs
    rw [k1] at hs
    injection hs with hs
    injection hs with _ hs
    rw [← hs]
    simp [AttrOp.isSet]
  | list =>
    simp only [attrStep] at hs
    injection hs with hs
    injection hs with _ hs
    rw [← hs]
    simp [AttrOp.isSet]

theorem attrRun_dirty {env : Env} (ops : List AttrOp) : ∀ {s s' : AttrSet} {es : List Entry} {anses : List AttrAns},
    AttrInv env.m s es → LegalOps env.m env.fo (findE es) ops → attrRun env s ops = some (anses, s') →
    s'.dirty = (s.dirty || ops.any AttrOp.isSet) := by
  induction ops with
  | nil =>
    intro s s' es anses _ _ hr
    simp only [attrRun, Option.some.injEq, Prod.mk.injEq] at hr
    rw [← hr.2]
    simp
  | cons op ops ih =>
    intro s s' es anses h hl hr
    obtain ⟨h1, h2⟩ := hl
    obtain ⟨ans, s1, es1, k1, k2, k3, _⟩ := attrStep_spec h op h1
    rw [← k3] at h2
    simp only [attrRun] at hr
    rw [k1] at hr
    simp only at hr
    obtain ⟨⟨as, s2⟩, hr1, hr2⟩ := Option.map_eq_some_iff.mp hr
    injection hr2 with _ hr2
    subst hr2
    rw [ih k2 h2 hr1, attrStep_dirty h op h1 k1, List.any_cons, Bool.or_assoc]

/-- Without set and remove operations the attributes stay. -/
theorem attrAfter_reads (m : Machine) (ops : List AttrOp) : ∀ M, ops.any AttrOp.isSet = false →
    ops.any AttrOp.isRemove = false → attrAfter m M ops = M := by
  induction ops with
  | nil => intro M _ _; rfl
  | cons op ops ih =>
    intro M h1 h2
    rw [List.any_cons, Bool.or_eq_false_iff] at h1 h2
    show attrAfter m (attrNext m M op) ops = M
    have : attrNext m M op = M := by
      cases op with
      | set => exact absurd h1.1 (by simp [AttrOp.isSet])
      | remove => exact absurd h2.1 (by simp [AttrOp.isRemove])
      | get => rfl
      | list => rfl
    rw [this]
    exact ih M h1.2 h2.2

/-- The text file will be rewritten when the block is closed, or need not be: a history that removes
attributes also sets one, or there already was something to write. -/
def WillSave (bb : Block) (ops : List AttrOp) : Prop :=
  bb.attrset.dirty = true ∨ ops.any AttrOp.isSet = true ∨ ops.any AttrOp.isRemove = false

/-- **C30** (partial: names, dtypes and lengths that the text format can represent, attributes in the other
byte order not read; see `C30_empty_value`, `C30_blank_dtype`, `C30_foreign`). Take any block whose
metadata is consistent with the disk, run any legal history of attribute operations on it, close it and
open it again: every attribute has the same name, dtype, length and bytes as in the map that the history
describes, and there are no others. -/
theorem C30_survive_partial (env : Env) (bb : Block) (w : World) (ops : List AttrOp) (hnf : w.faults = noFaults)
    (hsv : Savable env bb) (hdir : DirOk w.fs bb.basename) (hsync : Synced env w.fs bb)
    (hl : LegalOps env.m env.fo (attrView env.m bb.attrset) ops)
    (hst : AllStorable (attrAfter env.m (attrView env.m bb.attrset) ops))
    (hold : OldOk env w.fs bb.basename (attrAfter env.m (attrView env.m bb.attrset) ops))
    (hsave : WillSave bb ops) :
    ∃ anses s b w', attrRun env bb.attrset ops = some (anses, s) ∧
      closeOpen env { bb with attrset := s } w = .ok (0, 0, some b) w' ∧
      attrView env.m b.attrset = attrAfter env.m (attrView env.m bb.attrset) ops ∧
      SameShape bb b ∧ b.fchecksum = bb.fchecksum := by
  obtain ⟨es, hi⟩ := hsv.attrs
  have hv := hi.view_eq
  rw [hv] at hl hst hold ⊢
  obtain ⟨anses, s, es', h1, h2, h3, _⟩ := attrRun_spec ops hi hl
  have hdirty := attrRun_dirty ops hi hl h1
  rw [← h3, ← h2.view_eq] at hst hold ⊢
  have hsv' : Savable env { bb with attrset := s } :=
    ⟨hsv.fmt, ⟨hsv.header.dt, hsv.header.nmemb0, hsv.header.nmembMax, hsv.header.nfile, hsv.header.nck,
      hsv.header.nfileMax, hsv.header.sizes, hsv.header.cks⟩, hsv.offsets, hsv.size, ⟨es', h2⟩, hst, hsv.base,
      hsv.notMeta⟩
  have hsync' : Synced env w.fs { bb with attrset := s } := by
    refine ⟨fun h => hsync.header h, fun h => ?_⟩
    simp only at h ⊢
    rw [hdirty, Bool.or_eq_false_iff] at h
    have hrem : ops.any AttrOp.isRemove = false := by
      rcases hsave with hs | hs | hs
      · rw [h.1] at hs; exact absurd hs (by simp)
      · rw [h.2] at hs; exact absurd hs (by simp)
      · exact hs
    rw [h2.view_eq, h3, attrAfter_reads env.m ops _ h.2 hrem, ← hv]
    exact hsync.attrs h.1
  obtain ⟨b, w', k1, _, k2, k3, _, k5, _⟩ := closeOpen_spec hnf hsv' hdir (fun _ => hold) hsync'
  exact ⟨anses, s, b, w', h1, k1, k5, ⟨k2.dtype, k2.nmemb, k2.base, k2.size, k2.fsize, k2.foffset, k2.nfile⟩, k3⟩

/-- **C30 for blocks that only hold attributes.** -/
theorem C30_meta_partial (env : Env) (bb : Block) (w : World) (ops : List AttrOp) (hnf : w.faults = noFaults)
    (hfmt : FmtOk env) (hlen : bb.basename.length ≤ 8192) (hmeta : isMeta bb.basename = true)
    (hd : bb.dirty = false) (hwell : WellAttrs env.m bb.attrset) (hdir : DirOk w.fs bb.basename)
    (hsync : bb.attrset.dirty = false → AttrsSay env w.fs bb.basename (attrView env.m bb.attrset))
    (hl : LegalOps env.m env.fo (attrView env.m bb.attrset) ops)
    (hst : AllStorable (attrAfter env.m (attrView env.m bb.attrset) ops))
    (hold : OldOk env w.fs bb.basename (attrAfter env.m (attrView env.m bb.attrset) ops))
    (hsave : WillSave bb ops) :
    ∃ anses s b w', attrRun env bb.attrset ops = some (anses, s) ∧
      closeOpen env { bb with attrset := s } w = .ok (0, 0, some b) w' ∧
      attrView env.m b.attrset = attrAfter env.m (attrView env.m bb.attrset) ops := by
  obtain ⟨es, hi⟩ := hwell
  have hv := hi.view_eq
  rw [hv] at hl hst hold ⊢
  obtain ⟨anses, s, es', h1, h2, h3, _⟩ := attrRun_spec ops hi hl
  have hdirty := attrRun_dirty ops hi hl h1
  rw [← h3, ← h2.view_eq] at hst hold ⊢
  obtain ⟨b, w', k1, _, _, _, k5, _⟩ := closeOpen_meta (bb := { bb with attrset := s }) hnf hfmt hlen hmeta hd ⟨es', h2⟩
    hst hdir (fun _ => hold) (by
      intro h
      simp only at h ⊢
      rw [hdirty, Bool.or_eq_false_iff] at h
      have hrem : ops.any AttrOp.isRemove = false := by
        rcases hsave with hs | hs | hs
        · rw [h.1] at hs; exact absurd hs (by simp)
        · rw [h.2] at hs; exact absurd hs (by simp)
        · exact hs
      rw [h2.view_eq, h3, attrAfter_reads env.m ops _ h.2 hrem, ← hv]
      exact hsync h.1)
  exact ⟨anses, s, b, w', h1, k1, k5⟩

theorem exOld (M : AttrMap) : OldOk exEnv exW.fs exB.basename M := by
  refine ⟨{ attrsetCreate exEnv with dirty := false }, ?_, ⟨[], (attrsetCreate_inv exEnv).dirty false⟩, ?_⟩
  · have h1 : exW.fs.node (fileKey exB.basename .attr) = none := by decide +kernel
    unfold readsV1
    rw [h1]
    rfl
  · intro name _
    rw [((attrsetCreate_inv exEnv).dirty false).view_eq]
    rfl

/-- A history of attribute operations on the example block. -/
def exAttrHist : List AttrOp :=
  [.set b!"a" b!">i4" 2 exMem 100, .set b!"redshift" b!"f8" 1 exMem 100, .list, .set b!"b" b!"S1" 3 exMem 100,
    .remove b!"b", .set b!"a" b!"u8" 1 exMem 116]

theorem exEmpty_view : attrView exEnv.m exB.attrset = AttrMap.empty :=
  ((attrsetCreate_inv exEnv).dirty false).view_eq

theorem exAttrHist_legal : LegalOps exEnv.m exEnv.fo (attrView exEnv.m exB.attrset) exAttrHist := by
  refine ⟨?_, ?_, ?_, ?_, ?_, ?_, trivial⟩
  · exact ⟨by decide, by decide, by decide, by decide⟩
  · exact ⟨by decide, by decide, by decide, by decide⟩
  · trivial
  · exact ⟨by decide, by decide, by decide, by decide⟩
  · show (0 : Byte) ∉ b!"b"; decide
  · exact ⟨by decide, by decide, by decide, by decide⟩

theorem exAttrHist_storable : AllStorable (attrAfter exEnv.m (attrView exEnv.m exB.attrset) exAttrHist) := by
  rw [exEmpty_view]
  intro name v h
  simp only [exAttrHist, attrAfter, attrNext] at h
  rw [if_neg (by decide), if_neg (by decide), if_neg (by decide), if_neg (by decide)] at h
  simp only [AttrMap.put, AttrMap.del, AttrMap.empty] at h
  split at h
  · subst name
    injection h with h
    subst h
    exact ⟨by decide, by unfold Clean; decide, by decide, by unfold Clean; decide +kernel, by decide, by simp only [peek_length]; decide +kernel⟩
  · split at h
    · exact absurd h (by simp)
    · split at h
      · subst name
        injection h with h
        subst h
        exact ⟨by decide, by unfold Clean; decide, by decide, by unfold Clean; decide +kernel, by decide, by simp only [peek_length]; decide +kernel⟩
      · exact absurd h (by simp)

example : ∃ anses s b w', attrRun exEnv exB.attrset exAttrHist = some (anses, s) ∧
    closeOpen exEnv { exB with attrset := s } exW = .ok (0, 0, some b) w' ∧
    attrView exEnv.m b.attrset = attrAfter exEnv.m (attrView exEnv.m exB.attrset) exAttrHist ∧
    SameShape exB b ∧ b.fchecksum = exB.fchecksum :=
  C30_survive_partial exEnv exB exW exAttrHist exW_nf exB_savable exDir exB_synced exAttrHist_legal exAttrHist_storable
    (exOld _) (Or.inr (Or.inl rfl))

/-! ### Where C30 fails -/

/-- Set an attribute on the example block, close and reopen it: return codes, and bytes of attribute `a`. -/
def exSetReopen (ops : List AttrOp) (name : CStr) : Option (List Int × Int × Int × Option (Option AttrVal)) :=
  match attrRun exEnv exB.attrset ops with
  | none => none
  | some (anses, s) =>
    (closeOpen exEnv { exB with attrset := s } exW).val?.map fun r =>
      (anses.map (·.rc), r.1, r.2.1, r.2.2.map fun b => attrView exEnv.m b.attrset name)

/-- **C30 is false** for attributes without elements: set and close report success, then the block cannot
be opened any more. -/
theorem C30_empty_value : exSetReopen [.set b!"a" b!"i4" 0 exMem 100] b!"a" = some ([0], 0, -1, none) := by
  decide +kernel

/-- **C30 is false** for dtypes with a blank in them. -/
theorem C30_blank_dtype : exSetReopen [.set b!"a" b!"i 4" 1 exMem 100] b!"a" = some ([0], 0, -1, none) := by
  decide +kernel

/-- **C30 is false** for values in the other byte order, when the block is flushed, another attribute is set
and then the block is closed: the bytes of `a` come back swapped. -/
theorem C30_foreign :
    (match attrRun exEnv exB.attrset [.set b!"a" b!">i4" 1 exMem 100] with
      | none => none
      | some (_, s) => (do
          let (_, bb) ← blockFlush exEnv { exB with attrset := s }
          match attrRun exEnv bb.attrset [.set b!"b" b!"i4" 1 exMem 100] with
          | none => M.ub
          | some (_, s) => do
            let r ← closeOpen exEnv { bb with attrset := s }
            pure (r.2.2.map fun b => attrView exEnv.m b.attrset b!"a") : M _) exW |>.val?) =
      some (some (some ⟨b!">i4", 1, [0, 0, 0, 10]⟩)) ∧
    attrAfter exEnv.m AttrMap.empty [.set b!"a" b!">i4" 1 exMem 100, .set b!"b" b!"i4" 1 exMem 100] b!"a" =
      some ⟨b!">i4", 1, [10, 0, 0, 0]⟩ := by
  decide +kernel

/-! ## C31 -/

/-- **C31** (partial: the handle had something to save, and an old attribute file does not hold the name; see
`C31_not_saved`, `C31_resurrected`). A history that ends with removing an attribute, then close and reopen:
the attribute is not there. -/
theorem C31_removed_partial (env : Env) (bb : Block) (w : World) (ops : List AttrOp) (name : CStr)
    (hnf : w.faults = noFaults) (hsv : Savable env bb) (hdir : DirOk w.fs bb.basename)
    (hsync : Synced env w.fs bb)
    (hl : LegalOps env.m env.fo (attrView env.m bb.attrset) (ops ++ [.remove name]))
    (hst : AllStorable (attrAfter env.m (attrView env.m bb.attrset) (ops ++ [.remove name])))
    (hold : OldOk env w.fs bb.basename (attrAfter env.m (attrView env.m bb.attrset) (ops ++ [.remove name])))
    (hsave : bb.attrset.dirty = true ∨ ops.any AttrOp.isSet = true) :
    ∃ anses s b w', attrRun env bb.attrset (ops ++ [.remove name]) = some (anses, s) ∧
      closeOpen env { bb with attrset := s } w = .ok (0, 0, some b) w' ∧
      attrView env.m b.attrset name = none := by
  have hsave' : WillSave bb (ops ++ [.remove name]) := by
    rcases hsave with h | h
    · exact Or.inl h
    · exact Or.inr (Or.inl (by rw [List.any_append, h]; rfl))
  obtain ⟨anses, s, b, w', h1, h2, h3, _⟩ :=
    C30_survive_partial env bb w (ops ++ [.remove name]) hnf hsv hdir hsync hl hst hold hsave'
  refine ⟨anses, s, b, w', h1, h2, ?_⟩
  rw [h3]
  have : ∀ (ops : List AttrOp) (M : AttrMap), attrAfter env.m M (ops ++ [.remove name]) name = none := by
    intro ops
    induction ops with
    | nil => intro M; simp [attrAfter, attrNext, AttrMap.del]
    | cons op ops ih => intro M; exact ih _
  exact this ops _

/-- **C31 is false** when removing is the only change: set, close and reopen; then remove (which returns 0),
close and reopen: the attribute is still there. -/
theorem C31_not_saved :
    (match attrRun exEnv exB.attrset [.set b!"a" b!"i4" 1 exMem 100] with
      | none => none
      | some (_, s) => (do
          let r ← closeOpen exEnv { exB with attrset := s }
          match r.2.2 with
          | none => M.ub
          | some bb =>
            match attrRun exEnv bb.attrset [.remove b!"a"] with
            | none => M.ub
            | some (anses, s) => do
              let r ← closeOpen exEnv { bb with attrset := s }
              pure (anses.map (·.rc), attrView exEnv.m s b!"a",
                r.2.2.map fun b => attrView exEnv.m b.attrset b!"a") : M _) exW |>.val?) =
      some ([0], none, some (some ⟨b!"<i4", 1, [10, 0, 0, 0]⟩)) := by
  decide +kernel

/-! ## C33 -/

/-- What the two attribute files of a block say. -/
theorem attrsSay_files {env : Env} {fs : FS} {base : CStr} {rs : List RecV1} {tail : List Byte}
    {ls : List (CStr × AttrVal × CStr)} (ht : tail.length < 4)
    (h1 : fs.node (fileKey base .attr) = some (.file (fileV1 env.m rs ++ tail))) (hr : ∀ r ∈ rs, r.Ok env.m)
    (h2 : (fs.node (fileKey base .attrV2) = none ∧ ls = []) ∨
      fs.node (fileKey base .attrV2) = some (.file (textV2 ls)))
    (hls : ∀ l ∈ ls, Storable l.1 l.2.1 ∧ Typed env.m l.2.1 ∧ OneLine l.2.2) :
    AttrsSay env fs base (putLines (putRecs env.m AttrMap.empty rs) ls) := by
  obtain ⟨s1, e1, k1, k2, k3⟩ := parseV1_spec rs ((attrsetCreate_inv env).dirty false) hr tail
    ((fileV1 env.m rs ++ tail).length - rs.length) ht
  have hfl : rs.length + ((fileV1 env.m rs ++ tail).length - rs.length + 1) = (fileV1 env.m rs ++ tail).length + 1 := by
    have := fileV1_length env.m rs
    rw [List.length_append]
    omega
  rw [hfl] at k1
  obtain ⟨s2, e2, j1, j2, j3⟩ := parseV2_text ls (k2.dirty false) hls ((textV2 ls).length - ls.length)
  have hfl2 : ls.length + ((textV2 ls).length - ls.length + 1) = (textV2 ls).length + 1 := by
    have := textV2_length ls
    omega
  rw [hfl2] at j1
  refine ⟨{ s1 with dirty := false }, { s2 with dirty := false }, ?_, ?_, ⟨e2, j2.dirty false⟩, ?_⟩
  · unfold readsV1 FS.bytes
    rw [h1]
    simp only [Option.isSome_some, if_true]
    rw [k1]
    rfl
  · rcases h2 with ⟨h2, rfl⟩ | h2
    · unfold readsV2
      rw [h2]
      have hj : parseV2 env 1 [] { s1 with dirty := false } = some (0, s2) := j1
      have : parseV2 env 1 [] { s1 with dirty := false } = some (0, { s1 with dirty := false }) := by simp [parseV2]
      rw [this] at hj
      injection hj with hj
      injection hj with _ hj
      rw [← hj]
      rfl
    · unfold readsV2 FS.bytes
      rw [h2]
      simp only [Option.isSome_some, if_true]
      rw [j1]
      rfl
  · rw [(j2.dirty false).view_eq, j3, k3, findE_nil]

/-- **C33** (partial: records the library accepts as attributes today, see `C33_refused`). A block has an old
attribute file with any list of records (and perhaps up to three stray bytes at the end) and perhaps a new
one with any list of lines. Opening it shows exactly these attributes: the records one after another, later
ones overriding earlier ones, then the lines. -/
theorem C33_legacy_partial (env : Env) (bb : Block) (w : World) (rs : List RecV1) (tail : List Byte)
    (ls : List (CStr × AttrVal × CStr)) (hnf : w.faults = noFaults) (hlen : bb.basename.length ≤ 8192)
    (hmeta : isMeta bb.basename = false) (hoff : bb.foffset = runningSums 0 bb.fsize)
    (hsize : bb.size = bb.foffset.getLastD 0) (hh : HeaderSays w.fs bb) (ht : tail.length < 4)
    (h1 : w.fs.node (fileKey bb.basename .attr) = some (.file (fileV1 env.m rs ++ tail)))
    (hr : ∀ r ∈ rs, r.Ok env.m)
    (h2 : (w.fs.node (fileKey bb.basename .attrV2) = none ∧ ls = []) ∨
      w.fs.node (fileKey bb.basename .attrV2) = some (.file (textV2 ls)))
    (hls : ∀ l ∈ ls, Storable l.1 l.2.1 ∧ Typed env.m l.2.1 ∧ OneLine l.2.2) :
    ∃ b w', blockOpen env bb.basename w = .ok (0, some b) w' ∧ SameShape bb b ∧
      attrView env.m b.attrset = putLines (putRecs env.m AttrMap.empty rs) ls := by
  obtain ⟨r, w', k1, _, _, b, rfl, k2, _, _, k3, _⟩ := wpc_returns
    (wpc_blockOpen_says (C := fun _ => False) hnf hlen hmeta hoff hsize hh (attrsSay_files ht h1 hr h2 hls))
    (fun _ h => h)
  exact ⟨b, w', k1, k2, k3⟩

/-- The same for a block that only holds attributes. -/
theorem C33_meta_partial (env : Env) (base : CStr) (w : World) (rs : List RecV1) (tail : List Byte)
    (ls : List (CStr × AttrVal × CStr)) (hnf : w.faults = noFaults) (hlen : base.length ≤ 8192)
    (hmeta : isMeta base = true) (ht : tail.length < 4)
    (h1 : w.fs.node (fileKey base .attr) = some (.file (fileV1 env.m rs ++ tail)))
    (hr : ∀ r ∈ rs, r.Ok env.m)
    (h2 : (w.fs.node (fileKey base .attrV2) = none ∧ ls = []) ∨
      w.fs.node (fileKey base .attrV2) = some (.file (textV2 ls)))
    (hls : ∀ l ∈ ls, Storable l.1 l.2.1 ∧ Typed env.m l.2.1 ∧ OneLine l.2.2) :
    ∃ b w', blockOpen env base w = .ok (0, some b) w' ∧
      attrView env.m b.attrset = putLines (putRecs env.m AttrMap.empty rs) ls := by
  obtain ⟨s1, s2, j1, j2, _, j4⟩ := attrsSay_files ht h1 hr h2 hls
  obtain ⟨r, w', k1, _, _, rfl⟩ := wpc_returns (wpc_blockOpen_meta (C := fun _ => False) hnf hlen hmeta j1 j2)
    (fun _ h => h)
  exact ⟨_, w', k1, j4⟩

/-- Two records with the same name, and another one. -/
def exRecs : List RecV1 :=
  [⟨b!"time", b!"<f8", 1, [1, 2, 3, 4, 5, 6, 7, 8]⟩, ⟨b!"n", b!">i4", 2, [0, 0, 0, 1, 0, 0, 0, 2]⟩,
    ⟨b!"time", b!"<i4", 1, [9, 0, 0, 0]⟩]

/-- The example block with an old attribute file. -/
def exLegacy : World :=
  ⟨exW.fs.set (fileKey b!"d/x" .attr) (.file (fileV1 exEnv.m exRecs ++ [1, 2])), noFaults, 0⟩

theorem exRecs_ok : ∀ r ∈ exRecs, r.Ok exEnv.m := by
  intro r hr
  simp only [exRecs, List.mem_cons, List.not_mem_nil, or_false] at hr
  rcases hr with rfl | rfl | rfl
  · exact ⟨by decide, by unfold Clean; decide, by decide, by decide, by decide, by decide, by decide, by decide, by decide⟩
  · exact ⟨by decide, by unfold Clean; decide, by decide, by decide, by decide, by decide, by decide, by decide, by decide⟩
  · exact ⟨by decide, by unfold Clean; decide, by decide, by decide, by decide, by decide, by decide, by decide, by decide⟩

example : ∃ b w', blockOpen exEnv exB.basename exLegacy = .ok (0, some b) w' ∧ SameShape exB b ∧
    attrView exEnv.m b.attrset = putLines (putRecs exEnv.m AttrMap.empty exRecs) [] := by
  have hne : ∀ id, id ≠ .attr → exLegacy.fs.node (fileKey b!"d/x" id) = exW.fs.node (fileKey b!"d/x" id) :=
    fun id h => FS.set_other _ _ _ _ (fileKey_ne h)
  refine C33_legacy_partial exEnv exB exLegacy exRecs [1, 2] [] rfl (by decide) (by decide) rfl rfl ?_ (by decide)
    (FS.set_node _ _ _) exRecs_ok ?_ (by simp)
  · have := exB_synced.header rfl
    unfold HeaderSays at this ⊢
    have e := hne .header (by simp)
    rw [show exB.basename = b!"d/x" from rfl] at this ⊢
    rw [bytes_congr e, e]
    exact this
  · right
    show exLegacy.fs.node (fileKey b!"d/x" .attrV2) = _
    rw [hne .attrV2 (by simp)]
    decide +kernel

/-- **C33 is false** for records whose name holds a blank and for records without elements: the block
cannot be opened. -/
theorem C33_refused :
    ((blockOpen exEnv b!"d/x" ⟨exW.fs.set (fileKey b!"d/x" .attr)
      (.file (fileV1 exEnv.m [⟨b!"a b", b!"<i4", 1, [9, 0, 0, 0]⟩])), noFaults, 0⟩).val?.map fun r => r.1) = some (-1) ∧
    ((blockOpen exEnv b!"d/x" ⟨exW.fs.set (fileKey b!"d/x" .attr)
      (.file (fileV1 exEnv.m [⟨b!"a", b!"<i4", 0, []⟩])), noFaults, 0⟩).val?.map fun r => r.1) = some (-1) := by
  decide +kernel

/-- **C31 is false** when an old attribute file holds the name: open, remove `n`, set something, close and
reopen: `n` is back. -/
theorem C31_resurrected :
    ((do
      let r ← blockOpen exEnv b!"d/x"
      match r.2 with
      | none => M.ub
      | some bb =>
        match attrRun exEnv bb.attrset [.remove b!"n", .set b!"k" b!"i4" 1 exMem 100] with
        | none => M.ub
        | some (anses, s) => do
          let r ← closeOpen exEnv { bb with attrset := s }
          pure (anses.map (·.rc), attrView exEnv.m s b!"n",
            r.2.2.map fun b => attrView exEnv.m b.attrset b!"n") : M _) exLegacy).val? =
      some ([0, 0], none, some (some ⟨b!">i4", 2, [0, 0, 0, 1, 0, 0, 0, 2]⟩)) := by
  decide +kernel

end Verif
