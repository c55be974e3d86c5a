import Verif.Proof.Scripts
import Verif.Props.CopyMay
/-!
# C78 and C79: `bigfile-rename`, `bigfile-rm` and `bigfile-repartition`
-/

set_option autoImplicit false

namespace Verif

open Spec

variable {env : Env} {K : Kind} {A : Content} {w : World}

/-! ## C78 -/

theorem moved_block {fs fs' : FS} {p q : CStr} (h : Moved (resolve p) (resolve q) fs fs') (hA : OnDisk env K fs p A)
    (hl : q.length ≤ 8192) (hm : isMeta q = false) : OnDisk env K fs' q A := by
  refine hA.at ?_ ?_ hl hm
  · have := h.there []
    rwa [List.append_nil, List.append_nil] at this
  · intro id
    rw [fileKey_eq, fileKey_eq]
    exact h.there _

/-- **C78**, renaming: whatever fails and whenever the process is killed, either nothing has changed, or the whole tree is at its new place,
and every block in it with all its rows and attributes. Without failures it is moved, if it exists and the directory it is moved to does. -/
theorem C78_rename (file block newname : CStr) (w : World) (ht : TreeOk w.fs) (hf : file ≠ [])
    (hnew : w.fs.node (resolve file ++ names newname) = none) :
    wpc (renameTool file block newname) w
      (fun ok w' => ok = false ∧ w'.fs = w.fs ∨ ok = true ∧ Moved (resolve file ++ names block) (resolve file ++ names newname) w.fs w'.fs)
      (fun w' => w'.fs = w.fs ∨ Moved (resolve file ++ names block) (resolve file ++ names newname) w.fs w'.fs) ∧
    (w.faults = noFaults → names block ≠ [] → (w.fs.node (resolve file ++ names block)).isSome = true →
      w.fs.node (resolve file ++ names newname).dropLast = some .dir → ¬ names block <+: names newname →
      ∃ w', renameTool file block newname w = .ok true w') := by
  have h := wpc_mv (w := w) (a := slashed file block) (b := slashed file newname) (by rw [resolve_slashed _ _ hf]; exact hnew) ht
  rw [resolve_slashed _ _ hf, resolve_slashed _ _ hf] at h
  constructor
  · refine wpc_mono h ?_ ?_
    · rintro ok w' ⟨_, h | h⟩
      · exact Or.inl ⟨h.1, h.2.1⟩
      · exact Or.inr ⟨h.1, h.2.1⟩
    · rintro w' ⟨_, h | h⟩
      · exact Or.inl h
      · exact Or.inr h.1
  · intro hnf hne h1 h2 h3
    obtain ⟨ok, w', e, _, h | h⟩ := wpc_returns h (fun _ h => h.1 hnf)
    · refine absurd ?_ (h.2.2 hnf)
      refine ⟨h1, h2, ?_, ?_⟩
      · intro h4
        exact h3 ((List.prefix_append_right_inj _).mp h4)
      · by_cases hr : resolve file = []
        · right
          rw [hr, List.nil_append]
          cases hb : names block with
          | nil => exact absurd hb hne
          | cons c cs =>
            have := names_isName block c (by rw [hb]; simp)
            simp [this.ne]
        · left
          rw [List.length_append]
          have := List.length_pos_iff.mpr hr
          have := List.length_pos_iff.mpr hne
          omega
    · rw [h.1] at e
      exact ⟨w', e⟩

/-- A block inside the tree that was renamed. -/
theorem C78_renamed_block (fs fs' : FS) (file block newname : CStr) (hf : file ≠ [])
    (h : Moved (resolve file ++ names block) (resolve file ++ names newname) fs fs') (inner : CStr)
    (hb : block ≠ []) (hn : newname ≠ [])
    (hA : OnDisk env K fs (pathJoin file (pathJoin block inner)) A) (hl : (pathJoin file (pathJoin newname inner)).length ≤ 8192)
    (hm : isMeta (pathJoin file (pathJoin newname inner)) = false) : OnDisk env K fs' (pathJoin file (pathJoin newname inner)) A := by
  have hres : ∀ x : CStr, x ≠ [] → resolve (pathJoin file (pathJoin x inner)) = (resolve file ++ names x) ++ names inner := by
    intro x hx
    rw [resolve_join _ _ hf]
    have : names (pathJoin x inner) = names x ++ names inner := by
      unfold pathJoin
      rw [if_neg (by simpa using hx)]
      split
      · rename_i h'
        obtain ⟨b', rfl⟩ := getLast_slash x h'
        rw [List.append_assoc, List.singleton_append, names_append, names_slash]
      · rw [names_append]
    rw [this, List.append_assoc]
  refine hA.at ?_ ?_ hl hm
  · rw [hres _ hb, hres _ hn]
    exact h.there _
  · intro id
    rw [fileKey_eq, fileKey_eq, hres _ hb, hres _ hn, List.append_assoc, List.append_assoc _ (names inner)]
    exact h.there _

/-- **C78, a finding.** If the new name is that of an existing block (or directory), the block does not get the new name and is not refused:
it becomes a block inside the other one, under its old last name `c`, with nothing of the other block changed. -/
theorem C78_onto_existing (file block newname : CStr) (ds : List CStr) (c : CStr) (w : World) (ht : TreeOk w.fs) (hf : file ≠ [])
    (hblock : names block = ds ++ [c]) (hdir : w.fs.node (resolve file ++ names newname) = some .dir)
    (hnew : w.fs.node (resolve file ++ names newname ++ [c]) = none) :
    wpc (renameTool file block newname) w
      (fun ok w' => ok = false ∧ w'.fs = w.fs ∨
        ok = true ∧ Moved (resolve file ++ names block) (resolve file ++ names newname ++ [c]) w.fs w'.fs)
      (fun w' => w'.fs = w.fs ∨ Moved (resolve file ++ names block) (resolve file ++ names newname ++ [c]) w.fs w'.fs) ∧
    (w.faults = noFaults → (w.fs.node (resolve file ++ names block)).isSome = true → ¬ names block <+: names newname ++ [c] →
      ∃ w', renameTool file block newname w = .ok true w') := by
  have hc := names_isName block c (by rw [hblock]; simp)
  have htgt : mvTarget w.fs (slashed file block) (slashed file newname) = resolve file ++ names newname ++ [c] := by
    unfold mvTarget
    rw [resolve_slashed _ _ hf, resolve_slashed _ _ hf, if_pos hdir, hblock, ← List.append_assoc, List.getLast?_append]
    rfl
  have hkey : IsKey (resolve file ++ names newname ++ [c]) := by
    refine isKey_append (isKey_append (isKey_resolve file) (names_isName newname)) ?_
    intro x hx
    rw [List.mem_singleton] at hx
    rw [hx]
    exact hc
  have h := wpc_mv_to htgt hnew hkey ht
  rw [resolve_slashed _ _ hf] at h
  constructor
  · refine wpc_mono h ?_ ?_
    · rintro ok w' ⟨_, h | h⟩
      · exact Or.inl ⟨h.1, h.2.1⟩
      · exact Or.inr ⟨h.1, h.2.1⟩
    · rintro w' ⟨_, h | h⟩
      · exact Or.inl h
      · exact Or.inr h.1
  · intro hnf h1 h3
    obtain ⟨ok, w', e, _, h | h⟩ := wpc_returns h (fun _ h => h.1 hnf)
    · refine absurd ?_ (h.2.2 hnf)
      refine ⟨h1, by rw [List.dropLast_concat]; exact hdir, ?_, ?_⟩
      · intro h4
        rw [List.append_assoc] at h4
        exact h3 ((List.prefix_append_right_inj _).mp h4)
      · rw [hblock]
        cases hr : resolve file ++ ds with
        | nil =>
          right
          rw [← List.append_assoc, hr, List.nil_append]
          have := hc
          unfold IsName at this
          simp only [List.head?_cons, ne_eq, Option.some.injEq]
          exact this.1
        | cons x xs =>
          left
          rw [← List.append_assoc, hr]
          simp
    · rw [h.1] at e
      exact ⟨w', e⟩

/-- **C78**, removing: whatever fails and whenever the process is killed, only entries at or below the block's directory can be gone; if it
succeeds all of them are gone. Without failures it succeeds if the directory exists. -/
theorem C78_rm (order : List Key → List Key) (ho : ChildrenFirst order) (file block : CStr) (w : World) (ht : TreeOk w.fs) (hf : file ≠ []) :
    wpc (rmTool order file [block]) w
      (fun ok w' => Trimmed (resolve file ++ names block) w.fs w'.fs ∧
        (ok = true → ∀ k, resolve file ++ names block <+: k → w'.fs.node k = none))
      (fun w' => Trimmed (resolve file ++ names block) w.fs w'.fs) ∧
    (w.faults = noFaults → (w.fs.node (resolve file ++ names block)).isSome = true → ∃ w', rmTool order file [block] w = .ok true w') := by
  unfold rmTool
  have h := wpc_rmTree (w := w) (fun l => (ho l).1) ht (slashed file block)
  rw [resolve_slashed _ _ hf] at h
  constructor
  · exact wpc_mono h (fun ok w' h => h.2) (fun w' h => h.2)
  · intro hnf hs
    obtain ⟨w', e, _⟩ := rmTree_succeeds (w := w) ho ht hnf (path := slashed file block) (by rw [resolve_slashed _ _ hf]; exact hs)
    exact ⟨w', e⟩

/-- Other blocks stay when a block is removed. -/
theorem C78_others_stay (fs fs' : FS) (file block other : CStr) (h : Trimmed (resolve file ++ names block) fs fs')
    (hA : OnDisk env K fs other A) (h1 : ¬ resolve file ++ names block <+: resolve other)
    (h2 : ∀ id, resolve file ++ names block ≠ fileKey other id) : OnDisk env K fs' other A := hA.trimmed h h1 h2

/-! ## C79 -/

/-- The name of the backup of a block. -/
theorem backup_names (ds : List CStr) (c : CStr) (h : ∀ x ∈ ds ++ [c], IsName x) :
    backup (joinNames (ds ++ [c])) = joinNames (ds ++ [c ++ b!"-REPBAK"]) ∧ ∀ x ∈ ds ++ [c ++ b!"-REPBAK"], IsName x := by
  constructor
  · clear h
    unfold backup
    induction ds with
    | nil => rfl
    | cons d ds ih =>
      cases ds with
      | nil =>
        show (d ++ 47 :: c) ++ _ = d ++ 47 :: (c ++ _)
        rw [List.append_assoc, List.cons_append]
      | cons e ds =>
        simp only [List.cons_append] at ih ⊢
        simp only [joinNames, List.append_assoc, List.cons_append]
        rw [ih]
  · intro x hx
    rw [List.mem_append, List.mem_singleton] at hx
    rcases hx with hx | rfl
    · exact h x (by simp [hx])
    · have hc := h c (by simp)
      refine ⟨by simp, ?_, ?_⟩
      · intro he
        have := congrArg List.length he
        simp at this
      · rw [List.mem_append]
        rintro (h1 | h1)
        · exact hc.slash h1
        · revert h1; decide

/-- Where a block and its backup are. -/
structure BlockPaths (file : CStr) (ds : List CStr) (c : CStr) : Prop where
  blk : resolve (pathJoin file (joinNames (ds ++ [c]))) = resolve file ++ ds ++ [c]
  bak : resolve (pathJoin file (backup (joinNames (ds ++ [c])))) = resolve file ++ ds ++ [c ++ b!"-REPBAK"]
  nblk : names (joinNames (ds ++ [c])) = ds ++ [c]
  nbak : names (backup (joinNames (ds ++ [c]))) = ds ++ [c ++ b!"-REPBAK"]
  mblk : isMeta (pathJoin file (joinNames (ds ++ [c]))) = false
  mbak : isMeta (pathJoin file (backup (joinNames (ds ++ [c])))) = false

theorem blockPaths (file : CStr) (ds : List CStr) (c : CStr) (hf : file ≠ []) (h : ∀ x ∈ ds ++ [c], IsName x) : BlockPaths file ds c := by
  obtain ⟨e, h'⟩ := backup_names ds c h
  have n1 := names_joinNames _ h
  have n2 : names (backup (joinNames (ds ++ [c]))) = ds ++ [c ++ b!"-REPBAK"] := by rw [e]; exact names_joinNames _ h'
  refine ⟨?_, ?_, n1, n2, ?_, ?_⟩
  · rw [resolve_join _ _ hf, n1, List.append_assoc]
  · rw [resolve_join _ _ hf, n2, List.append_assoc]
  · exact isMeta_names _ _ hf (by simp) h
  · rw [e]; exact isMeta_names _ _ hf (by simp) h'

theorem same_level {k : Key} {c d : CStr} (h : c ≠ d) : ¬ k ++ [c] <+: k ++ [d] := by
  intro h'
  rw [List.prefix_append_right_inj] at h'
  simp at h'
  exact h h'

theorem bak_ne (c : CStr) : c ++ b!"-REPBAK" ≠ c := by
  intro h
  have := congrArg List.length h
  simp at this

/-- After the block has been renamed. -/
structure Renamed (env : Env) (K : Kind) (A : Content) (file block : CStr) (hdr : Block) (fs0 fs : FS) : Prop where
  tree : TreeOk fs
  src : OnDisk env K fs (pathJoin file (backup block)) A
  cut : HeaderCut fs0 (pathJoin file block) hdr → HeaderCut fs (pathJoin file (backup block)) hdr
  room : Room fs (pathJoin file block)
  apart : Apart (pathJoin file (backup block)) (pathJoin file block)
  way : ∀ k, k <+: resolve (pathJoin file block) → k ≠ resolve (pathJoin file block) → fs.node k = some .dir
  gone : ∀ k, resolve (pathJoin file block) <+: k → fs.node k = none
  rest : ∀ k, ¬ resolve (pathJoin file block) <+: k → ¬ resolve (pathJoin file (backup block)) <+: k → fs.node k = fs0.node k

theorem renamed {file : CStr} {ds : List CStr} {c : CStr} {hdr : Block} {fs0 fs : FS} (hf : file ≠ []) (hds : ∀ x ∈ ds ++ [c], IsName x)
    (ht0 : TreeOk fs0) (hA : OnDisk env K fs0 (pathJoin file (joinNames (ds ++ [c]))) A)
    (hl : (pathJoin file (backup (joinNames (ds ++ [c])))).length ≤ 8192)
    (hm : Moved (resolve file ++ names (joinNames (ds ++ [c]))) (resolve file ++ names (backup (joinNames (ds ++ [c])))) fs0 fs)
    (ht : TreeOk fs) : Renamed env K A file (joinNames (ds ++ [c])) hdr fs0 fs := by
  have hp := blockPaths file ds c hf hds
  rw [hp.nblk, hp.nbak, ← List.append_assoc, ← List.append_assoc, ← hp.blk, ← hp.bak] at hm
  have hA' : OnDisk env K fs (pathJoin file (backup (joinNames (ds ++ [c])))) A := moved_block hm hA hl hp.mbak
  have hdir : fs0.node (resolve (pathJoin file (joinNames (ds ++ [c])))) = some .dir := by
    obtain ⟨_, _, b, hb, _, h⟩ := hA
    rw [← hb]
    exact h.dir.dir
  have hgone : ∀ k, resolve (pathJoin file (joinNames (ds ++ [c]))) <+: k → fs.node k = none := by
    rintro k ⟨t, rfl⟩
    exact hm.gone t
  have hway : ∀ k, k <+: resolve (pathJoin file (joinNames (ds ++ [c]))) → k ≠ resolve (pathJoin file (joinNames (ds ++ [c]))) →
      fs.node k = some .dir := by
    intro k h1 h2
    rw [hm.rest k ?_ ?_]
    · exact prefix_dir_of ht0 (by rw [hdir]; rfl) h1 h2
    · intro h3
      exact h2 (h1.eq_of_length_le h3.length_le)
    · intro h3
      have := h3.trans h1
      rw [hp.blk, hp.bak] at this
      exact same_level (bak_ne c) this
  refine ⟨ht, hA', ?_, ⟨?_, ?_, ?_⟩, ⟨?_, ?_, ?_⟩, hway, hgone, hm.rest⟩
  · rintro ⟨g, n, h⟩
    refine ⟨g, n, ?_⟩
    rw [fileKey_eq] at h ⊢
    rw [hm.there]
    exact h
  · rintro k hk ⟨d, hd⟩
    by_cases he : k = resolve (pathJoin file (joinNames (ds ++ [c])))
    · rw [hgone k (by rw [he]; exact List.prefix_refl _)] at hd; cases hd
    · rw [hway k hk he] at hd; cases hd
  · intro id h
    rw [hgone _ (by rw [fileKey_eq]; exact List.prefix_append _ _)] at h
    cases h
  · exact hgone _ (by rw [fileKey_eq]; exact List.prefix_append _ _)
  · rw [hp.blk, hp.bak]
    intro h
    exact same_level (bak_ne c) (by rw [h]; exact List.prefix_refl _)
  · intro id h
    rw [fileKey_eq, hp.blk, hp.bak] at h
    have := congrArg List.length h
    simp at this
  · intro id h
    rw [fileKey_eq, hp.blk, hp.bak] at h
    have := h.length_le
    simp at this

/-- What is elsewhere stays when the block is copied back. -/
theorem Renamed.made {file block : CStr} {hdr : Block} {fs0 fs fs' : FS} (h : Renamed env K A file block hdr fs0 fs)
    (hm : OnlyMade (pathJoin file block) fs fs') : ∀ k, fs'.node k ≠ fs.node k →
      k = resolve (pathJoin file block) ∨ ∃ id, k = fileKey (pathJoin file block) id := by
  intro k hk
  rcases hm k hk with h1 | ⟨h1, h2, _⟩
  · exact Or.inr h1
  · by_cases he : k = resolve (pathJoin file block)
    · exact Or.inl he
    · rw [h.way k h1 he] at h2; cases h2

/-- The rows and the attributes of the block are still there: in the block, in its backup, or in the block in other files; or, if a file
could not be opened (`f`), without the attributes. -/
def Kept (env : Env) (K : Kind) (A : Content) (n : Nat) (f : Prop) (fs : FS) (block bak : CStr) : Prop :=
  OnDisk env K fs block A ∨ OnDisk env K fs bak A ∨ OnDisk env K fs block (A.inFiles n) ∨
    f ∧ OnDisk env K fs block { A.inFiles n with attrs := AttrMap.empty, saved := AttrMap.empty }

/-- **C79**, failures and kills (partial: as for `C51_faults_partial`, no failure goes unreported; rows may be missing; if a
file cannot be opened the attributes can be lost). Whatever fails and whenever the job is killed, all rows and attributes of the block are
in the block or in its backup, and nothing but these two directories has changed. If the job gets to its end the block is complete, in as
many files as requested, and the backup is gone. -/
theorem C79_keeps_partial (env : Env) (K : Kind) (A : Content) (order : List Key → List Key) (verbose : Bool) (file : CStr) (ds : List CStr)
    (c : CStr) (nfile : Option Nat) (buf : Int) (mem : Mem) (w : World) (hdr : Block) (hns : NoSilent w.faults) (ht : TreeOk w.fs)
    (ho : ChildrenFirst order) (hf : file ≠ []) (hfl : file.length ≤ 8192) (hds : ∀ x ∈ ds ++ [c], IsName x)
    (hsrc : OnDisk env K w.fs (pathJoin file (joinNames (ds ++ [c]))) A)
    (hcut : HeaderCut w.fs (pathJoin file (joinNames (ds ++ [c]))) hdr)
    (hbak : w.fs.node (resolve file ++ ds ++ [c ++ b!"-REPBAK"]) = none)
    (hlen : (pathJoin file (backup (joinNames (ds ++ [c])))).length ≤ 8192)
    (hn : 0 < copyFiles nfile A.nfile ∨ A.size = 0) (hnmax : copyFiles nfile A.nfile ≤ 16777216)
    (hov : copyFiles nfile A.nfile * A.size < 18446744073709551616)
    (hbuf : K.w * K.nm ≤ 268435456) (hbufm : A.size + 268435456 < 9223372036854775808) :
    wpc (repart env order verbose file nfile (joinNames (ds ++ [c])) buf mem) w
      (fun e w' => Kept env K A (copyFiles nfile A.nfile) (∃ i, w.faults i = .fail) w'.fs (pathJoin file (joinNames (ds ++ [c])))
          (pathJoin file (backup (joinNames (ds ++ [c])))) ∧
        (∀ k, ¬ resolve file ++ ds ++ [c] <+: k → ¬ resolve file ++ ds ++ [c ++ b!"-REPBAK"] <+: k → w'.fs.node k = w.fs.node k) ∧
        (e = .failed ∨ e = .done ∧ (∀ k, resolve file ++ ds ++ [c ++ b!"-REPBAK"] <+: k → w'.fs.node k = none) ∧
          (OnDisk env K w'.fs (pathJoin file (joinNames (ds ++ [c]))) (A.inFiles (copyFiles nfile A.nfile)) ∨
            (∃ i, w.faults i = .fail) ∧ OnDisk env K w'.fs (pathJoin file (joinNames (ds ++ [c])))
              { A.inFiles (copyFiles nfile A.nfile) with attrs := AttrMap.empty, saved := AttrMap.empty })))
      (fun w' => Kept env K A (copyFiles nfile A.nfile) (∃ i, w.faults i = .fail) w'.fs (pathJoin file (joinNames (ds ++ [c])))
          (pathJoin file (backup (joinNames (ds ++ [c])))) ∧
        (∀ k, ¬ resolve file ++ ds ++ [c] <+: k → ¬ resolve file ++ ds ++ [c ++ b!"-REPBAK"] <+: k → w'.fs.node k = w.fs.node k)) := by
  have hp := blockPaths file ds c hf hds
  have hmv := wpc_mv (w := w) (a := slashed file (joinNames (ds ++ [c]))) (b := slashed file (backup (joinNames (ds ++ [c])))) (by
    rw [resolve_slashed _ _ hf, hp.nbak, ← List.append_assoc]; exact hbak) ht
  rw [resolve_slashed _ _ hf, resolve_slashed _ _ hf] at hmv
  have hrest : ∀ {fs1 fs2 : FS}, Renamed env K A file (joinNames (ds ++ [c])) hdr w.fs fs1 →
      OnlyMade (pathJoin file (joinNames (ds ++ [c]))) fs1 fs2 →
      ∀ k, ¬ resolve file ++ ds ++ [c] <+: k → ¬ resolve file ++ ds ++ [c ++ b!"-REPBAK"] <+: k → fs2.node k = w.fs.node k := by
    intro fs1 fs2 hr hm k h1 h2
    rw [← hp.blk] at h1
    rw [← hp.bak] at h2
    rw [← hr.rest k h1 h2]
    by_cases he : fs2.node k = fs1.node k
    · exact he
    · rcases hr.made hm k he with rfl | ⟨id, rfl⟩
      · exact absurd (List.prefix_refl _) h1
      · exact absurd (by rw [fileKey_eq]; exact List.prefix_append _ _) h1
  unfold repart renameTool
  rw [wpc_bind]
  refine wpc_mono hmv ?_ ?_
  · rintro ok w1 ⟨f1, ⟨rfl, e1, _⟩ | ⟨rfl, hm, ht1⟩⟩
    · rw [if_pos (by decide), wpc_pure, e1]
      exact ⟨Or.inl hsrc, fun _ _ _ => rfl, Or.inl rfl⟩
    · have hr := renamed (hdr := hdr) hf hds ht hsrc hlen hm ht1
      rw [if_neg (by decide)]
      by_cases hv : verbose = true
      · rw [hv, if_neg (by decide), wpc_bind]
        have hlen' : (pathJoin file (joinNames (ds ++ [c]))).length ≤ 8192 := by
          obtain ⟨_, _, b, hb, _, h⟩ := hsrc
          rw [← hb]
          exact h.savable.base
        have hcp := C51_faults_partial env K A file (backup (joinNames (ds ++ [c]))) file (joinNames (ds ++ [c])) nfile 268435456 buf mem w1 hdr
          (by rw [f1]; exact hns) ht1 hfl hf hfl hr.src (hr.cut hcut) hr.apart hr.room hlen' hp.mblk hn hnmax hov hbuf hbufm
        have hk := (copyMain_keeps env file (backup (joinNames (ds ++ [c]))) file (joinNames (ds ++ [c])) nfile 268435456 buf mem)
        rw [f1] at hcp
        refine wpc_mono (wpc_wlp hcp (hk w1 ht1)) ?_ ?_
        · rintro e w2 ⟨⟨hmade, hbk, he⟩, ht2⟩
          have hrest2 := hrest hr hmade
          rcases he with rfl | ⟨rfl, hc⟩
          · exact ⟨Or.inr (Or.inl hbk), hrest2, Or.inl rfl⟩
          · dsimp only
            rw [wpc_bind]
            have hrm := wpc_rmTree (w := w2) (fun l => (ho l).1) ht2.1 (slashed file (backup (joinNames (ds ++ [c]))))
            rw [resolve_slashed _ _ hf, hp.nbak, ← List.append_assoc] at hrm
            have hstay : ∀ {B : Content} {fs3 : FS}, Trimmed (resolve file ++ ds ++ [c ++ b!"-REPBAK"]) w2.fs fs3 →
                OnDisk env K w2.fs (pathJoin file (joinNames (ds ++ [c]))) B → OnDisk env K fs3 (pathJoin file (joinNames (ds ++ [c]))) B := by
              intro B fs3 htr hB
              refine hB.trimmed htr ?_ ?_
              · rw [hp.blk]; exact same_level (bak_ne c)
              · intro id h
                rw [fileKey_eq, hp.blk] at h
                have := congrArg List.length h
                simp at this
            have hcopy : ∀ {fs3 : FS}, Trimmed (resolve file ++ ds ++ [c ++ b!"-REPBAK"]) w2.fs fs3 →
                (OnDisk env K fs3 (pathJoin file (joinNames (ds ++ [c]))) (A.inFiles (copyFiles nfile A.nfile)) ∨
                (∃ i, w.faults i = .fail) ∧ OnDisk env K fs3 (pathJoin file (joinNames (ds ++ [c])))
                  { A.inFiles (copyFiles nfile A.nfile) with attrs := AttrMap.empty, saved := AttrMap.empty }) := by
              intro fs3 htr
              rcases hc with h | ⟨h, h'⟩
              · exact Or.inl (hstay htr h)
              · exact Or.inr ⟨h, hstay htr h'⟩
            have hrest3 : ∀ {fs3 : FS}, Trimmed (resolve file ++ ds ++ [c ++ b!"-REPBAK"]) w2.fs fs3 →
                ∀ k, ¬ resolve file ++ ds ++ [c] <+: k → ¬ resolve file ++ ds ++ [c ++ b!"-REPBAK"] <+: k → fs3.node k = w.fs.node k := by
              intro fs3 htr k h1 h2
              rw [← hrest2 k h1 h2]
              rcases htr k with h | h
              · exact h
              · exact absurd h.1 h2
            refine wpc_mono hrm ?_ ?_
            · rintro ok w3 ⟨_, htr, hgone⟩
              cases ok with
              | false =>
                rw [if_neg (by decide), wpc_pure]
                exact ⟨Or.inr (Or.inr (hcopy htr)), hrest3 htr, Or.inl rfl⟩
              | true =>
                rw [if_pos rfl, wpc_pure]
                exact ⟨Or.inr (Or.inr (hcopy htr)), hrest3 htr, Or.inr ⟨rfl, hgone rfl, hcopy htr⟩⟩
            · rintro w3 ⟨_, htr⟩
              exact ⟨Or.inr (Or.inr (hcopy htr)), hrest3 htr⟩
        · rintro w2 ⟨⟨hmade, hbk⟩, _⟩
          exact ⟨Or.inr (Or.inl hbk), hrest hr hmade⟩
      · rw [Bool.eq_false_iff.mpr hv, if_pos (by decide), wpc_pure]
        exact ⟨Or.inr (Or.inl hr.src), hrest hr (OnlyMade.refl _ _), Or.inl rfl⟩
  · rintro w1 ⟨_, e1 | ⟨hm, ht1⟩⟩
    · rw [e1]
      exact ⟨Or.inl hsrc, fun _ _ _ => rfl⟩
    · have hr := renamed (hdr := hdr) hf hds ht hsrc hlen hm ht1
      exact ⟨Or.inr (Or.inl hr.src), hrest hr (OnlyMade.refl _ _)⟩

/-- Other blocks of the file stay, whatever happens. -/
theorem C79_others_stay (fs fs' : FS) (p b : Key) (other : CStr)
    (h : ∀ k, ¬ p <+: k → ¬ b <+: k → fs'.node k = fs.node k) (hA : OnDisk env K fs other A) (h1 : ¬ p <+: resolve other)
    (h2 : ∀ id, p ≠ fileKey other id) (h3 : ¬ b <+: resolve other) (h4 : ∀ id, b ≠ fileKey other id) : OnDisk env K fs' other A := by
  refine hA.congr (h _ h1 h3) ?_
  intro id
  refine h _ ?_ ?_
  · rw [fileKey_eq, List.prefix_concat_iff]
    rintro (h' | h')
    · exact h2 id (by rw [fileKey_eq]; exact h')
    · exact h1 h'
  · rw [fileKey_eq, List.prefix_concat_iff]
    rintro (h' | h')
    · exact h4 id (by rw [fileKey_eq]; exact h')
    · exact h3 h'

/-- **C79**, without failures (partial: as for `C51_copy_partial`). With `-v` the job is done: the block has the same rows and attributes in as
many files as requested, its backup is gone, nothing else has changed, and below the block there is nothing but its own files. Without
`-v` (`C79_quiet`) it is not. -/
theorem C79_repartition_partial (env : Env) (K : Kind) (A : Content) (order : List Key → List Key) (file : CStr) (ds : List CStr)
    (c : CStr) (nfile : Option Nat) (buf : Int) (mem : Mem) (w : World) (hnf : w.faults = noFaults) (ht : TreeOk w.fs)
    (ho : ChildrenFirst order) (hf : file ≠ []) (hfl : file.length ≤ 8192) (hds : ∀ x ∈ ds ++ [c], IsName x)
    (hsrc : OnDisk env K w.fs (pathJoin file (joinNames (ds ++ [c]))) A) (hfull : A.full)
    (hbak : w.fs.node (resolve file ++ ds ++ [c ++ b!"-REPBAK"]) = none)
    (hlen : (pathJoin file (backup (joinNames (ds ++ [c])))).length ≤ 8192)
    (hblank : hasBlank (pathJoin file (joinNames (ds ++ [c]))) = false)
    (hn : 0 < copyFiles nfile A.nfile ∨ A.size = 0) (hnmax : copyFiles nfile A.nfile ≤ 16777216)
    (hov : copyFiles nfile A.nfile * A.size < 18446744073709551616)
    (hbuf : K.w * K.nm ≤ 268435456) (hbufm : A.size + 268435456 < 9223372036854775808) :
    ∃ w', repart env order true file nfile (joinNames (ds ++ [c])) buf mem w = .ok .done w' ∧
      OnDisk env K w'.fs (pathJoin file (joinNames (ds ++ [c]))) (A.inFiles (copyFiles nfile A.nfile)) ∧
      (∀ k, resolve file ++ ds ++ [c ++ b!"-REPBAK"] <+: k → w'.fs.node k = none) ∧
      (∀ k, ¬ resolve file ++ ds ++ [c] <+: k → ¬ resolve file ++ ds ++ [c ++ b!"-REPBAK"] <+: k → w'.fs.node k = w.fs.node k) ∧
      (∀ k, resolve file ++ ds ++ [c] <+: k → w'.fs.node k ≠ none →
        k = resolve file ++ ds ++ [c] ∨ ∃ id, k = fileKey (pathJoin file (joinNames (ds ++ [c]))) id) := by
  have hp := blockPaths file ds c hf hds
  have hdir : w.fs.node (resolve file ++ ds ++ [c]) = some .dir := by
    rw [← hp.blk]
    obtain ⟨_, _, b, hb, _, h⟩ := hsrc
    rw [← hb]
    exact h.dir.dir
  have hren := C78_rename file (joinNames (ds ++ [c])) (backup (joinNames (ds ++ [c]))) w ht hf (by
    rw [hp.nbak, ← List.append_assoc]; exact hbak)
  obtain ⟨w1, e1⟩ := hren.2 hnf (by rw [hp.nblk]; simp) (by rw [hp.nblk, ← List.append_assoc, hdir]; rfl) (by
    rw [hp.nbak, ← List.append_assoc, List.dropLast_concat]
    exact prefix_dir_of ht (by rw [hdir]; rfl) (List.prefix_append _ _) (by
      intro h
      have := congrArg List.length h
      simp at this)) (by
    rw [hp.nblk, hp.nbak]
    exact same_level (Ne.symm (bak_ne c)))
  have hmv := wpc_mv (w := w) (a := slashed file (joinNames (ds ++ [c]))) (b := slashed file (backup (joinNames (ds ++ [c])))) (by
    rw [resolve_slashed _ _ hf, hp.nbak, ← List.append_assoc]; exact hbak) ht
  rw [resolve_slashed _ _ hf, resolve_slashed _ _ hf] at hmv
  obtain ⟨f1, ⟨h, _⟩ | ⟨_, hm, ht1⟩⟩ := wpc_ok hmv e1
  · cases h
  have hr := renamed (hdr := exCopyHdr) hf hds ht hsrc hlen hm ht1
  have hlen' : (pathJoin file (joinNames (ds ++ [c]))).length ≤ 8192 := by
    obtain ⟨_, _, b, hb, _, h⟩ := hsrc
    rw [← hb]
    exact h.savable.base
  obtain ⟨w2, e2, hf2, hcopy, hbk, hmade⟩ := C51_copy_partial env K A file (backup (joinNames (ds ++ [c]))) file (joinNames (ds ++ [c])) nfile
    268435456 buf mem w1 (f1.trans hnf) ht1 hf hfl hf hfl hr.src hfull hr.apart hr.room hlen' hp.mblk hblank hn hnmax hov hbuf hbufm
  have hk := wlp_ok (copyMain_keeps env file (backup (joinNames (ds ++ [c]))) file (joinNames (ds ++ [c])) nfile 268435456 buf mem w1 ht1) e2
  have hbdir : w2.fs.node (resolve file ++ ds ++ [c ++ b!"-REPBAK"]) = some .dir := by
    rw [← hp.bak]
    obtain ⟨_, _, b, hb, _, h⟩ := hbk
    rw [← hb]
    exact h.dir.dir
  have hrm := C78_rm order ho file (backup (joinNames (ds ++ [c]))) w2 hk.1 hf
  rw [hp.nbak, ← List.append_assoc] at hrm
  obtain ⟨w3, e3⟩ := hrm.2 hf2 (by rw [hbdir]; rfl)
  obtain ⟨htr, hgone⟩ := wpc_ok hrm.1 e3
  refine ⟨w3, ?_, ?_, hgone rfl, ?_, ?_⟩
  · unfold repart
    simp only [bind, M.bind]
    rw [e1]
    dsimp only
    rw [if_neg (by decide), if_neg (by decide)]
    simp only [bind, M.bind]
    rw [e2]
    dsimp only
    simp only [bind, M.bind]
    rw [e3]
    rfl
  · refine hcopy.trimmed htr ?_ ?_
    · rw [hp.blk]; exact same_level (bak_ne c)
    · intro id h
      rw [fileKey_eq, hp.blk] at h
      have := congrArg List.length h
      simp at this
  · intro k h1 h2
    rcases htr k with h | h
    · rw [h]
      rw [← hp.blk] at h1
      rw [← hp.bak] at h2
      rw [← hr.rest k h1 h2]
      by_cases he : w2.fs.node k = w1.fs.node k
      · exact he
      · rcases hr.made hmade k he with rfl | ⟨id, rfl⟩
        · exact absurd (List.prefix_refl _) h1
        · exact absurd (by rw [fileKey_eq]; exact List.prefix_append _ _) h1
    · exact absurd h.1 h2
  · intro k h1 h2
    rcases htr k with h | h
    · rw [← hp.blk] at h1 ⊢
      exact hr.made hmade k (by rw [hr.gone k h1, ← h]; exact h2)
    · exact absurd h.2 h2

/-- Without `-v` the job fails without any file operation having failed: the block is at the name of its backup, and there is none at its
own. The rows and the attributes are those of the block. -/
theorem C79_quiet (env : Env) (K : Kind) (A : Content) (order : List Key → List Key) (file : CStr) (ds : List CStr)
    (c : CStr) (nfile : Option Nat) (buf : Int) (mem : Mem) (w : World) (hnf : w.faults = noFaults) (ht : TreeOk w.fs)
    (hf : file ≠ []) (hds : ∀ x ∈ ds ++ [c], IsName x)
    (hsrc : OnDisk env K w.fs (pathJoin file (joinNames (ds ++ [c]))) A)
    (hbak : w.fs.node (resolve file ++ ds ++ [c ++ b!"-REPBAK"]) = none)
    (hlen : (pathJoin file (backup (joinNames (ds ++ [c])))).length ≤ 8192) :
    ∃ w', repart env order false file nfile (joinNames (ds ++ [c])) buf mem w = .ok .failed w' ∧
      OnDisk env K w'.fs (pathJoin file (backup (joinNames (ds ++ [c])))) A ∧
      ∀ k, resolve file ++ ds ++ [c] <+: k → w'.fs.node k = none := by
  have hp := blockPaths file ds c hf hds
  have hdir : w.fs.node (resolve file ++ ds ++ [c]) = some .dir := by
    rw [← hp.blk]
    obtain ⟨_, _, b, hb, _, h⟩ := hsrc
    rw [← hb]
    exact h.dir.dir
  have hren := C78_rename file (joinNames (ds ++ [c])) (backup (joinNames (ds ++ [c]))) w ht hf (by
    rw [hp.nbak, ← List.append_assoc]; exact hbak)
  obtain ⟨w1, e1⟩ := hren.2 hnf (by rw [hp.nblk]; simp) (by rw [hp.nblk, ← List.append_assoc, hdir]; rfl) (by
    rw [hp.nbak, ← List.append_assoc, List.dropLast_concat]
    exact prefix_dir_of ht (by rw [hdir]; rfl) (List.prefix_append _ _) (by
      intro h
      have := congrArg List.length h
      simp at this)) (by
    rw [hp.nblk, hp.nbak]
    exact same_level (Ne.symm (bak_ne c)))
  obtain ⟨h, _⟩ | ⟨_, hm⟩ := wpc_ok hren.1 e1
  · cases h
  rw [hp.nblk, hp.nbak, ← List.append_assoc, ← List.append_assoc] at hm
  refine ⟨w1, ?_, moved_block (by rw [hp.blk, hp.bak]; exact hm) hsrc hlen hp.mbak, ?_⟩
  · unfold repart
    simp only [bind, M.bind]
    rw [e1]
    rfl
  · rintro k ⟨t, rfl⟩
    exact hm.gone t

/-- Blocks nested in a block are lost when it is repartitioned: below the block there is nothing but its own files (a name below the block
and one below that). -/
theorem C79_nested (file block : CStr) (ds : List CStr) (c x y : CStr) (t : Key) (fs : FS)
    (hp : resolve (pathJoin file block) = resolve file ++ ds ++ [c])
    (h : ∀ k, resolve file ++ ds ++ [c] <+: k → fs.node k ≠ none →
        k = resolve file ++ ds ++ [c] ∨ ∃ id, k = fileKey (pathJoin file block) id) :
    fs.node (resolve file ++ ds ++ [c] ++ x :: y :: t) = none := by
  refine Classical.byContradiction fun hne => ?_
  rcases h _ (List.prefix_append _ _) hne with h' | ⟨id, h'⟩
  · have := congrArg List.length h'
    simp at this
  · rw [fileKey_eq, hp] at h'
    have := congrArg List.length h'
    simp at this

/-! ## Examples -/

/-- One path into a list, longer paths first. -/
def exInsert (k : Key) : List Key → List Key
  | [] => [k]
  | x :: xs => if x.length ≤ k.length then k :: x :: xs else x :: exInsert k xs

/-- Longer paths first. -/
def exOrder (l : List Key) : List Key := l.foldr exInsert []

theorem exInsert_perm (k : Key) (l : List Key) : (exInsert k l).Perm (k :: l) := by
  induction l with
  | nil => exact List.Perm.refl _
  | cons x xs ih =>
    unfold exInsert
    split
    · exact List.Perm.refl _
    · exact (ih.cons x).trans (List.Perm.swap k x xs)

theorem exOrder_perm (l : List Key) : (exOrder l).Perm l := by
  induction l with
  | nil => exact List.Perm.refl _
  | cons x xs ih => exact (exInsert_perm x (exOrder xs)).trans (ih.cons x)

theorem exInsert_sorted (k : Key) (l : List Key) (h : l.Pairwise fun a b => b.length ≤ a.length) :
    (exInsert k l).Pairwise fun a b => b.length ≤ a.length := by
  induction l with
  | nil => exact List.pairwise_singleton _ _
  | cons x xs ih =>
    unfold exInsert
    rw [List.pairwise_cons] at h
    split
    · rename_i hx
      rw [List.pairwise_cons, List.pairwise_cons]
      refine ⟨?_, h⟩
      intro y hy
      rcases List.mem_cons.mp hy with rfl | hy
      · exact hx
      · exact Nat.le_trans (h.1 y hy) hx
    · rename_i hx
      rw [List.pairwise_cons]
      refine ⟨?_, ih h.2⟩
      intro y hy
      rcases List.mem_cons.mp ((exInsert_perm k xs).mem_iff.mp hy) with rfl | hy
      · omega
      · exact h.1 y hy

theorem exOrder_ok : ChildrenFirst exOrder := by
  intro l
  refine ⟨exOrder_perm l, fun hnd => ?_⟩
  have hs : (exOrder l).Pairwise fun a b => b.length ≤ a.length := by
    clear hnd
    induction l with
    | nil => exact List.Pairwise.nil
    | cons x xs ih => exact exInsert_sorted x _ ih
  have hn : (exOrder l).Pairwise fun a b => a ≠ b := ((exOrder_perm l).nodup_iff).mpr hnd
  refine (hs.and hn).imp ?_
  rintro a b ⟨h1, h2⟩ h3
  exact h2 (h3.eq_of_length_le h1)

/-- The block of `exCopySrc`, before it is repartitioned. -/
theorem exRepart_ready : ∃ w, exCopySrc exTreeWorld = .ok 0 w ∧ w.faults = noFaults ∧ TreeOk w.fs ∧ OnDisk exEnv exKind w.fs b!"d/z" exCopyA ∧
    HeaderCut w.fs b!"d/z" exCopyHdr ∧ w.fs.node (resolve b!"d" ++ [b!"z-REPBAK"]) = none := by
  obtain ⟨w, e, nf, _⟩ := exCopy_src
  obtain ⟨w', e', ht, h, hc, _⟩ := exCopy_ready
  obtain rfl : w = w' := by rw [e] at e'; injection e'
  have hchk : (exCopySrc exTreeWorld).fs?.map (fun fs => (fs.node (resolve b!"d" ++ [b!"z-REPBAK"]) = none : Bool)) = some true := by
    decide +kernel
  rw [e] at hchk
  simp only [Res.fs?, Option.map_some, Option.some.injEq, decide_eq_true_eq] at hchk
  exact ⟨w, e, nf, ht, h, hc, hchk⟩

theorem exCopyRows_full : exCopyA.full := by
  intro r hr
  have : ∀ r < 5, (exCopyA.rows r).isSome = true := by decide +kernel
  exact this r hr

theorem exName : ∀ x ∈ ([] : List CStr) ++ [b!"z"], IsName x := by
  intro x hx
  obtain rfl : x = b!"z" := by simpa using hx
  exact ⟨by decide, by decide, by decide⟩

/-- The hypotheses of `C79_keeps_partial`, with any failures and kills; the block has rows in three files. -/
example (faults : Nat → Fault) (hns : NoSilent faults) : ∃ w, exCopySrc exTreeWorld = .ok 0 w ∧
    wpc (repart exEnv exOrder true b!"d" (some 2) b!"z" 500 exMem) { w with faults := faults }
      (fun _ w' => Kept exEnv exKind exCopyA 2 (∃ i, faults i = .fail) w'.fs b!"d/z" b!"d/z-REPBAK")
      (fun w' => Kept exEnv exKind exCopyA 2 (∃ i, faults i = .fail) w'.fs b!"d/z" b!"d/z-REPBAK") := by
  obtain ⟨w, e, _, ht, h, hc, hb⟩ := exRepart_ready
  refine ⟨w, e, wpc_mono (C79_keeps_partial exEnv exKind exCopyA exOrder true b!"d" [] b!"z" (some 2) 500 exMem { w with faults := faults }
    exCopyHdr hns ht exOrder_ok (by decide) (by decide) exName h hc hb (by decide) (by decide) (by decide) (by decide)
    (by decide) (by decide)) ?_ ?_⟩
  · rintro e w' ⟨h1, _⟩
    exact h1
  · rintro w' ⟨h1, _⟩
    exact h1

/-- Those of `C79_repartition_partial` and of `C79_quiet`. -/
example : ∃ w, exCopySrc exTreeWorld = .ok 0 w ∧
    (∃ w', repart exEnv exOrder true b!"d" (some 2) b!"z" 500 exMem w = .ok .done w' ∧ OnDisk exEnv exKind w'.fs b!"d/z" (exCopyA.inFiles 2)) ∧
    (∃ w', repart exEnv exOrder false b!"d" (some 2) b!"z" 500 exMem w = .ok .failed w' ∧ OnDisk exEnv exKind w'.fs b!"d/z-REPBAK" exCopyA ∧
      w'.fs.node (resolve b!"d/z") = none) := by
  obtain ⟨w, e, nf, ht, h, hc, hb⟩ := exRepart_ready
  obtain ⟨w1, e1, h1, _⟩ := C79_repartition_partial exEnv exKind exCopyA exOrder b!"d" [] b!"z" (some 2) 500 exMem w nf ht exOrder_ok
    (by decide) (by decide) exName h exCopyRows_full hb (by decide) (by decide) (by decide) (by decide) (by decide) (by decide) (by decide)
  obtain ⟨w2, e2, h2, g2⟩ := C79_quiet exEnv exKind exCopyA exOrder b!"d" [] b!"z" (some 2) 500 exMem w nf ht (by decide) exName h hb (by decide)
  exact ⟨w, e, ⟨w1, e1, h1⟩, w2, e2, h2, g2 _ (List.prefix_refl _)⟩

/-- The job of the example with a failure of operation `n`. -/
def exRepartFail (n : Nat) : Res Exit :=
  match exCopySrc exTreeWorld with
  | .ok _ w => repart exEnv exOrder true b!"d" (some 2) b!"z" 500 exMem ⟨w.fs, fun i => if i = n then .fail else .none, 0⟩
  | _ => .hang

/-- If the attribute file cannot be opened when the backup is read, the job gets to its end, the attributes are lost, and there is no backup
to get them from. -/
theorem C79_attrs_lost : (exRepartFail 4).val? = some .done ∧ (exRepartFail 4).fs?.map (fun fs => (fs.bytes (fileKey b!"d/z" .attrV2),
    fs.node (resolve b!"d/z-REPBAK"))) = some ([], none) ∧
    (exRepartFail 1000).fs?.map (fun fs => fs.bytes (fileKey b!"d/z" .attrV2)) = some b!"a <i4 1 0A000000 #HUMANE [ 10 ]\n" := by
  decide +kernel

/-- A block, and another one nested in it, of which the outer one is repartitioned. -/
def exNested (verbose : Bool) : M Exit := do
  let _ ← exCopySrc
  let _ ← createBlock exEnv b!"d" b!"z/in" (some b!"i4") 1 [2]
  repart exEnv exOrder verbose b!"d" (some 2) b!"z" 500 exMem

/-- The nested block is lost, with nothing having failed. -/
theorem C79_nested_lost : (exNested true exTreeWorld).val? = some .done ∧
    (exNested false exTreeWorld).fs?.map (fun fs => (fs.node (fileKey b!"d/z-REPBAK/in" .header)).isSome) = some true ∧
    (exNested true exTreeWorld).fs?.map (fun fs => (fs.node (fileKey b!"d/z/in" .header), fs.node (fileKey b!"d/z-REPBAK/in" .header))) =
      some (none, none) := by decide +kernel

/-- The hypotheses of `C78_rename` and `C78_rm`. -/
example : ∃ w, exCopySrc exTreeWorld = .ok 0 w ∧ (∃ w', renameTool b!"d" b!"z" b!"y" w = .ok true w' ∧ OnDisk exEnv exKind w'.fs b!"d/y" exCopyA) ∧
    ∃ w', rmTool exOrder b!"d" [b!"z"] w = .ok true w' ∧ w'.fs.node (fileKey b!"d/z" .header) = none := by
  obtain ⟨w, e, nf, ht, h, hc, hb⟩ := exRepart_ready
  have hchk : (exCopySrc exTreeWorld).fs?.map (fun fs => (fs.node (resolve b!"d" ++ names b!"y") = none ∧
      (fs.node (resolve b!"d" ++ names b!"z")).isSome = true ∧ fs.node (resolve b!"d" ++ names b!"y").dropLast = some .dir : Bool)) = some true := by
    decide +kernel
  rw [e] at hchk
  simp only [Res.fs?, Option.map_some, Option.some.injEq, decide_eq_true_eq] at hchk
  have h1 := C78_rename b!"d" b!"z" b!"y" w ht (by decide) hchk.1
  obtain ⟨w1, e1⟩ := h1.2 nf (by decide) hchk.2.1 hchk.2.2 (by decide)
  obtain ⟨h2, _⟩ | ⟨_, hm⟩ := wpc_ok h1.1 e1
  · cases h2
  have h3 := C78_rm exOrder exOrder_ok b!"d" b!"z" w ht (by decide)
  obtain ⟨w3, e3⟩ := h3.2 nf hchk.2.1
  exact ⟨w, e, ⟨w1, e1, moved_block (p := b!"d/z") (q := b!"d/y") hm h (by decide) (by decide)⟩, w3, e3, (wpc_ok h3.1 e3).2 rfl _ (by decide)⟩

/-- The hypotheses of `C78_onto_existing`: the new name is that of the block `d/x`. -/
example : ∃ w, exCopySrc exTreeWorld = .ok 0 w ∧ ∃ w', renameTool b!"d" b!"z" b!"x" w = .ok true w' ∧
    OnDisk exEnv exKind w'.fs b!"d/x/z" exCopyA ∧ w'.fs.node (fileKey b!"d/x" .header) = w.fs.node (fileKey b!"d/x" .header) := by
  obtain ⟨w, e, nf, ht, h, hc, hb⟩ := exRepart_ready
  have hchk : (exCopySrc exTreeWorld).fs?.map (fun fs => (fs.node (resolve b!"d" ++ names b!"x") = some .dir ∧
      fs.node (resolve b!"d" ++ names b!"x" ++ [b!"z"]) = none ∧
      (fs.node (resolve b!"d" ++ names b!"z")).isSome = true : Bool)) = some true := by
    decide +kernel
  rw [e] at hchk
  simp only [Res.fs?, Option.map_some, Option.some.injEq, decide_eq_true_eq] at hchk
  have h1 := C78_onto_existing b!"d" b!"z" b!"x" [] b!"z" w ht (by decide) (by decide) hchk.1 hchk.2.1
  obtain ⟨w1, e1⟩ := h1.2 nf hchk.2.2 (by decide)
  obtain ⟨h2, _⟩ | ⟨_, hm⟩ := wpc_ok h1.1 e1
  · cases h2
  exact ⟨w, e, w1, e1, moved_block (p := b!"d/z") (q := b!"d/x/z") hm h (by decide) (by decide), hm.rest _ (by decide) (by decide)⟩

end Verif
