import Verif.Spec.Jobs
import Verif.Props.Scripts
/-!
# C79, several blocks
-/

set_option autoImplicit false

namespace Verif

open Spec

variable {env : Env} {w : World}

/-! ## Removing keeps the tree a tree -/

theorem Spec.TreeOk.remove {fs : FS} (ht : TreeOk fs) {k : Key} (h0 : k ≠ []) (h1 : k ≠ [[]]) (he : (fs.entries k).isEmpty = true) :
    TreeOk (fs.remove k) := by
  have hn : ∀ x, ((fs.remove k).node x).isSome = true → x ≠ k ∧ (fs.node x).isSome = true ∧ (fs.remove k).node x = fs.node x := by
    intro x hx
    unfold FS.remove at hx ⊢
    dsimp only at hx ⊢
    by_cases hxk : x = k
    · rw [if_pos hxk] at hx; cases hx
    · rw [if_neg hxk] at hx ⊢
      exact ⟨hxk, hx, rfl⟩
  have hother : ∀ x, x ≠ k → (fs.remove k).node x = fs.node x := fun x hx => if_neg hx
  refine ⟨?_, ?_, ?_, ?_, ?_, ?_⟩
  · rw [hother _ (Ne.symm h0)]; exact ht.cwd
  · rw [hother _ (Ne.symm h1)]; exact ht.root
  · intro x hx hxn
    obtain ⟨a, b, _⟩ := hn x hx
    have hp := ht.parent x b hxn
    rw [hother _ ?_]
    · exact hp
    · intro hd
      have hlast : x = k ++ [x.getLast hxn] := by rw [← hd]; exact (List.dropLast_concat_getLast hxn).symm
      have hname : IsName (x.getLast hxn) := by
        rcases ht.keys x b with hk | ⟨t, rfl, hk⟩
        · exact hk _ (List.getLast_mem hxn)
        · cases t with
          | nil => exact absurd hd.symm (by simpa using h0)
          | cons y ys =>
            rw [List.getLast_cons (by simp)]
            exact hk _ (List.getLast_mem _)
      have hmem : x.getLast hxn ∈ fs.entries k := by
        unfold FS.entries
        rw [List.mem_filterMap]
        refine ⟨x, ht.dom x b, ?_⟩
        rw [if_pos (by rw [b, hd]; simp), List.getLast?_eq_some_getLast hxn]
        simp [hname.ne]
      rw [List.isEmpty_iff] at he
      rw [he] at hmem
      cases hmem
  · intro x hx; exact ht.keys x (hn x hx).2.1
  · intro x hx
    obtain ⟨a, b, _⟩ := hn x hx
    exact List.mem_filter.mpr ⟨ht.dom x b, by simpa using a⟩
  · exact ht.nodup.sublist List.filter_sublist

theorem wlp_getFS (w : World) (Q : FS → World → Prop) (C : World → Prop) : wlp getFS w Q C = Q w.fs w := rfl

theorem removeOne_tree {k : Key} (h0 : k ≠ []) (h1 : k ≠ [[]]) (w : World) (ht : TreeOk w.fs) :
    wlp (removeOne k) w (fun _ w' => TreeOk w'.fs) (fun w' => TreeOk w'.fs) := by
  unfold removeOne
  rw [wlp_bind]
  show wlp _ ({ w with clock := w.clock + 1 } : World) _ _
  by_cases h2 : w.faults w.clock = .fail
  · rw [if_pos h2]; exact ht
  · rw [if_neg h2]
    by_cases h3 : w.faults w.clock = .crash 0
    · rw [if_pos h3]; exact ht
    · rw [if_neg h3, wlp_bind]
      rw [wlp_getFS]
      dsimp only
      by_cases hc : ((w.fs.node k).isSome && (w.fs.entries k).isEmpty) = true
      · rw [hc, if_pos rfl, wlp_bind]
        rw [Bool.and_eq_true] at hc
        show wlp _ ({ w with fs := w.fs.remove k, clock := w.clock + 1 } : World) _ _
        split <;> exact ht.remove h0 h1 hc.2
      · rw [Bool.eq_false_iff.mpr hc, if_neg (by decide)]
        split <;> exact ht

theorem removeAll_tree : ∀ (ks : List Key) (w : World), (∀ k ∈ ks, k ≠ [] ∧ k ≠ [[]]) → TreeOk w.fs →
    wlp (removeAll ks) w (fun _ w' => TreeOk w'.fs) (fun w' => TreeOk w'.fs) := by
  intro ks
  induction ks with
  | nil => intro w _ ht; exact ht
  | cons k ks ih =>
    intro w hk ht
    unfold removeAll
    rw [wlp_bind]
    refine wlp_mono (removeOne_tree (hk k (by simp)).1 (hk k (by simp)).2 w ht) ?_ (fun _ h => h)
    intro a w1 h1
    rw [wlp_bind]
    refine wlp_mono (ih w1 (fun x hx => hk x (by simp [hx])) h1) ?_ (fun _ h => h)
    intro b w2 h2
    exact h2

theorem rmTree_tree {order : List Key → List Key} (ho : ChildrenFirst order) {path : CStr} (hp : resolve path ≠ []) (hp' : resolve path ≠ [[]])
    (w : World) (ht : TreeOk w.fs) : wlp (rmTree order path) w (fun _ w' => TreeOk w'.fs) (fun w' => TreeOk w'.fs) := by
  unfold rmTree
  rw [wlp_bind]
  rw [wlp_getFS]
  split
  · exact ht
  · refine removeAll_tree _ w ?_ ht
    intro k hk
    have := ((ho _).1.mem_iff).mp hk
    simp only [List.mem_filter, Bool.and_eq_true, decide_eq_true_eq] at this
    have hpre := this.2.1
    refine ⟨fun h => ?_, fun h => ?_⟩
    · rw [h] at hpre
      exact hp (List.prefix_nil.mp hpre)
    · rw [h] at hpre
      cases hr : resolve path with
      | nil => exact hp hr
      | cons a t =>
        rw [hr] at hpre hp'
        have h1 := hpre.length_le
        obtain ⟨t', ht'⟩ := hpre
        simp only [List.cons_append, List.cons.injEq, List.append_eq_nil_iff] at ht'
        exact hp' (by rw [ht'.1, ht'.2.1])

/-- The job leaves a tree. -/
theorem repart_tree {order : List Key → List Key} (ho : ChildrenFirst order) (verbose : Bool) (file : CStr) (nfile : Option Nat) (ds : List CStr)
    (c : CStr) (buf : Int) (mem : Mem) (hf : file ≠ []) (hds : ∀ x ∈ ds ++ [c], IsName x) (w : World) (ht : TreeOk w.fs)
    (hbak : w.fs.node (resolve file ++ ds ++ [c ++ b!"-REPBAK"]) = none) :
    wlp (repart env order verbose file nfile (joinNames (ds ++ [c])) buf mem) w (fun _ w' => TreeOk w'.fs) (fun w' => TreeOk w'.fs) := by
  have hp := blockPaths file ds c hf hds
  have hmv := wpc_mv (w := w) (a := slashed file (joinNames (ds ++ [c]))) (b := slashed file (backup (joinNames (ds ++ [c])))) (by
    rw [resolve_slashed _ _ hf, hp.nbak, ← List.append_assoc]; exact hbak) ht
  unfold repart renameTool
  rw [wlp_bind]
  refine wlp_mono (wlp_of_wpc hmv) ?_ ?_
  · rintro ok w1 ⟨_, ⟨rfl, e1, _⟩ | ⟨rfl, _, ht1⟩⟩
    · rw [if_pos (by decide)]
      show TreeOk w1.fs
      rw [e1]; exact ht
    · rw [if_neg (by decide)]
      by_cases hv : verbose = true
      · rw [hv, if_neg (by decide), wlp_bind]
        refine wlp_mono (copyMain_keeps env file (backup (joinNames (ds ++ [c]))) file (joinNames (ds ++ [c])) nfile 268435456 buf mem w1 ht1) ?_
          (fun _ h => h.1)
        rintro e w2 h2
        cases e with
        | failed => exact h2.1
        | aborted => exact h2.1
        | done =>
          dsimp only
          rw [wlp_bind]
          have hkey : resolve (slashed file (backup (joinNames (ds ++ [c])))) = resolve file ++ ds ++ [c ++ b!"-REPBAK"] := by
            rw [resolve_slashed _ _ hf, hp.nbak, ← List.append_assoc]
          refine wlp_mono (rmTree_tree ho ?_ ?_ w2 h2.1) ?_ (fun _ h => h)
          · rw [hkey]; simp
          · rw [hkey]
            intro h
            have h' := congrArg List.getLast? h
            simp at h'
          · intro ok w3 h3
            cases ok <;> exact h3
      · rw [Bool.eq_false_iff.mpr hv, if_pos (by decide)]
        exact ht1
  · rintro w1 ⟨_, e1 | ⟨_, ht1⟩⟩
    · rw [e1]; exact ht
    · exact ht1

/-! ## Several jobs -/

/-- What a job needs (as in `C79_keeps_partial`). -/
structure Repartable (env : Env) (file : CStr) (nfile : Option Nat) (fs : FS) (b : RBlock) : Prop where
  names : ∀ x ∈ b.ds ++ [b.c], IsName x
  src : OnDisk env b.K fs (b.path file) b.A
  cut : HeaderCut fs (b.path file) b.hdr
  free : fs.node (resolve (b.bak file)) = none
  len : (b.bak file).length ≤ 8192
  files : 0 < copyFiles nfile b.A.nfile ∨ b.A.size = 0
  filesMax : copyFiles nfile b.A.nfile ≤ 16777216
  small : copyFiles nfile b.A.nfile * b.A.size < 18446744073709551616
  row : b.K.w * b.K.nm ≤ 268435456
  size : b.A.size + 268435456 < 9223372036854775808

/-- A directory and the files in it, seen from elsewhere. -/
theorem same_dir {p q : Key} {base : CStr} {fs fs' : FS} (h : ∀ k, ¬ p <+: k → ¬ q <+: k → fs'.node k = fs.node k)
    (h1 : ¬ p <+: resolve base ∧ ¬ resolve base <+: p) (h2 : ¬ q <+: resolve base ∧ ¬ resolve base <+: q) :
    fs'.node (resolve base) = fs.node (resolve base) ∧ ∀ id, fs'.node (fileKey base id) = fs.node (fileKey base id) := by
  refine ⟨h _ h1.1 h2.1, fun id => h _ ?_ ?_⟩
  · rw [fileKey_eq, List.prefix_concat_iff]
    rintro (h' | h')
    · exact h1.2 (by rw [h']; exact List.prefix_append _ _)
    · exact h1.1 h'
  · rw [fileKey_eq, List.prefix_concat_iff]
    rintro (h' | h')
    · exact h2.2 (by rw [h']; exact List.prefix_append _ _)
    · exact h2.1 h'

theorem Repartable.elsewhere {file : CStr} {nfile : Option Nat} {fs fs' : FS} {a b : RBlock} (hb : Repartable env file nfile fs b)
    (hs : a.Separate file b) (h : ∀ k, ¬ resolve (a.path file) <+: k → ¬ resolve (a.bak file) <+: k → fs'.node k = fs.node k) :
    Repartable env file nfile fs' b := by
  have s := same_dir h (hs (resolve (a.path file)) (by simp) (resolve (b.path file)) (by simp))
    (hs (resolve (a.bak file)) (by simp) (resolve (b.path file)) (by simp))
  refine ⟨hb.names, hb.src.congr s.1 s.2, ⟨hb.cut.1, ?_⟩, ?_, hb.len, hb.files, hb.filesMax, hb.small, hb.row, hb.size⟩
  · rw [s.2]; exact hb.cut.2
  · rw [h _ (hs (resolve (a.path file)) (by simp) (resolve (b.bak file)) (by simp)).1
      (hs (resolve (a.bak file)) (by simp) (resolve (b.bak file)) (by simp)).1]
    exact hb.free

/-- **C79, several blocks** (partial: as `C79_keeps_partial`, and the jobs run one after another, not at the same time). Blocks none of whose
directories, or directories of backups, lie in one another are repartitioned in any order; each job has failures of its own, and may be
killed while the others go on. In the end all rows and attributes of each block are in the block or in its backup; the blocks whose
jobs got to their ends are in as many files as requested and have no backup; and nothing else has changed. -/
theorem C79_jobs_partial (env : Env) (order : List Key → List Key) (verbose : Bool) (file : CStr) (nfile : Option Nat) (buf : Int) (mem : Mem)
    (ho : ChildrenFirst order) (hf : file ≠ []) (hfl : file.length ≤ 8192) :
    ∀ (js : List (RBlock × (Nat → Fault) × Option Exit)) (fs fs' : FS),
      JobsRun (fun b : RBlock => repart env order verbose file nfile b.name buf mem) js fs fs' → TreeOk fs →
      (∀ j ∈ js, NoSilent j.2.1 ∧ Repartable env file nfile fs j.1) → js.Pairwise (fun i j => i.1.Separate file j.1) →
      TreeOk fs' ∧
      (∀ j ∈ js, j.1.Safe env file (copyFiles nfile j.1.A.nfile) (∃ i, j.2.1 i = .fail) fs' ∧
        (j.2.2 = some .done → j.1.Redone env file (copyFiles nfile j.1.A.nfile) (∃ i, j.2.1 i = .fail) fs')) ∧
      (∀ k, (∀ j ∈ js, ¬ resolve (j.1.path file) <+: k ∧ ¬ resolve (j.1.bak file) <+: k) → fs'.node k = fs.node k) := by
  intro js
  induction js with
  | nil =>
    intro fs fs' h ht _ _
    cases h
    exact ⟨ht, fun _ h => (by cases h), fun _ _ => rfl⟩
  | cons j js ih =>
    intro fs fs' h ht hr hs
    obtain ⟨b, F, r⟩ := j
    rw [List.pairwise_cons] at hs
    obtain ⟨hns, hb⟩ := hr _ List.mem_cons_self
    dsimp only at hns hb
    have hp := blockPaths file b.ds b.c hf hb.names
    -- one job
    have one : ∃ fs1, JobsRun (fun b : RBlock => repart env order verbose file nfile b.name buf mem) js fs1 fs' ∧ TreeOk fs1 ∧
        b.Safe env file (copyFiles nfile b.A.nfile) (∃ i, F i = .fail) fs1 ∧
        (r = some .done → b.Redone env file (copyFiles nfile b.A.nfile) (∃ i, F i = .fail) fs1) ∧
        ∀ k, ¬ resolve (b.path file) <+: k → ¬ resolve (b.bak file) <+: k → fs1.node k = fs.node k := by
      have hfree : fs.node (resolve file ++ b.ds ++ [b.c ++ b!"-REPBAK"]) = none := by
        rw [← hp.bak]; exact hb.free
      have key : ∀ c, wpc (repart env order verbose file nfile b.name buf mem) (⟨fs, F, c⟩ : World) _ _ := fun c =>
        wpc_wlp (C79_keeps_partial env b.K b.A order verbose file b.ds b.c nfile buf mem ⟨fs, F, c⟩ b.hdr hns ht ho hf hfl hb.names hb.src hb.cut
          hfree hb.len hb.files hb.filesMax hb.small hb.row hb.size)
          (repart_tree (env := env) ho verbose file nfile b.ds b.c buf mem hf hb.names ⟨fs, F, c⟩ ht hfree)
      rw [← hp.blk, ← hp.bak] at key
      cases h with
      | @ends _ _ c r w _ _ _ he hl =>
        have := key c
        unfold wpc at this
        rw [he] at this
        obtain ⟨⟨h1, h2, h3⟩, h4⟩ := this
        refine ⟨w.fs, hl, h4, h1, fun hd => ?_, h2⟩
        cases hd
        rcases h3 with h3 | ⟨_, h3⟩
        · cases h3
        · exact h3
      | @killed _ _ c w _ _ _ he hl =>
        have := key c
        unfold wpc at this
        rw [he] at this
        obtain ⟨⟨h1, h2⟩, h4⟩ := this
        exact ⟨w.fs, hl, h4, h1, fun hd => (by cases hd), h2⟩
    obtain ⟨fs1, hl, ht1, hsafe, hdone, hrest⟩ := one
    obtain ⟨k1, k2, k3⟩ := ih fs1 fs' hl ht1 (fun j hj => ⟨(hr j (List.mem_cons_of_mem _ hj)).1,
      (hr j (List.mem_cons_of_mem _ hj)).2.elsewhere (hs.1 j hj) hrest⟩) hs.2
    -- what the other jobs do to this block
    have hdisk : ∀ base, base = b.path file ∨ base = b.bak file →
        fs'.node (resolve base) = fs1.node (resolve base) ∧ ∀ id, fs'.node (fileKey base id) = fs1.node (fileKey base id) := by
      intro base hbase
      have hm : resolve base ∈ [resolve (b.path file), resolve (b.bak file)] := by
        rcases hbase with rfl | rfl <;> simp
      refine ⟨k3 _ fun j hj => ⟨((hs.1 j hj) _ hm _ (by simp)).2, ((hs.1 j hj) _ hm _ (by simp)).2⟩, fun id => k3 _ fun j hj => ⟨?_, ?_⟩⟩
      · rw [fileKey_eq, List.prefix_concat_iff]
        rintro (h' | h')
        · exact ((hs.1 j hj) _ hm (resolve (j.1.path file)) (by simp)).1 (by rw [h']; exact List.prefix_append _ _)
        · exact ((hs.1 j hj) _ hm (resolve (j.1.path file)) (by simp)).2 h'
      · rw [fileKey_eq, List.prefix_concat_iff]
        rintro (h' | h')
        · exact ((hs.1 j hj) _ hm (resolve (j.1.bak file)) (by simp)).1 (by rw [h']; exact List.prefix_append _ _)
        · exact ((hs.1 j hj) _ hm (resolve (j.1.bak file)) (by simp)).2 h'
    have hp1 := hdisk _ (Or.inl rfl)
    have hp2 := hdisk _ (Or.inr rfl)
    refine ⟨k1, ?_, ?_⟩
    · intro j hj
      rcases List.mem_cons.mp hj with rfl | hj
      · refine ⟨?_, fun hd => ?_⟩
        · rcases hsafe with g | g | g | ⟨g1, g⟩
          · exact Or.inl (g.congr hp1.1 hp1.2)
          · exact Or.inr (Or.inl (g.congr hp2.1 hp2.2))
          · exact Or.inr (Or.inr (Or.inl (g.congr hp1.1 hp1.2)))
          · exact Or.inr (Or.inr (Or.inr ⟨g1, g.congr hp1.1 hp1.2⟩))
        · obtain ⟨g0, g⟩ := hdone hd
          refine ⟨fun k hk => ?_, ?_⟩
          · rw [k3 k fun j hj => ?_]
            · exact g0 k hk
            · have hx := fun y hy => (hs.1 j hj) (resolve (b.bak file)) (by simp) y hy
              refine ⟨fun h' => ?_, fun h' => ?_⟩
              · rcases List.prefix_or_prefix_of_prefix hk h' with g | g
                · exact (hx (resolve (j.1.path file)) (by simp)).1 g
                · exact (hx (resolve (j.1.path file)) (by simp)).2 g
              · rcases List.prefix_or_prefix_of_prefix hk h' with g | g
                · exact (hx (resolve (j.1.bak file)) (by simp)).1 g
                · exact (hx (resolve (j.1.bak file)) (by simp)).2 g
          · rcases g with g | ⟨g1, g⟩
            · exact Or.inl (g.congr hp1.1 hp1.2)
            · exact Or.inr ⟨g1, g.congr hp1.1 hp1.2⟩
      · exact k2 j hj
    · intro k hk
      rw [k3 k fun j hj => hk j (List.mem_cons_of_mem _ hj)]
      exact hrest k (hk _ List.mem_cons_self).1 (hk _ List.mem_cons_self).2

/-! ## An example -/

/-- The block of `exCopySrc`, and a copy of it. -/
def exTwoSrc : M Exit := do
  let _ ← exCopySrc
  copyMain exEnv b!"d" b!"z" b!"d" b!"y" (some 2) 9 500 exMem

/-- The header of the copy. -/
def exCopyHdrY : Block :=
  ⟨b!"<i4", 1, b!"d/y", 5, [2, 3], [0, 2, 5], [21, 33], 2, attrsetCreate exEnv, false⟩

/-- The block. -/
def exJobZ : RBlock := ⟨[], b!"z", exKind, exCopyA, exCopyHdr⟩

/-- The copy. -/
def exJobY : RBlock := ⟨[], b!"y", exKind, exCopyA.inFiles 2, exCopyHdrY⟩

theorem exTwo_ready : ∃ w, exTwoSrc exTreeWorld = .ok .done w ∧ TreeOk w.fs ∧ Repartable exEnv b!"d" (some 4) w.fs exJobZ ∧
    Repartable exEnv b!"d" (some 4) w.fs exJobY := by
  obtain ⟨w, e, nf, ht, h⟩ := exCopy_src
  have hchk : (exCopySrc exTreeWorld).fs?.map (fun fs => (fs.node (resolve b!"d/y") = none ∧
      ∀ k ∈ fs.dom, k <+: resolve b!"d/y" → fs.node k = some .dir : Bool)) = some true := by decide +kernel
  rw [e] at hchk
  simp only [Res.fs?, Option.map_some, Option.some.injEq, decide_eq_true_eq] at hchk
  have hroom : Room w.fs (pathJoin b!"d" b!"y") := Room.of_absent ht hchk.1 hchk.2
  obtain ⟨w', e', _, h1, h2, _⟩ := C51_copy_partial exEnv exKind exCopyA b!"d" b!"z" b!"d" b!"y" (some 2) 9 500 exMem w nf ht
    (by decide) (by decide) (by decide) (by decide) h exCopyRows_full
    ⟨by decide, fun id he => by
        rw [fileKey_eq] at he
        exact absurd (congrArg List.length he) (by simp; decide), fun id he => by
        rw [fileKey_eq] at he
        exact absurd (List.IsPrefix.trans (List.prefix_append _ _) he) (by decide)⟩
    hroom (by decide) (by decide) (by decide) (by decide) (by decide) (by decide) (by decide) (by decide)
  have ht' : TreeOk w'.fs := by
    have := copyMain_keeps exEnv b!"d" b!"z" b!"d" b!"y" (some 2) 9 500 exMem w ht
    unfold wlp at this
    rw [e'] at this
    exact this.1
  have e2 : exTwoSrc exTreeWorld = .ok .done w' := by
    unfold exTwoSrc
    simp only [bind, M.bind]
    rw [e]
    exact e'
  have hchk2 : (exTwoSrc exTreeWorld).fs?.map (fun fs =>
      ((fs.node (fileKey b!"d/z" .header) = some (.file ((headerText exCopyHdr).take 1000))) ∧
       (fs.node (fileKey b!"d/y" .header) = some (.file ((headerText exCopyHdrY).take 1000))) ∧
       fs.node (resolve b!"d/z-REPBAK") = none ∧ fs.node (resolve b!"d/y-REPBAK") = none : Bool)) = some true := by decide +kernel
  rw [e2] at hchk2
  simp only [Res.fs?, Option.map_some, Option.some.injEq, decide_eq_true_eq] at hchk2
  refine ⟨w', e2, ht', ⟨exName, h2, ⟨⟨exB_good.dt, by decide, by decide, rfl, rfl, by decide, by decide, by decide⟩, 1000, hchk2.1⟩,
    hchk2.2.2.1, by decide, by decide +kernel, by decide +kernel, by decide +kernel, by decide +kernel, by decide +kernel⟩,
    ⟨?_, h1, ⟨⟨exB_good.dt, by decide, by decide, rfl, rfl, by decide, by decide, by decide⟩, 1000, hchk2.2.1⟩,
    hchk2.2.2.2, by decide, by decide +kernel, by decide +kernel, by decide +kernel, by decide +kernel, by decide +kernel⟩⟩
  intro x hx
  obtain rfl : x = b!"y" := by simpa [exJobY] using hx
  exact ⟨by decide, by decide, by decide⟩

/-- The hypotheses of `C79_jobs_partial`: the two blocks are repartitioned, whatever fails, and whichever job is killed. -/
example (F G : Nat → Fault) (hF : NoSilent F) (hG : NoSilent G) (r s : Option Exit) : ∃ w, exTwoSrc exTreeWorld = .ok .done w ∧
    ∀ fs', JobsRun (fun b : RBlock => repart exEnv exOrder true b!"d" (some 4) b.name 500 exMem) [(exJobZ, F, r), (exJobY, G, s)] w.fs fs' →
      exJobZ.Safe exEnv b!"d" 4 (∃ i, F i = .fail) fs' ∧ exJobY.Safe exEnv b!"d" 4 (∃ i, G i = .fail) fs' := by
  obtain ⟨w, e, ht, h1, h2⟩ := exTwo_ready
  refine ⟨w, e, fun fs' h => ?_⟩
  have := (C79_jobs_partial exEnv exOrder true b!"d" (some 4) 500 exMem exOrder_ok (by decide) (by decide) _ _ _ h ht (by
    intro j hj
    simp only [List.mem_cons, List.not_mem_nil, or_false] at hj
    rcases hj with rfl | rfl
    · exact ⟨hF, h1⟩
    · exact ⟨hG, h2⟩) (by
    refine List.pairwise_cons.mpr ⟨?_, List.pairwise_singleton _ _⟩
    intro j hj
    obtain rfl : j = (exJobY, G, s) := by simpa using hj
    show exJobZ.Separate b!"d" exJobY
    unfold RBlock.Separate
    decide)).2.1
  exact ⟨(this (exJobZ, F, r) (by simp)).1, (this (exJobY, G, s) (by simp)).1⟩

/-- The first job is killed before its twentieth operation and the second gets to its end: the first block is in its backup, the second one is
in four files, with no backup. -/
theorem C79_one_killed : (match exTwoSrc exTreeWorld with
    | .ok _ w => match repart exEnv exOrder true b!"d" (some 4) b!"z" 500 exMem ⟨w.fs, fun i => if i = 20 then .crash 0 else .none, 0⟩ with
      | .crash w1 => match repart exEnv exOrder true b!"d" (some 4) b!"y" 500 exMem ⟨w1.fs, fun _ => .none, 0⟩ with
        | .ok .done w2 => some ((w2.fs.node (fileKey b!"d/z-REPBAK" .header)).isSome, (w2.fs.node (fileKey b!"d/y-REPBAK" .header)).isSome,
            (w2.fs.node (fileKey b!"d/y" (.data 3))).isSome)
        | _ => none
      | _ => none
    | _ => none) = some (true, false, true) := by decide +kernel

end Verif
