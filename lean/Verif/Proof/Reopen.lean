import Verif.Proof.Open
import Verif.Proof.AttrText
/-!
# What a complete flush leaves on disk, and opening it
-/

set_option autoImplicit false

namespace Verif

open Spec

theorem findE_of_mem_or {es : List Entry} : AllStorable (findE es) → SortedE es → ∀ e ∈ es, Storable e.name e.val :=
  fun h hs e he => h e.name e.val (findE_mem hs he)

theorem flushFS_other (bb : Block) (txt : CStr) (fs : FS) (k : Key) (h1 : k ≠ fileKey bb.basename .header)
    (h2 : k ≠ fileKey bb.basename .attrV2) : (flushFS bb txt fs).node k = fs.node k := by
  unfold flushFS
  dsimp only
  split
  · rw [FS.set_other _ _ _ _ h2]
    split
    · rw [FS.set_other _ _ _ _ h1]
    · rfl
  · split
    · rw [FS.set_other _ _ _ _ h1]
    · rfl

theorem flushFS_header (bb : Block) (txt : CStr) (fs : FS) :
    (flushFS bb txt fs).node (fileKey bb.basename .header) =
      if bb.dirty then some (.file (headerText bb)) else fs.node (fileKey bb.basename .header) := by
  have hne : fileKey bb.basename .header ≠ fileKey bb.basename .attrV2 := fileKey_ne (by simp)
  unfold flushFS
  dsimp only
  split
  · rw [FS.set_other _ _ _ _ hne]
    split
    · rw [FS.set_node]
    · rfl
  · split
    · rw [FS.set_node]
    · rfl

theorem flushFS_attr (bb : Block) (txt : CStr) (fs : FS) :
    (flushFS bb txt fs).node (fileKey bb.basename .attrV2) =
      if bb.attrset.dirty then some (.file txt) else fs.node (fileKey bb.basename .attrV2) := by
  have hne : fileKey bb.basename .attrV2 ≠ fileKey bb.basename .header := fileKey_ne (by simp)
  unfold flushFS
  dsimp only
  split
  · rw [FS.set_node]
  · split
    · rw [FS.set_other _ _ _ _ hne]
    · rfl

theorem bytes_congr {fs fs' : FS} {k : Key} (h : fs'.node k = fs.node k) : fs'.bytes k = fs.bytes k := by
  unfold FS.bytes; rw [h]

theorem readsV1_congr {env : Env} {fs fs' : FS} {base : CStr} {s : AttrSet}
    (h : fs'.node (fileKey base .attr) = fs.node (fileKey base .attr)) :
    readsV1 env fs' base s = readsV1 env fs base s := by
  unfold readsV1
  rw [bytes_congr h, h]

theorem readsV2_congr {env : Env} {fs fs' : FS} {base : CStr} {s : AttrSet}
    (h : fs'.node (fileKey base .attrV2) = fs.node (fileKey base .attrV2)) :
    readsV2 env fs' base s = readsV2 env fs base s := by
  unfold readsV2
  rw [bytes_congr h, h]

theorem AttrInv.view_eq {m : Machine} {s : AttrSet} {es : List Entry} (h : AttrInv m s es) :
    attrView m s = findE es := h.view

/-- The text of the attribute file is read back. -/
theorem attrsSay_text {env : Env} {fs : FS} {base txt : CStr} {es : List Entry}
    (hs : SortedE es) (hlen : es.length ≤ txt.length)
    (hp : ∀ (fuel : Nat) (rest : CStr) (sp : AttrSet) (ep : List Entry), AttrInv env.m sp ep →
        ∃ sp' ep', parseV2 env (es.length + fuel) (txt ++ rest) sp = parseV2 env fuel rest sp' ∧
          AttrInv env.m sp' ep' ∧ findE ep' = putAll es (findE ep))
    (hold : OldOk env fs base (findE es)) (hfile : fs.node (fileKey base .attrV2) = some (.file txt)) :
    AttrsSay env fs base (findE es) := by
  obtain ⟨s1, h1, ⟨e1, he1⟩, hdom⟩ := hold
  rw [he1.view_eq] at hdom
  obtain ⟨sp', ep', k1, k2, k3⟩ := hp (txt.length + 1 - es.length) [] _ e1 (he1.dirty false)
  have hfuel : es.length + (txt.length + 1 - es.length) = txt.length + 1 := by omega
  rw [hfuel, List.append_nil] at k1
  obtain ⟨f, hf⟩ : ∃ f, txt.length + 1 - es.length = f + 1 := ⟨txt.length - es.length, by omega⟩
  rw [hf] at k1
  have hend : parseV2 env (f + 1) [] sp' = some (0, sp') := by simp [parseV2]
  rw [hend] at k1
  have hb : fs.bytes (fileKey base .attrV2) = txt := by unfold FS.bytes; rw [hfile]
  refine ⟨s1, { sp' with dirty := false }, h1, ?_, ⟨ep', k2.dirty false⟩, ?_⟩
  · unfold readsV2
    rw [hfile, hb, if_pos (by rfl), k1]
    rfl
  · rw [(k2.dirty false).view_eq, k3, putAll_findE hs]
    funext n
    cases hn : findE es n with
    | none => simp [hdom n hn]
    | some v => rfl

/-- **A complete flush stores the attributes.** -/
theorem flushFS_attrs {env : Env} {bb : Block} {fs : FS} {es : List Entry} (hf : FmtOk env)
    (hsto : AllStorable (attrView env.m bb.attrset))
    (hi : AttrInv env.m bb.attrset es) (hold : bb.attrset.dirty = true → OldOk env fs bb.basename (findE es))
    (hsync : bb.attrset.dirty = false → AttrsSay env fs bb.basename (attrView env.m bb.attrset)) :
    ∃ txt s1, (bb.attrset.dirty = true →
        attrLines env bb.attrset.list { bb.attrset with dirty := false } = some (txt, s1)) ∧
      (∃ es1, AttrInv env.m s1 es1 ∧ SameButForeign env.m (findE es) (findE es1) ∧
        ((∀ e ∈ es, Native env.m e.val) → s1 = { bb.attrset with dirty := false } ∧ es1 = es)) ∧
      AttrsSay env (flushFS bb txt fs) bb.basename (findE es) := by
  have hst : ∀ e ∈ es, Storable e.name e.val := by
    apply findE_of_mem_or _ hi.sorted
    rw [← hi.view_eq]; exact hsto
  obtain ⟨txt, buf, es1, k1, k2, k3, k4, k5, k6⟩ :=
    attrLines_spec hf es (hi.dirty false) (fun e he => he) hi.sorted hst
  refine ⟨txt, _, ?_, ⟨es1, k2, k3, ?_⟩, ?_⟩
  · intro _
    show attrLines env bb.attrset.list _ = _
    have := hi.list
    have e : attrLines env bb.attrset.list { bb.attrset with dirty := false } =
      attrLines env (es.map (Entry.attr bb.attrset.base)) { bb.attrset with dirty := false } :=
        congrArg (fun l => attrLines env l { bb.attrset with dirty := false }) this
    exact e.trans k1
  · intro hn
    obtain ⟨b1, b2⟩ := k4 hn
    exact ⟨by rw [b1], b2⟩
  · have ha := flushFS_attr bb txt fs
    have hv1 : (flushFS bb txt fs).node (fileKey bb.basename .attr) = fs.node (fileKey bb.basename .attr) :=
      flushFS_other bb txt fs _ (fileKey_ne (by simp)) (fileKey_ne (by simp))
    cases hd : bb.attrset.dirty with
    | true =>
      rw [hd, if_pos rfl] at ha
      refine attrsSay_text hi.sorted k5 k6 ?_ ha
      obtain ⟨s1, h1, h2⟩ := hold hd
      exact ⟨s1, by rw [readsV1_congr hv1]; exact h1, h2⟩
    | false =>
      rw [hd] at ha
      simp only [Bool.false_eq_true, if_false] at ha
      obtain ⟨s1, s2, h1, h2, h3, h4⟩ := hsync hd
      exact ⟨s1, s2, by rw [readsV1_congr hv1]; exact h1, by rw [readsV2_congr ha]; exact h2, h3,
        by rw [h4, hi.view_eq]⟩

/-- **A complete flush stores the metadata.** -/
theorem flushFS_says {env : Env} {bb : Block} {fs : FS} {es : List Entry} (hsv : Savable env bb)
    (hi : AttrInv env.m bb.attrset es) (hold : bb.attrset.dirty = true → OldOk env fs bb.basename (findE es))
    (hsync : Synced env fs bb) :
    ∃ txt s1, (bb.attrset.dirty = true →
        attrLines env bb.attrset.list { bb.attrset with dirty := false } = some (txt, s1)) ∧
      (∃ es1, AttrInv env.m s1 es1 ∧ SameButForeign env.m (findE es) (findE es1) ∧
        ((∀ e ∈ es, Native env.m e.val) → s1 = { bb.attrset with dirty := false } ∧ es1 = es)) ∧
      HeaderSays (flushFS bb txt fs) bb ∧
      AttrsSay env (flushFS bb txt fs) bb.basename (findE es) := by
  obtain ⟨txt, s1, h1, h2, h3⟩ := flushFS_attrs hsv.fmt hsv.storable hi hold hsync.attrs
  refine ⟨txt, s1, h1, h2, ?_, h3⟩
  unfold HeaderSays
  have hh := flushFS_header bb txt fs
  cases hd : bb.dirty with
  | true =>
    rw [hd, if_pos rfl] at hh
    unfold FS.bytes
    rw [hh]
    exact ⟨rfl, parseHeader_headerText bb hsv.header⟩
  | false =>
    rw [hd] at hh
    simp only [Bool.false_eq_true, if_false] at hh
    rw [bytes_congr hh, hh]
    exact hsync.header hd

/-- **Opening what is on disk.** -/
theorem wpc_blockOpen_says {env : Env} {bb : Block} {w : World} {M : AttrMap} {C : World → Prop}
    (hnf : w.faults = noFaults) (hlen : bb.basename.length ≤ 8192) (hmeta : isMeta bb.basename = false)
    (hoff : bb.foffset = runningSums 0 bb.fsize) (hsize : bb.size = bb.foffset.getLastD 0)
    (hh : HeaderSays w.fs bb) (ha : AttrsSay env w.fs bb.basename M) :
    wpc (blockOpen env bb.basename) w (fun r w' => w'.fs = w.fs ∧ w'.faults = noFaults ∧ ∃ b,
      r = (0, some b) ∧ SameShape bb b ∧ b.fchecksum = bb.fchecksum ∧ WellAttrs env.m b.attrset ∧
      attrView env.m b.attrset = M ∧ b.dirty = false ∧ b.attrset.dirty = false) C := by
  obtain ⟨s1, s2, h1, h2, h3, h4⟩ := ha
  have hs2 : s2.dirty = false := by
    unfold readsV2 at h2
    split at h2
    · obtain ⟨r, _, he⟩ := Option.map_eq_some_iff.mp h2
      injection he with _ he
      rw [← he]
    · injection h2 with h2
      injection h2 with _ h2
      rw [← h2]
  apply wpc_mono (wpc_blockOpen_nf hnf hlen hmeta h1 h2 (by intro _; rw [hh.2]; simp))
  · rintro r w' ⟨k1, k2, (⟨_, (k3 | k3)⟩ | ⟨_, dtype, nmemb, nfile, fsize, fck, k3, k4⟩)⟩
    · rw [hh.1] at k3; exact absurd k3 (by simp)
    · rw [hh.2] at k3; exact absurd k3 (by simp)
    · rw [hh.2] at k3
      injection k3 with e1 e2 e3 e4 e5
      subst e1 e2 e3 e4 e5
      refine ⟨k1, k2, _, k4, ⟨rfl, rfl, rfl, ?_, rfl, hoff.symm, rfl⟩, rfl, h3, h4, rfl, hs2⟩
      show (runningSums 0 bb.fsize).getLastD 0 = bb.size
      rw [hsize, hoff]
  · intro _ h; exact h

/-- **Close and reopen.** -/
theorem closeOpen_spec {env : Env} {bb : Block} {w : World} (hnf : w.faults = noFaults) (hsv : Savable env bb)
    (hdir : DirOk w.fs bb.basename)
    (hold : bb.attrset.dirty = true → OldOk env w.fs bb.basename (attrView env.m bb.attrset))
    (hsync : Synced env w.fs bb) :
    ∃ b w', closeOpen env bb w = .ok (0, 0, some b) w' ∧ w'.faults = noFaults ∧ SameShape bb b ∧
      b.fchecksum = bb.fchecksum ∧ WellAttrs env.m b.attrset ∧
      attrView env.m b.attrset = attrView env.m bb.attrset ∧ b.dirty = false ∧ b.attrset.dirty = false ∧
      Synced env w'.fs b ∧
      ∀ k, k ≠ fileKey bb.basename .header → k ≠ fileKey bb.basename .attrV2 → w'.fs.node k = w.fs.node k := by
  obtain ⟨es, hi⟩ := hsv.attrs
  rw [hi.view_eq] at hold ⊢
  obtain ⟨txt, s1, hl, _, hh, ha⟩ := flushFS_says hsv hi hold hsync
  have key : wpc (closeOpen env bb) w (fun r w' => ∃ b, r = (0, 0, some b) ∧ w'.faults = noFaults ∧ SameShape bb b ∧
      b.fchecksum = bb.fchecksum ∧ WellAttrs env.m b.attrset ∧
      attrView env.m b.attrset = findE es ∧ b.dirty = false ∧ b.attrset.dirty = false ∧
      Synced env w'.fs b ∧
      ∀ k, k ≠ fileKey bb.basename .header → k ≠ fileKey bb.basename .attrV2 → w'.fs.node k = w.fs.node k)
      (fun _ => False) := by
    unfold closeOpen blockClose
    rw [wpc_bind, wpc_bind]
    apply wpc_mono (wpc_blockFlush env bb txt s1 w hl)
    · rintro ⟨rc, bb'⟩ w1 ⟨f1, _, _, k3, k4⟩
      have hrc : rc = 0 := k4 hnf hdir
      subst hrc
      have hfs := (k3 rfl).2 (by rw [hnf]; intro i n; simp [noFaults])
      simp only [ne_eq, not_true_eq_false, if_false]
      rw [wpc_pure, wpc_bind]
      rw [← hfs] at hh ha
      apply wpc_mono (wpc_blockOpen_says (f1.trans hnf) hsv.base hsv.notMeta hsv.offsets hsv.size hh ha)
      · rintro r w2 ⟨e2, f2, b, rfl, j1, j2, j3, j4, j5, j6⟩
        rw [wpc_pure]
        refine ⟨b, rfl, f2, j1, j2, j3, j4, j5, j6, ⟨fun _ => ?_, fun _ => ?_⟩, ?_⟩
        · unfold HeaderSays
          rw [j2, e2, j1.dtype, j1.nmemb, j1.nfile, j1.fsize, j1.base]
          exact hh
        · rw [j1.base, e2, j4]; exact ha
        · intro k h1 h2
          rw [e2, hfs]
          exact flushFS_other bb txt w.fs k h1 h2
      · intro _ h; exact h
    · rintro w1 ⟨h, _⟩
      exact absurd hnf h
  obtain ⟨a, w', h1, b, rfl, h2⟩ := wpc_returns key (fun _ h => h)
  exact ⟨b, w', h1, h2⟩

end Verif
