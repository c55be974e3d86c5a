import Verif.Proof.Create
/-!
# Blocks that only hold attributes
-/

set_option autoImplicit false

namespace Verif

open Spec

/-- The handle of an opened meta block. -/
def metaBlock (base : CStr) (s : AttrSet) : Block := ⟨b!"####", 0, base, 0, [], [], [], 0, s, false⟩

theorem wpc_blockOpen_meta {env : Env} {base : CStr} {w : World} {s1 s2 : AttrSet} {C : World → Prop}
    (hnf : w.faults = noFaults) (hlen : base.length ≤ 8192) (hmeta : isMeta base = true)
    (h1 : readsV1 env w.fs base (attrsetCreate env) = some (0, s1))
    (h2 : readsV2 env w.fs base s1 = some (0, s2)) :
    wpc (blockOpen env base) w (fun r w' => w'.fs = w.fs ∧ w'.faults = noFaults ∧ r = (0, some (metaBlock base s2))) C := by
  unfold blockOpen
  simp only
  have hstr : strdup base = base := by unfold strdup; exact List.take_of_length_le hlen
  rw [hstr, wpc_bind]
  apply wpc_readV1_nf hnf h1
  intro w1 e1 f1
  simp only [ne_eq, not_true_eq_false, if_false]
  rw [wpc_bind]
  apply wpc_readV2_nf f1 (by rw [e1]; exact h2)
  intro w2 e2 f2
  simp only [ne_eq, not_true_eq_false, if_false]
  rw [hmeta]
  simp only [Bool.not_true, Bool.false_eq_true, if_false]
  rw [wpc_pure]
  exact ⟨by rw [e2, e1], f2, rfl⟩

theorem readsV2_clean {env : Env} {fs : FS} {base : CStr} {s1 s2 : AttrSet} {rc : Int}
    (h2 : readsV2 env fs base s1 = some (rc, s2)) : s2.dirty = false := by
  unfold readsV2 at h2
  split at h2
  · obtain ⟨r, _, he⟩ := Option.map_eq_some_iff.mp h2
    injection he with _ he
    rw [← he]
  · injection h2 with h2
    injection h2 with _ h2
    rw [← h2]

/-- **Close and reopen a meta block.** -/
theorem closeOpen_meta {env : Env} {bb : Block} {w : World} (hnf : w.faults = noFaults) (hfmt : FmtOk env)
    (hlen : bb.basename.length ≤ 8192) (hmeta : isMeta bb.basename = true) (hd : bb.dirty = false)
    (hwell : WellAttrs env.m bb.attrset) (hsto : AllStorable (attrView env.m bb.attrset))
    (hdir : DirOk w.fs bb.basename)
    (hold : bb.attrset.dirty = true → OldOk env w.fs bb.basename (attrView env.m bb.attrset))
    (hsync : bb.attrset.dirty = false → AttrsSay env w.fs bb.basename (attrView env.m bb.attrset)) :
    ∃ b w', closeOpen env bb w = .ok (0, 0, some b) w' ∧ w'.faults = noFaults ∧ b.basename = bb.basename ∧
      WellAttrs env.m b.attrset ∧
      attrView env.m b.attrset = attrView env.m bb.attrset ∧ b.dirty = false ∧ b.attrset.dirty = false ∧
      AttrsSay env w'.fs b.basename (attrView env.m b.attrset) ∧
      ∀ k, k ≠ fileKey bb.basename .attrV2 → w'.fs.node k = w.fs.node k := by
  obtain ⟨es, hi⟩ := hwell
  have hsync' := hsync
  rw [hi.view_eq] at hold hsync ⊢
  obtain ⟨txt, s1, hl, _, ha⟩ := flushFS_attrs hfmt hsto hi hold hsync'
  have key : wpc (closeOpen env bb) w (fun r w' => ∃ b, r = (0, 0, some b) ∧ w'.faults = noFaults ∧
      b.basename = bb.basename ∧ WellAttrs env.m b.attrset ∧
      attrView env.m b.attrset = findE es ∧ b.dirty = false ∧ b.attrset.dirty = false ∧
      AttrsSay env w'.fs b.basename (attrView env.m b.attrset) ∧
      ∀ k, k ≠ fileKey bb.basename .attrV2 → w'.fs.node k = w.fs.node k)
      (fun _ => False) := by
    unfold closeOpen blockClose
    rw [wpc_bind, wpc_bind]
    apply wpc_mono (wpc_blockFlush env bb txt s1 w hl)
    · rintro ⟨rc, bb'⟩ w1 ⟨f1, _, _, k3, k4⟩
      have hrc : rc = 0 := k4 hnf hdir
      subst hrc
      have hfs := (k3 rfl).2 (by rw [hnf]; intro i n; simp [noFaults])
      simp only [ne_eq, not_true_eq_false, if_false]
      rw [wpc_pure, wpc_bind]
      rw [← hfs] at ha
      have ha' := ha
      obtain ⟨a1, a2, j1, j2, j3, j4⟩ := ha
      apply wpc_mono (wpc_blockOpen_meta (f1.trans hnf) hlen hmeta j1 j2)
      · rintro r w2 ⟨e2, f2, rfl⟩
        rw [wpc_pure]
        refine ⟨_, rfl, f2, rfl, j3, j4, rfl, readsV2_clean j2, ?_, ?_⟩
        · show AttrsSay env w2.fs bb.basename (attrView env.m a2)
          rw [e2, j4]; exact ha'
        · intro k h2
          rw [e2, hfs]
          unfold flushFS
          simp only [hd, Bool.false_eq_true, if_false]
          split
          · exact FS.set_other _ _ _ _ h2
          · rfl
      · intro _ h; exact h
    · rintro w1 ⟨h, _⟩
      exact absurd hnf h
  obtain ⟨a, w', h1, b, rfl, h2⟩ := wpc_returns key (fun _ h => h)
  exact ⟨b, w', h1, h2⟩

/-- The handle that creating a meta block builds. -/
def newMeta (env : Env) (base : CStr) : Block :=
  ⟨[], 0, base, 0, [], [], [], 0, { attrsetCreate env with dirty := true }, false⟩

/-- The same after the flush. -/
def freshMeta (env : Env) (base : CStr) : Block :=
  { newMeta env base with attrset := { attrsetCreate env with dirty := false } }

theorem wpc_createInternal_meta {env : Env} {base : CStr} {dt : Option CStr} {nmemb : Int} {fsize : List Nat} {w : World}
    (hlen : base.length ≤ 8192) (hmeta : isMeta base = true) :
    wpc (createInternal env base dt nmemb fsize) w
      (fun r w' => w'.faults = w.faults ∧ FlushOut (newMeta env base) [] w.fs w'.fs ∧
        (r = (-1, none) ∨ r = (0, some (freshMeta env base)) ∧ hasBlank base = false ∧
          (NoSilent w.faults → w'.fs = flushFS (newMeta env base) [] w.fs)) ∧
        (w.faults = noFaults → DirOk w.fs base → hasBlank base = false → r.1 = 0))
      (fun w' => w.faults ≠ noFaults ∧ FlushOut (newMeta env base) [] w.fs w'.fs) := by
  have hstr : strdup base = base := by unfold strdup; exact List.take_of_length_le hlen
  unfold createInternal
  split
  · rename_i hb
    rw [wpc_pure]
    exact ⟨rfl, ⟨w.fs, Or.inl rfl, Or.inl rfl⟩, Or.inl rfl, fun _ _ h => by rw [hb] at h; exact absurd h (by simp)⟩
  · rename_i hb
    have hb : hasBlank base = false := by simpa using hb
    simp only [hstr, hmeta, Bool.not_true, Bool.false_eq_true, if_false]
    rw [wpc_bind]
    apply wpc_mono (wpc_blockFlush env (newMeta env base) [] { attrsetCreate env with dirty := false } w
      (fun _ => rfl))
    · rintro ⟨rc, bb⟩ w1 ⟨f1, h1, h2, h3, h4⟩
      simp only at h2 h3 h4 ⊢
      rcases h2 with rfl | rfl
      · simp only [ne_eq, not_true_eq_false, if_false]
        rw [wpc_pure]
        obtain ⟨e, h3⟩ := h3 rfl
        refine ⟨f1, h1, Or.inr ⟨?_, hb, h3⟩, fun _ _ _ => rfl⟩
        rw [e]
        rfl
      · simp only [ne_eq, show (-1 : Int) ≠ 0 by decide, not_false_eq_true, if_true]
        rw [wpc_pure]
        exact ⟨f1, h1, Or.inl rfl, fun h5 h6 _ => h4 h5 h6⟩
    · intro w1 h; exact h

theorem wpc_blockCreate_meta {env : Env} {base : CStr} {dt : Option CStr} {nmemb : Int} {fsize : List Nat} {w : World}
    (hlen : base.length ≤ 8192) (hmeta : isMeta base = true) :
    wpc (blockCreate env base dt nmemb fsize) w
      (fun r w' => w'.faults = w.faults ∧ FlushOut (newMeta env base) [] w.fs w'.fs ∧
        (r = (-1, none) ∨ r = (0, some (freshMeta env base)) ∧ hasBlank base = false ∧
          (NoSilent w.faults → w'.fs = flushFS (newMeta env base) [] w.fs)) ∧
        (w.faults = noFaults → DirOk w.fs base → hasBlank base = false → r.1 = 0))
      (fun w' => w.faults ≠ noFaults ∧ FlushOut (newMeta env base) [] w.fs w'.fs) := by
  unfold blockCreate
  rw [wpc_bind]
  apply wpc_mono (wpc_createInternal_meta hlen hmeta)
  · rintro r w1 ⟨f1, h1, (rfl | ⟨rfl, hb, h2⟩), h3⟩
    · change wpc (pure ((-1 : Int), (none : Option Block))) w1 _ _
      rw [wpc_pure]
      exact ⟨f1, h1, Or.inl rfl, fun h4 h5 h6 => h3 h4 h5 h6⟩
    · change wpc (truncFiles base 0 0 >>= fun b => if b = true then
          pure ((0 : Int), some (freshMeta env base)) else pure (-1, none)) w1 _ _
      rw [wpc_bind]
      change wpc (pure true) w1 _ _
      rw [wpc_pure]
      simp only [if_true]
      rw [wpc_pure]
      exact ⟨f1, h1, Or.inr ⟨rfl, hb, h2⟩, fun _ _ _ => rfl⟩
  · intro w1 h
    exact h

end Verif
