import Verif.Proof.WP
import Verif.Proof.Path
import Verif.Proof.AttrText
import Verif.Spec.Disk
/-!
# Flushing
-/

set_option autoImplicit false

namespace Verif

open Spec

theorem FS.set_node (fs : FS) (k : Key) (n : Node) : (fs.set k n).node k = some n := by simp [FS.set]

theorem FS.set_other (fs : FS) (k k' : Key) (n : Node) (h : k' ≠ k) : (fs.set k n).node k' = fs.node k' := by
  simp [FS.set, h]

theorem FS.set_set (fs : FS) (k : Key) (a b : Node) : (fs.set k a).set k b = fs.set k b := by
  simp only [FS.set, FS.mk.injEq]
  refine ⟨?_, ?_⟩
  · funext k'
    by_cases h : k' = k <;> simp [h]
  · by_cases h : k ∈ fs.dom <;> simp [h]

/-! ## Rules for opening with truncation and writing text -/

theorem wpc_fopen_w (path : CStr) (w : World) (Q : Bool → World → Prop) (C : World → Prop)
    (hok : ∀ b w', w'.faults = w.faults → (b = false → w'.fs = w.fs) →
      (b = true → w'.fs = w.fs.set (resolve path) (.file []) ∧ w.fs.node (resolve path) ≠ some .dir ∧
        w.fs.node (resolve path).dropLast = some .dir) →
      (w.faults = noFaults → w.fs.node (resolve path) ≠ some .dir →
        w.fs.node (resolve path).dropLast = some .dir → b = true) → Q b w')
    (hcr : ∀ w', w'.fs = w.fs → w.faults ≠ noFaults → C w') : wpc (fopen path .w) w Q C := by
  unfold fopen
  rw [wpc_bind, wpc_tick]
  cases hf : w.faults w.clock with
  | crash n =>
    apply hcr
    · rfl
    · intro h; rw [h] at hf; simp [noFaults] at hf
  | fail =>
    apply hok
    · rfl
    · intro _; rfl
    · simp
    · intro h; rw [h] at hf; simp [noFaults] at hf
  | none | short | silent =>
    simp only
    rw [wpc_bind, wpc_getFS]
    simp only
    split
    · rename_i hd
      exact hok false _ rfl (fun _ => rfl) (by simp) (fun _ h _ => absurd hd h)
    · rename_i hd
      split
      · rename_i hp
        rw [wpc_bind, wpc_setFS]
        exact hok true _ rfl (by simp) (fun _ => ⟨rfl, fun h => hd h, hp⟩) (fun _ _ _ => rfl)
      · rename_i hp
        exact hok false _ rfl (fun _ => rfl) (by simp) (fun _ _ h => absurd h hp)

theorem wpc_writeText (path : CStr) (txt : CStr) (w : World) (Q : Bool → World → Prop) (C : World → Prop)
    (hok : ∀ b w', w'.faults = w.faults →
      ((w'.fs = w.fs ∧ b = false) ∨ ∃ n, w'.fs = w.fs.set (resolve path) (.file (txt.take n))) →
      (b = true → NoSilent w.faults → w'.fs = w.fs.set (resolve path) (.file txt)) →
      (w.faults = noFaults → b = true) → Q b w')
    (hcr : ∀ n w', w'.fs = w.fs.set (resolve path) (.file (txt.take n)) → w.faults ≠ noFaults → C w') :
    wpc (writeText path txt) w Q C := by
  unfold writeText
  rw [wpc_bind, wpc_tick, wpc_bind, wpc_getFS]
  cases hf : w.faults w.clock with
  | none =>
    simp only
    rw [wpc_bind, wpc_setFS, wpc_pure]
    exact hok true _ rfl (Or.inr ⟨txt.length, by simp⟩) (fun _ _ => rfl) (fun _ => rfl)
  | fail =>
    simp only
    rw [wpc_pure]
    exact hok false _ rfl (Or.inl ⟨rfl, rfl⟩) (by simp) (by intro h; rw [h] at hf; simp [noFaults] at hf)
  | short n =>
    simp only
    rw [wpc_bind, wpc_setFS, wpc_pure]
    exact hok false _ rfl (Or.inr ⟨n, rfl⟩) (by simp) (by intro h; rw [h] at hf; simp [noFaults] at hf)
  | silent n =>
    simp only
    rw [wpc_bind, wpc_setFS, wpc_pure]
    exact hok true _ rfl (Or.inr ⟨n, rfl⟩) (fun _ h => absurd hf (h _ n)) (fun _ => rfl)
  | crash n =>
    simp only
    rw [wpc_bind, wpc_setFS, wpc_die]
    exact hcr n _ rfl (by intro h; rw [h] at hf; simp [noFaults] at hf)

/-! ## Flush -/

/-- What a flush can have done to the disk. -/
def FlushOut (bb : Block) (txt : CStr) (fs fs' : FS) : Prop :=
  ∃ fs1, (fs1 = fs ∨ bb.dirty = true ∧
      ∃ n, fs1 = fs.set (fileKey bb.basename .header) (.file ((headerText bb).take n))) ∧
    (fs' = fs1 ∨ bb.attrset.dirty = true ∧
      ∃ n, fs' = fs1.set (fileKey bb.basename .attrV2) (.file (txt.take n)))

/-- What a complete flush does. -/
def flushFS (bb : Block) (txt : CStr) (fs : FS) : FS :=
  let fs1 := if bb.dirty then fs.set (fileKey bb.basename .header) (.file (headerText bb)) else fs
  if bb.attrset.dirty then fs1.set (fileKey bb.basename .attrV2) (.file txt) else fs1

/-- The handle after a complete flush. -/
def flushed (bb : Block) (s1 : AttrSet) : Block :=
  { bb with dirty := false,
            attrset := if bb.attrset.dirty then { s1 with dirty := false } else bb.attrset }

theorem wpc_writeAttrsV2 (env : Env) (s : AttrSet) (base : CStr) (txt : CStr) (s1 : AttrSet) (w : World)
    (hl : attrLines env s.list { s with dirty := false } = some (txt, s1)) :
    wpc (writeAttrsV2 env s base) w
      (fun r w' => w'.faults = w.faults ∧ Rewritten w.fs w'.fs (fileKey base .attrV2) txt ∧
        (r.1 = 0 ∨ r.1 = -1) ∧ (r.1 = 0 → r.2 = s1 ∧
          (NoSilent w.faults → w'.fs = w.fs.set (fileKey base .attrV2) (.file txt))) ∧
        (w.faults = noFaults → w.fs.node (resolve base) = some .dir →
          w.fs.node (fileKey base .attrV2) ≠ some .dir → r.1 = 0))
      (fun w' => w.faults ≠ noFaults ∧ Rewritten w.fs w'.fs (fileKey base .attrV2) txt) := by
  have hkey : resolve (filePath base .attrV2) = fileKey base .attrV2 := rfl
  have hdrop : (fileKey base .attrV2).dropLast = resolve base := by rw [fileKey_eq]; simp
  unfold writeAttrsV2
  simp only
  rw [wpc_bind]
  unfold openAFile
  apply wpc_fopen_w
  · intro b w1 hf1 hb0 hb1 hb2
    cases b with
    | false =>
      simp only [Bool.false_eq_true, if_false]
      rw [wpc_pure]
      refine ⟨hf1, Or.inl (hb0 rfl), Or.inr rfl, by simp, ?_⟩
      intro hnf hd hnd
      have := hb2 hnf hnd (by rw [hkey, hdrop]; exact hd)
      exact absurd this (by simp)
    | true =>
      simp only [if_true]
      rw [hl, M.lift_some_bind]
      simp only
      rw [wpc_bind]
      have hfs1 := (hb1 rfl).1
      apply wpc_writeText
      · intro b2 w2 hf2 h2 h3 h4
        rw [hkey] at hfs1 h2 h3
        have hrew : Rewritten w.fs w2.fs (fileKey base .attrV2) txt := by
          rcases h2 with ⟨h, _⟩ | ⟨n, h⟩
          · exact Or.inr ⟨0, by rw [h, hfs1]; simp⟩
          · exact Or.inr ⟨n, by rw [h, hfs1, FS.set_set]⟩
        cases b2 with
        | false =>
          simp only [Bool.false_eq_true, if_false]
          rw [wpc_pure]
          refine ⟨hf2.trans hf1, hrew, Or.inr rfl, by simp, ?_⟩
          intro hnf _ _
          have := h4 (hf1.trans hnf)
          exact absurd this (by simp)
        | true =>
          simp only [if_true]
          rw [wpc_pure]
          refine ⟨hf2.trans hf1, hrew, Or.inl rfl, fun _ => ⟨rfl, fun hns => ?_⟩, fun _ _ _ => rfl⟩
          rw [h3 rfl (by rw [hf1]; exact hns), hfs1, FS.set_set]
      · intro n w2 h2 hnf
        rw [hkey] at hfs1 h2
        exact ⟨by rw [← hf1]; exact hnf, Or.inr ⟨n, by rw [h2, hfs1, FS.set_set]⟩⟩
  · intro w1 h1 hnf
    exact ⟨hnf, Or.inl h1⟩

/-- The first half of a flush: the header. -/
theorem wpc_flushHeader (bb : Block) (w : World) :
    wpc (flushHeader bb) w
      (fun r w' => w'.faults = w.faults ∧
        (w'.fs = w.fs ∨ bb.dirty = true ∧
          ∃ n, w'.fs = w.fs.set (fileKey bb.basename .header) (.file ((headerText bb).take n))) ∧
        (r.1 = true → r.2 = { bb with dirty := false } ∧ (NoSilent w.faults → w'.fs =
          if bb.dirty then w.fs.set (fileKey bb.basename .header) (.file (headerText bb)) else w.fs)) ∧
        (w.faults = noFaults → w.fs.node (resolve bb.basename) = some .dir →
          w.fs.node (fileKey bb.basename .header) ≠ some .dir → r.1 = true))
      (fun w' => w.faults ≠ noFaults ∧ (w'.fs = w.fs ∨ bb.dirty = true ∧
          ∃ n, w'.fs = w.fs.set (fileKey bb.basename .header) (.file ((headerText bb).take n)))) := by
  have hkey : resolve (filePath bb.basename .header) = fileKey bb.basename .header := rfl
  have hdrop : (fileKey bb.basename .header).dropLast = resolve bb.basename := by rw [fileKey_eq]; simp
  unfold flushHeader
  by_cases hd : bb.dirty = true
  · rw [if_pos hd, if_pos hd]
    rw [wpc_bind]
    unfold openAFile
    apply wpc_fopen_w
    · intro b w1 hf1 hb0 hb1 hb2
      cases b with
      | false =>
        simp only [Bool.false_eq_true, if_false]
        rw [wpc_pure]
        refine ⟨hf1, Or.inl (hb0 rfl), by simp, ?_⟩
        intro hnf hd hnd
        have := hb2 hnf hnd (by rw [hkey, hdrop]; exact hd)
        exact absurd this (by simp)
      | true =>
        simp only [if_true]
        rw [wpc_bind]
        have hfs1 := (hb1 rfl).1
        apply wpc_writeText
        · intro b2 w2 hf2 h2 h3 h4
          rw [hkey] at hfs1 h2 h3
          have hrew : ∃ n, w2.fs = w.fs.set (fileKey bb.basename .header) (.file ((headerText bb).take n)) := by
            rcases h2 with ⟨h, _⟩ | ⟨n, h⟩
            · exact ⟨0, by rw [h, hfs1]; simp⟩
            · exact ⟨n, by rw [h, hfs1, FS.set_set]⟩
          cases b2 with
          | false =>
            simp only [Bool.false_eq_true, if_false]
            rw [wpc_pure]
            refine ⟨hf2.trans hf1, Or.inr ⟨hd, hrew⟩, by simp, ?_⟩
            intro hnf _ _
            have := h4 (hf1.trans hnf)
            exact absurd this (by simp)
          | true =>
            simp only [if_true]
            rw [wpc_pure]
            refine ⟨hf2.trans hf1, Or.inr ⟨hd, hrew⟩, fun _ => ⟨rfl, fun hns => ?_⟩, fun _ _ _ => rfl⟩
            rw [h3 rfl (by rw [hf1]; exact hns), hfs1, FS.set_set]
        · intro n w2 h2 hnf
          rw [hkey] at hfs1 h2
          exact ⟨by rw [← hf1]; exact hnf, Or.inr ⟨hd, n, by rw [h2, hfs1, FS.set_set]⟩⟩
    · intro w1 h1 hnf
      exact ⟨hnf, Or.inl h1⟩
  · rw [if_neg hd, if_neg hd, wpc_pure]
    refine ⟨rfl, Or.inl rfl, fun _ => ⟨?_, fun _ => rfl⟩, fun _ _ _ => rfl⟩
    have : bb.dirty = false := by simpa using hd
    cases bb
    simp_all

theorem fileKey_ne {base : CStr} {a b : FileId} (h : a ≠ b) : fileKey base a ≠ fileKey base b :=
  fun he => h (fileKey_inj he)

/-- **Flush.** What it can do to the disk, whatever goes wrong; what holds if it returns 0; when it must
return 0. -/
theorem wpc_blockFlush (env : Env) (bb : Block) (txt : CStr) (s1 : AttrSet) (w : World)
    (hl : bb.attrset.dirty = true →
      attrLines env bb.attrset.list { bb.attrset with dirty := false } = some (txt, s1)) :
    wpc (blockFlush env bb) w
      (fun r w' => w'.faults = w.faults ∧ FlushOut bb txt w.fs w'.fs ∧ (r.1 = 0 ∨ r.1 = -1) ∧
        (r.1 = 0 → r.2 = flushed bb s1 ∧ (NoSilent w.faults → w'.fs = flushFS bb txt w.fs)) ∧
        (w.faults = noFaults → DirOk w.fs bb.basename → r.1 = 0))
      (fun w' => w.faults ≠ noFaults ∧ FlushOut bb txt w.fs w'.fs) := by
  unfold blockFlush
  rw [wpc_bind]
  apply wpc_mono (wpc_flushHeader bb w)
  · rintro ⟨ok, bb1⟩ w1 ⟨hf1, h1, h2, h3⟩
    simp only at h2 h3
    cases ok with
    | false =>
      simp only [Bool.not_false, if_true]
      rw [wpc_pure]
      refine ⟨hf1, ⟨w1.fs, h1, Or.inl rfl⟩, Or.inr rfl, by simp, ?_⟩
      intro hnf hd
      exact absurd (h3 hnf hd.dir hd.header) (by simp)
    | true =>
      obtain ⟨rfl, g2⟩ := h2 rfl
      simp only [Bool.not_true, Bool.false_eq_true, if_false]
      by_cases hda : bb.attrset.dirty = true
      · rw [if_pos hda]
        have hl := hl hda
        rw [wpc_bind]
        apply wpc_mono (wpc_writeAttrsV2 env bb.attrset bb.basename txt s1 w1 hl)
        · rintro ⟨rc, s⟩ w2 ⟨k1, k2, k3, k4, k5⟩
          simp only at k3 k4 k5
          have hout : FlushOut bb txt w.fs w2.fs := by
            refine ⟨w1.fs, h1, ?_⟩
            rcases k2 with h | ⟨n, h⟩
            · exact Or.inl h
            · exact Or.inr ⟨hda, n, h⟩
          have hrc0 : w.faults = noFaults → DirOk w.fs bb.basename → rc = 0 := by
            intro hnf hd
            have hfs := g2 (by rw [hnf]; intro i n; simp [noFaults])
            have hother : ∀ k, k ≠ fileKey bb.basename .header → w1.fs.node k = w.fs.node k := by
              intro k hk
              rw [hfs]
              split
              · exact FS.set_other _ _ _ _ hk
              · rfl
            apply k5 (hf1.trans hnf)
            · rw [hother _ (by rw [fileKey_eq]; intro h; simpa using congrArg List.length h)]
              exact hd.dir
            · rw [hother _ (fileKey_ne (by simp))]
              exact hd.attr
          rcases k3 with rfl | rfl
          · simp only [ne_eq, not_true_eq_false, if_false]
            rw [wpc_pure]
            obtain ⟨rfl, g4⟩ := k4 rfl
            refine ⟨k1.trans hf1, hout, Or.inl rfl, fun _ => ⟨?_, ?_⟩, fun _ _ => rfl⟩
            · simp [flushed, hda]
            · intro hns
              rw [g4 (by rw [hf1]; exact hns), g2 hns]
              simp [flushFS, hda]
          · simp only [ne_eq, show (-1 : Int) ≠ 0 by decide, not_false_eq_true, if_true]
            rw [wpc_pure]
            refine ⟨k1.trans hf1, hout, Or.inr rfl, by simp, hrc0⟩
        · rintro w2 ⟨k1, k2⟩
          refine ⟨by rw [← hf1]; exact k1, w1.fs, h1, ?_⟩
          rcases k2 with h | ⟨n, h⟩
          · exact Or.inl h
          · exact Or.inr ⟨hda, n, h⟩
      · rw [if_neg hda, wpc_pure]
        refine ⟨hf1, ⟨w1.fs, h1, Or.inl rfl⟩, Or.inl rfl, fun _ => ⟨?_, ?_⟩, fun _ _ => rfl⟩
        · simp [flushed, hda]
        · intro hns
          rw [g2 hns]
          simp [flushFS, hda]
  · rintro w1 ⟨h1, h2⟩
    exact ⟨h1, w1.fs, h2, Or.inl rfl⟩

end Verif
