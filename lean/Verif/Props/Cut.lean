import Verif.Spec.Cut
import Verif.Proof.Cut
import Verif.Props.AttrBad
import Verif.Props.Durable
import Verif.Props.Copy
/-!
# C75: a header that was cut short
-/

set_option autoImplicit false

namespace Verif

open Spec

variable {env : Env} {K : Kind} {A : Content} {w : World}

/-- **Cutting off the end of a header.** What is left is refused or says what the whole header says. -/
theorem parseHeader_cut (bb : Block) (h : GoodHeader bb) (a b : CStr) (hab : a ++ b = headerText bb) :
    parseHeader a = .err ∨ parseHeader a = .ok bb.dtype bb.nmemb bb.nfile bb.fsize bb.fchecksum := by
  have hfull := parseHeader_headerText bb h
  have hst := headerStart_headerText bb h
  rw [← hab] at hfull hst
  cases hp : parseHeader a with
  | err => exact Or.inl rfl
  | ok dt nm nf F C =>
    right
    rcases parseHeader_more b hp with hm | ⟨tok, s, g1, g2, g3, g4, g5, g6, g7, g8⟩
    · rw [hm] at hfull
      exact hfull
    · rw [headerStart_more b g1 g2] at hst
      injection hst with hst
      injection hst with e1 hst
      injection hst with e2 e3
      have hz := scanInt_cut (by have := h.nfileMax; omega) e3 g5
      have hf := h.nfile
      have hc := h.nck
      rw [hz] at hf hc
      rw [← g3, g6, g7, g8, e1, e2, hz, List.length_eq_zero_iff.mp hf, List.length_eq_zero_iff.mp hc]
      congr 1
      exact takeWhile_all _ _ (fun x hx => by simpa using (h.dt.chars x hx).2)
  | ub =>
    exfalso
    obtain ⟨s1, tok, s2, k1, k2, k3⟩ := parseHeader_ub hp
    have n1 : s1 ≠ [] := by intro he; rw [he] at k2; cases k2
    have k4 := scanLit_more _ b k1 n1
    -- the token in the whole text
    unfold headerStart at hst
    rw [k4] at hst
    simp only [Option.bind_eq_bind, Option.bind_some, Option.pure_def, Option.bind_eq_some_iff] at hst
    obtain ⟨⟨t, s3⟩, g1, s4, _, x, _, s5, _, g2⟩ := hst
    injection g2 with g2
    injection g2 with g2 _
    have g2 : t = bb.dtype := g2
    have hws : scanWs s1 ≠ [] := by
      intro he
      unfold scanStr at k2
      rw [he] at k2
      cases k2
    unfold scanStr at g1 k2
    dsimp only at g1 k2
    rw [scanWs_more b hws] at g1
    split at g1
    · cases g1
    · split at k2
      · cases k2
      · injection g1 with g1
        injection g1 with g1 _
        injection k2 with k2
        injection k2 with k2 _
        have := takeWhile_prefix_append (fun c => !isSpace c) (scanWs s1) b
        rw [g1, k2, g2] at this
        have hs := h.dt.short
        omega

theorem parseHeader_take (bb : Block) (h : GoodHeader bb) (n : Nat) : parseHeader ((headerText bb).take n) = .err ∨
    parseHeader ((headerText bb).take n) = .ok bb.dtype bb.nmemb bb.nfile bb.fsize bb.fchecksum :=
  parseHeader_cut bb h _ ((headerText bb).drop n) (List.take_append_drop _ _)

theorem wlp_keeps {α : Type} {m : M α} {Q : α → World → Prop} (hk : Keeps m) (h : ∀ a w', w'.fs = w.fs → Q a w') :
    wlp m w Q (fun _ => True) := by
  have := hk w
  unfold wlp
  revert this
  cases m w with
  | ok a w' => intro this; exact h a w' this
  | crash w' => intro _; trivial
  | ub => intro _; trivial
  | hang => intro _; trivial

/-- **C75.** The header file holds what the library wrote for `bb`, or only the beginning of it. Whatever file operations
fail while the block is opened, if opening succeeds the handle has the layout of `bb`, and nothing on disk has changed. -/
theorem C75_open (env : Env) (base : CStr) (w w' : World) (b bb : Block) (hb : base.length ≤ 8192) (hm : isMeta base = false)
    (h : HeaderCut w.fs base bb) (ho : blockOpen env base w = .ok (0, some b) w') : SameLayout b bb ∧ w'.fs = w.fs := by
  obtain ⟨hg, n, hn⟩ := h
  refine ⟨?_, ?_⟩
  · have key : wlp (blockOpen env base) w (fun r _ => ∀ b, r = (0, some b) → SameLayout b bb) (fun _ => True) := by
      have hstr : strdup base = base := by unfold strdup; exact List.take_of_length_le hb
      unfold blockOpen
      dsimp only
      rw [hstr, wlp_bind]
      apply wlp_keeps (keeps_readV1 env _ base)
      rintro ⟨rc, s⟩ w1 e1
      dsimp only
      split
      · rw [wlp_pure]
        intro b hb
        injection hb with hb
        exact absurd hb (by decide)
      · rw [wlp_bind]
        apply wlp_keeps (keeps_readV2 env _ base)
        rintro ⟨rc, s⟩ w2 e2
        dsimp only
        split
        · rw [wlp_pure]
          intro b hb
          injection hb with hb
          exact absurd hb (by decide)
        · rw [hm, Bool.not_false, if_pos rfl, wlp_bind]
          apply wlp_openR
          intro b3 w3 e3 f3 _
          split
          · rw [wlp_bind]
            apply wlp_of_wpc
            rw [wpc_getFS, wlp_bind]
            apply wlp_of_wpc
            apply wpc_freadAt
            · intro k w4 e4 f4 _
              have hk : resolve (filePath base .header) = fileKey base .header := rfl
              have hby : w3.fs.bytes (fileKey base .header) = (headerText bb).take n := by
                rw [e3, e2, e1]
                unfold FS.bytes
                rw [hn]
              rw [hk, hby, List.drop_zero, List.take_take, List.take_take]
              rcases parseHeader_take bb hg (min (min k ((headerText bb).take n).length) n) with hp | hp
              · rw [hp]
                rw [wlp_pure]
                intro b hb
                injection hb with hb
                exact absurd hb (by decide)
              · rw [hp]
                rw [wlp_pure]
                intro b hb
                injection hb with _ hb
                injection hb with hb
                subst hb
                exact ⟨rfl, rfl, rfl, rfl, rfl, fun hs => runningSums_last bb.fsize hs⟩
            · intro _ _ _; trivial
          · rw [wlp_pure]
            intro b hb
            injection hb with hb
            exact absurd hb (by decide)
    exact wlp_ok key ho b rfl
  · have := keeps_blockOpen env base w
    rw [ho] at this
    exact this

/-- **C75, after an interrupted flush.** Any file operations of a flush may fail, and the process may be killed during it.
Whatever fails when the block is opened later: if opening succeeds the handle has the layout that was stored before the
flush or the one that was to be stored. -/
theorem C75_torn (env : Env) (bb old : Block) (w w2 w3 : World) (b : Block) (fs : FS) (hsv : Savable env bb)
    (hold : HeaderCut w.fs bb.basename old) (hl : leftDisk (blockFlush env bb w) = some fs) (h2 : w2.fs = fs)
    (ho : blockOpen env bb.basename w2 = .ok (0, some b) w3) : SameLayout b old ∨ SameLayout b bb := by
  obtain ⟨txt, _, _, hf⟩ := C15_flush_may_partial env bb w hsv
  have hmay : FlushMay bb txt w.fs fs := by
    unfold wpc at hf
    unfold leftDisk at hl
    revert hf hl
    cases blockFlush env bb w with
    | ok a w' => intro hl hf; injection hl with hl; rw [← hl]; exact hf
    | crash w' => intro hl hf; injection hl with hl; rw [← hl]; exact hf
    | ub => intro hl _; cases hl
    | hang => intro hl _; cases hl
  rcases hmay.header with he | ⟨_, n, he⟩
  · left
    obtain ⟨g1, n, g2⟩ := hold
    exact (C75_open env bb.basename w2 w3 b old hsv.base hsv.notMeta ⟨g1, n, by rw [h2, he]; exact g2⟩ ho).1
  · right
    exact (C75_open env bb.basename w2 w3 b bb hsv.base hsv.notMeta ⟨hsv.header, n, by rw [h2]; exact he⟩ ho).1

/-! ## Opening a block while file operations fail -/

theorem wpc_openR_may {base : CStr} {id : FileId} {w : World} {Q : Bool → World → Prop} {C : World → Prop}
    (h : ∀ b w', w'.fs = w.fs → w'.faults = w.faults →
      (b = (w.fs.node (fileKey base id)).isSome ∨ b = false ∧ ∃ i, w.faults i = .fail) → Q b w')
    (hc : ∀ w', w'.fs = w.fs → C w') : wpc (openAFile base id .r) w Q C := by
  unfold openAFile fopen
  rw [wpc_bind, wpc_tick]
  cases hf : w.faults w.clock with
  | crash n => exact hc _ rfl
  | fail => exact h _ _ rfl rfl (Or.inr ⟨rfl, _, hf⟩)
  | none | short | silent =>
    simp only
    rw [wpc_bind, wpc_getFS]
    exact h _ _ rfl rfl (Or.inl rfl)

theorem wpc_readV2_may {env : Env} {s : AttrSet} {base : CStr} {w : World} {r : Int × AttrSet} {Q : Int × AttrSet → World → Prop}
    {C : World → Prop} (hr : readsV2 env w.fs base s = some r)
    (h : ∀ r' w', w'.fs = w.fs → w'.faults = w.faults →
      (r'.1 ≠ 0 ∨ r' = r ∨ r' = (0, { s with dirty := false }) ∧ ∃ i, w.faults i = .fail) → Q r' w')
    (hc : ∀ w', w'.fs = w.fs → C w') : wpc (readAttrsV2 env s base) w Q C := by
  unfold readAttrsV2
  dsimp only
  rw [wpc_bind]
  apply wpc_openR_may
  · intro b w1 e1 f1 hb
    unfold readsV2 at hr
    rcases hb with hb | ⟨hb, hi⟩
    · by_cases hs : (w.fs.node (fileKey base .attrV2)).isSome = true
      · rw [hs] at hb
        subst hb
        rw [if_pos hs] at hr
        rw [if_pos rfl, wpc_bind, wpc_getFS]
        have hk : resolve (filePath base .attrV2) = fileKey base .attrV2 := rfl
        rw [hk, wpc_bind]
        apply wpc_freadAt
        · intro n w2 e2 f2 _
          rw [hk, List.drop_zero, List.take_of_length_le (Nat.le_refl _), e1]
          split
          · exact h _ w2 (e2.trans e1) (f2.trans f1) (Or.inl (by show (-1 : Int) ≠ 0; decide))
          · rename_i hn
            have hle : (w.fs.bytes (fileKey base .attrV2)).length ≤ n := by
              rw [List.length_take] at hn
              omega
            rw [List.take_of_length_le hle, wpc_bind]
            obtain ⟨⟨rc, s'⟩, hp, he⟩ := Option.map_eq_some_iff.mp hr
            rw [hp]
            exact h _ w2 (e2.trans e1) (f2.trans f1) (Or.inr (Or.inl he))
        · intro w2 e2 _; exact hc w2 (e2.trans e1)
      · have hf : (w.fs.node (fileKey base .attrV2)).isSome = false := by simpa using hs
        rw [hf] at hb
        subst hb
        rw [if_neg hs] at hr
        injection hr with hr
        rw [if_neg (by simp)]
        exact h _ w1 e1 f1 (Or.inr (Or.inl hr))
    · subst hb
      rw [if_neg (by simp)]
      exact h _ w1 e1 f1 (Or.inr (Or.inr ⟨rfl, hi⟩))
  · exact hc

/-- **C75, opening a block under failures** (partial: no attribute file in the old format; the second alternative is
`C62_lost`). A block with content `A` is on disk, and its header was written by the library. Whatever fails while it is
opened, opening reports an error, or the handle has the content `A`, or it has the rows of `A` but no attributes and some
operation has failed. The disk does not change, whatever happens. -/
theorem C75_content_partial (env : Env) (K : Kind) (A : Content) (base : CStr) (w : World) (hb : Block)
    (h : OnDisk env K w.fs base A) (hh : HeaderCut w.fs base hb) :
    wpc (blockOpen env base) w
      (fun r w' => w'.fs = w.fs ∧ w'.faults = w.faults ∧ (r = (-1, none) ∨ ∃ b, r = (0, some b) ∧ b.basename = base ∧ b.dirty = false ∧
        (Holds env K b w.fs A ∨ Holds env K b w.fs { A with attrs := AttrMap.empty } ∧ ∃ i, w.faults i = .fail)))
      (fun w' => w'.fs = w.fs) := by
  obtain ⟨h1, h2, bb, rfl, h3, h⟩ := h
  obtain ⟨s1, s2, a1, a2, a3, a4⟩ := h.saved h1
  have hno := h.noOld
  have hs1 : s1 = { attrsetCreate env with dirty := false } := by
    unfold readsV1 at a1
    rw [hno, if_neg (by simp)] at a1
    injection a1 with a1
    injection a1 with _ a1
    exact a1.symm
  have hempty : ∀ b, attrView env.m { attrsetCreate env with dirty := b } = AttrMap.empty ∧
      WellAttrs env.m { attrsetCreate env with dirty := b } := by
    intro b
    have := (attrsetCreate_inv env).dirty b
    exact ⟨this.view_eq, _, this⟩
  have hs2 : s2.dirty = false := by
    unfold readsV2 at a2
    split at a2
    · obtain ⟨r, _, he⟩ := Option.map_eq_some_iff.mp a2
      injection he with _ he
      rw [← he]
    · injection a2 with a2
      injection a2 with _ a2
      rw [← a2]
  have hhs := h.header h3
  obtain ⟨hg, n, hn⟩ := hh
  have hby : w.fs.bytes (fileKey bb.basename .header) = (headerText hb).take n := by
    unfold FS.bytes
    rw [hn]
  have hpar := hhs.2
  rw [hby] at hpar
  have hfull : parseHeader (headerText hb) = .ok bb.dtype bb.nmemb bb.nfile bb.fsize bb.fchecksum := by
    rw [parseHeader_headerText hb hg]
    rcases parseHeader_take hb hg n with hp | hp
    · rw [hp] at hpar; cases hpar
    · rw [hp] at hpar; exact hpar
  rw [parseHeader_headerText hb hg] at hfull
  have hcut : ∀ k, parseHeader ((headerText hb).take k) = .err ∨
      parseHeader ((headerText hb).take k) = .ok bb.dtype bb.nmemb bb.nfile bb.fsize bb.fchecksum := by
    intro k
    rw [← hfull]
    exact parseHeader_take hb hg k
  have hstr : strdup bb.basename = bb.basename := by unfold strdup; exact List.take_of_length_le h.savable.base
  unfold blockOpen
  dsimp only
  rw [hstr, wpc_bind]
  unfold readAttrsV1
  rw [wpc_bind]
  apply wpc_openR_may
  · intro b1 w1 e1 f1 hb1
    have hb1 : b1 = false := by
      rcases hb1 with hb1 | hb1
      · rw [hno] at hb1; exact hb1
      · exact hb1.1
    subst hb1
    rw [if_neg (by simp), wpc_pure]
    simp only [ne_eq, not_true_eq_false, if_false]
    rw [← hs1, wpc_bind]
    apply wpc_readV2_may (by rw [e1]; exact a2)
    · rintro ⟨rc, s⟩ w2 e2 f2 hr
      dsimp only
      split
      · exact ⟨e2.trans e1, f2.trans f1, Or.inl rfl⟩
      · rename_i hrc
        have hs : WellAttrs env.m s ∧ s.dirty = false ∧ (attrView env.m s = A.saved ∨
            attrView env.m s = AttrMap.empty ∧ ∃ i, w.faults i = .fail) := by
          rcases hr with hr | hr | ⟨hr, i, hi⟩
          · exact absurd hr hrc
          · injection hr with _ hr
            rw [hr]
            exact ⟨a3, hs2, Or.inl a4⟩
          · injection hr with _ hr
            rw [hr, hs1]
            exact ⟨(hempty false).2, rfl, Or.inr ⟨(hempty false).1, i, by rw [← f1]; exact hi⟩⟩
        rw [h.savable.notMeta, Bool.not_false, if_pos rfl, wpc_bind]
        apply wpc_openR_may
        · intro b3 w3 e3 f3 _
          split
          · rw [wpc_bind, wpc_getFS, wpc_bind]
            apply wpc_freadAt
            · intro k w4 e4 f4 _
              have hk : resolve (filePath bb.basename .header) = fileKey bb.basename .header := rfl
              have efs : w4.fs = w.fs := by rw [e4, e3, e2, e1]
              have eff : w4.faults = w.faults := by rw [f4, f3, f2, f1]
              rw [hk, e3, e2, e1, hby, List.drop_zero, List.take_take, List.take_take]
              rcases hcut (min (min k ((headerText hb).take n).length) n) with hp | hp
              · rw [hp]
                exact ⟨efs, eff, Or.inl rfl⟩
              · rw [hp]
                refine ⟨efs, eff, Or.inr ⟨_, rfl, rfl, rfl, ?_⟩⟩
                have hsame : ∀ (s : AttrSet), SameShape bb (openedBlock bb.basename bb.dtype bb.nmemb bb.nfile bb.fsize bb.fchecksum s) := by
                  intro s
                  refine ⟨rfl, rfl, rfl, ?_, rfl, h.savable.offsets.symm, rfl⟩
                  show (runningSums 0 bb.fsize).getLastD 0 = bb.size
                  rw [h.savable.size, h.savable.offsets]
                have hl' : Layout (openedBlock bb.basename bb.dtype bb.nmemb bb.nfile bb.fsize bb.fchecksum s) :=
                  (hsame s).layout h.ok.layout h.ok.layout.nck h.ok.layout.ck32
                rcases hs.2.2 with hv | ⟨hv, hi⟩
                · left
                  exact h.rewritten (hsame s) hl' rfl rfl rfl (fun _ _ _ => rfl) hs.1 (hv.trans h2) (hs.2.1.trans h1.symm)
                    h.tame.1 (h.tame.2 h1) (h.saved h1) hhs ⟨h.dir.header, h.dir.attr⟩
                · right
                  refine ⟨?_, hi⟩
                  exact h.rewritten (A' := { A with attrs := AttrMap.empty }) (hsame s) hl' rfl rfl rfl (fun _ _ _ => rfl) hs.1 hv
                    (hs.2.1.trans h1.symm) (by intro name v hv; cases hv) (h.tame.2 h1) (h.saved h1) hhs ⟨h.dir.header, h.dir.attr⟩
            · intro w4 e4 _; rw [e4, e3, e2, e1]
          · exact ⟨by rw [e3, e2, e1], by rw [f3, f2, f1], Or.inl rfl⟩
        · intro w3 e3; rw [e3, e2, e1]
    · intro w2 e2; rw [e2, e1]
  · intro w1 e1; exact e1

/-! ## The example -/

theorem exHeaderCut : HeaderCut exW.fs b!"d/x" exB := ⟨exB_savable.header, 1000, by decide +kernel⟩

/-- The flush of the example, killed after `n` bytes of the new header, and then opening the block: return code and number
of files. -/
def exCutRun (n : Nat) : Option (Int × Option Nat) :=
  (leftDisk (blockFlush exEnv exB2 { exW with faults := fun i => if i = 1 then .crash n else .none })).bind fun fs =>
    (blockOpen exEnv b!"d/x" ⟨fs, noFaults, 0⟩).val?.map fun r => (r.1, r.2.map (·.nfile))

/-- After 40 bytes the block cannot be opened; if only the last byte is missing it can be, and it has the new layout. -/
example : exCutRun 40 = some (-1, none) ∧ exCutRun ((headerText exB2).length - 1) = some (0, some exB2.nfile) := by decide +kernel

example (w2 w3 : World) (b : Block) (fs : FS) (hl : leftDisk (blockFlush exEnv exB2 exCrashW) = some fs) (h2 : w2.fs = fs)
    (ho : blockOpen exEnv b!"d/x" w2 = .ok (0, some b) w3) : SameLayout b exB ∨ SameLayout b exB2 :=
  C75_torn exEnv exB2 exB exCrashW w2 w3 b fs exB2_savable exHeaderCut hl h2 ho

/-- A header of another program, with a number of files that starts with zero, can be cut to one that says something else. -/
example : parseHeader (b!"DTYPE: <i4\nNMEMB: 1\nNFILE: 01\n000000: 7 : 0 : 0\n") = .ok b!"<i4" 1 1 [7] [0] ∧
    parseHeader ((b!"DTYPE: <i4\nNMEMB: 1\nNFILE: 01\n000000: 7 : 0 : 0\n").take 28) = .ok b!"<i4" 1 0 [] [] :=
  ⟨rfl, rfl⟩

/-- What the header of the block of `exCopySrc` says. -/
def exCopyHdr : Block :=
  ⟨b!"<i4", 1, b!"d/z", 5, [2, 0, 3], [0, 2, 2, 5], [21, 0, 45], 3, attrsetCreate exEnv, false⟩

/-- The block of `exCopySrc`, opened while any operations fail. -/
example : ∃ w, exCopySrc exTreeWorld = .ok 0 w ∧ ∀ faults,
    wpc (blockOpen exEnv b!"d/z") { w with faults := faults }
      (fun r w' => w'.fs = w.fs ∧ w'.faults = faults ∧ (r = (-1, none) ∨ ∃ b, r = (0, some b) ∧ b.basename = b!"d/z" ∧ b.dirty = false ∧
        (Holds exEnv exKind b w.fs exCopyA ∨ Holds exEnv exKind b w.fs { exCopyA with attrs := AttrMap.empty } ∧ ∃ i, faults i = .fail)))
      (fun w' => w'.fs = w.fs) := by
  obtain ⟨w, e, _, _, h⟩ := exCopy_src
  have hchk : (exCopySrc exTreeWorld).fs?.map (fun fs =>
      (fs.node (fileKey b!"d/z" .header) = some (.file ((headerText exCopyHdr).take 1000)) : Bool)) = some true := by decide +kernel
  rw [e] at hchk
  simp only [Res.fs?, Option.map_some, Option.some.injEq, decide_eq_true_eq] at hchk
  exact ⟨w, e, fun faults => C75_content_partial exEnv exKind exCopyA b!"d/z" { w with faults := faults } exCopyHdr h
    ⟨⟨exB_good.dt, by decide, by decide, rfl, rfl, by decide, by decide, by decide⟩, 1000, hchk⟩⟩

end Verif
