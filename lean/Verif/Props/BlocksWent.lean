import Verif.Spec.BlocksWent
import Verif.Props.BlocksSharedMay
import Verif.Props.Went
/-!
# C102 and C104: what a program that uses several blocks may conclude from the answers it got

A program sees only the answers. If none of them is an error code, every block is as if no file operation had failed.
-/

set_option autoImplicit false

namespace Verif

open Spec

theorem whole_put {D : DBlocks} {name : CStr} {s : Option (Kind × Durable)} (h : D.Whole)
    (hs : ∀ K S, s = some (K, S) → S.attrsKnown = true ∧ S.whole = true) : (D.put name s).Whole := by
  intro m K S hm
  by_cases hn : m = name
  · subst hn
    rw [put_self] at hm
    exact hs K S hm
  · rw [put_other _ _ hn] at hm
    exact h m K S hm

/-! ## One process -/

/-- **C102, the answers.** When the program ends, the handles and the files of all blocks are in a state that the answers it got
allow. -/
theorem C102_answers (env : Env) (bf : CStr) (N : CStr → Prop) (hfmt : FmtOk env) (hchunk : env.chunkBytes < 18446744073709551616)
    (hbf : bf ≠ []) (p : FileSession) : ∀ (hs : OpenBlocks) (w : World) (D : DBlocks), TreeOk w.fs → NoSilent w.faults → Names bf N w.fs →
    AllHold env bf N hs w.fs D → p.Safe env bf N D →
    wpc (runFileNoted env bf hs p) w (fun r w' => ∃ D', FileWent env D p r.1 D' ∧ AllHold env bf N r.2 w'.fs D')
      (fun w' => ∃ hs' D', FileLeaves env D p D' ∧ AllHold env bf N hs' w'.fs D') := by
  induction p with
  | stop => intro hs w D _ _ _ h _; exact ⟨D, .stop D, h⟩
  | create name dt nmemb sizes k ih =>
    intro hs w D ht hns hN h hp
    obtain ⟨hname, hm, hp0, hp1⟩ := hp
    unfold runFileNoted
    rw [wpc_bind]
    have hcl := hN.clear name hname
    have c1 := wpc_run (createBlock_may (env := env) (dt := dt) (nmemb := nmemb) (fsize := sizes) ht hbf hm.length hm.notMeta)
    refine wpc_mono (wpc_wlp (wpc_and c1 (createBlock_clear (env := env) (dt := dt) (nmemb := nmemb) (sizes := sizes) hm.length hm.notMeta hcl))
      (createBlock_keeps env bf name (some dt) nmemb sizes w ht)) ?_ ?_
    · rintro ⟨rc, b⟩ w1 ⟨⟨⟨⟨f1, hmade, hrc⟩, e⟩, hc⟩, hl⟩
      have hN1 : Names bf N w1.fs := by
        refine ⟨hN.apart, fun n hn => ?_⟩
        by_cases hnn : n = name
        · subst hnn; exact hc
        · exact (hN.clear n hn).other hmade (hN.apart n name hn hname hnn)
      have hns1 : NoSilent w1.faults := by rw [f1]; exact hns
      rw [wpc_bind]
      rcases hrc with hrc | hrc
      · injection hrc with r1 r2
        subst r1 r2
        have h1 := allHold_put h hname hN.apart hmade none none (fun _ _ h => by cases h)
        refine wpc_mono (ih (-1) _ w1 _ hl.1 hns1 hN1 h1 hp1) ?_ ?_
        · rintro ⟨xs, hs'⟩ w' ⟨D', g1, g2⟩; exact ⟨D', .notMade D D' name dt nmemb sizes k xs g1, g2⟩
        · rintro w' ⟨hs', D', g1, g2⟩; exact ⟨hs', D', .notMade D D' name dt nmemb sizes k g1, g2⟩
      · injection hrc with r1 r2
        subst r1 r2
        have hi := hm.item
        have hit : itemsize env.m (dtypeNormalize env.m dt) = ((itemsize env.m (dtypeNormalize env.m dt)).toNat : Int) := by omega
        obtain ⟨k1, _⟩ := fresh_holds_may hfmt hns hm.length hm.notMeta hm.dtype hit (by omega) rfl hm.memb hm.rowBytes hm.buffer hchunk hm.nfile
          hm.size hm.bytes e hcl.way hcl.noOld hcl.data
        have h1 := allHold_put h hname hN.apart hmade (some (madeBlock env.m dt nmemb sizes))
          (some (freshBlock env (pathJoin bf name) dt nmemb sizes)) (by
            intro K S he
            injection he with he
            injection he with h1 h2
            subst h1 h2
            exact ⟨_, rfl, rfl, opened_holdsD k1 rfl rfl⟩)
        refine wpc_mono (ih 0 _ w1 _ hl.1 hns1 hN1 h1 hp0) ?_ ?_
        · rintro ⟨xs, hs'⟩ w' ⟨D', g1, g2⟩; exact ⟨D', .made D D' name dt nmemb sizes k xs g1, g2⟩
        · rintro w' ⟨hs', D', g1, g2⟩; exact ⟨hs', D', .made D D' name dt nmemb sizes k g1, g2⟩
    · rintro w1 ⟨⟨hmade, _⟩, _⟩
      exact ⟨_, _, .killedMaking D name dt nmemb sizes k, allHold_put h hname hN.apart hmade none none (fun _ _ h => by cases h)⟩
  | use name op k ih =>
    intro hs w D ht hns hN h hp
    obtain ⟨K, S, hD, hl, hk⟩ := hp
    obtain ⟨hname, b, k1, k2, k3⟩ := h name K S hD
    unfold runFileNoted
    simp only [k1]
    rw [wpc_bind]
    have hout := runBOp_touches env b op w
    refine wpc_mono (wpc_wlp (wpc_wlp (bop_may k3 hns op hl) (runBOp_keeps env b op w ht)) hout) ?_ ?_
    · rintro ⟨x, b'⟩ w1 ⟨⟨⟨hb, f1, S1, ho, h1⟩, hlater⟩, hsame⟩
      dsimp only at hb ho h1
      rw [k2] at hsame
      have hmade := OnlyMade.of_outside hsame
      have hN1 : Names bf N w1.fs := by
        refine ⟨hN.apart, fun n hn => ?_⟩
        by_cases hnn : n = name
        · subst hnn
          have := h1.clear
          rw [hb, k2] at this
          exact this
        · exact (hN.clear n hn).other hmade (hN.apart n name hn hname hnn)
      have h2 := allHold_put h hname hN.apart hmade (some (K, S1)) (some b') (by
        intro K' S' he
        injection he with he
        injection he with e1 e2
        subst e1 e2
        exact ⟨b', rfl, hb.trans k2, h1⟩)
      rw [wpc_bind]
      refine wpc_mono (ih x _ w1 _ hlater.1 (by rw [f1]; exact hns) hN1 h2 (hk x S1 ho)) ?_ ?_
      · rintro ⟨xs, hs'⟩ w' ⟨D', g1, g2⟩; exact ⟨D', .step D D' name op k K S S1 x xs hD ho g1, g2⟩
      · rintro w' ⟨hs', D', g1, g2⟩; exact ⟨hs', D', .step D D' name op k K S S1 x hD ho g1, g2⟩
    · rintro w1 ⟨⟨⟨S1, b', hkl, hb, h1⟩, _⟩, hsame⟩
      rw [k2] at hsame
      exact ⟨_, _, .killed D name op k K S S1 hD hkl, allHold_put h hname hN.apart (OnlyMade.of_outside hsame) (some (K, S1)) (some b') (by
        intro K' S' he
        injection he with he
        injection he with e1 e2
        subst e1 e2
        exact ⟨b', rfl, hb.trans k2, h1⟩)⟩

/-- **C102, no false success.** If no operation answered with an error code, the answers and the states of all blocks are those of a
run in which nothing failed. -/
theorem C102_no_false_success (env : Env) (D D' : DBlocks) (p : FileSession) (xs : List FileAns) (h : FileWent env D p xs D')
    (hx : p.NoError xs) : p.AsIf env xs D D' := by
  induction h with
  | stop D => rfl
  | made D D' name dt nmemb sizes k xs _ ih => exact ⟨rfl, ih hx.2⟩
  | notMade D D' name dt nmemb sizes k xs _ ih => exact absurd hx.1 (by decide)
  | step D D' name op k K S S1 x xs hD ho _ ih =>
    obtain ⟨h1, h2⟩ := hx
    have bad : x.rc = -1 → (∃ a, op = .attr a) ∨ x.rc = 0 → (∀ a, op ≠ .attr a) → False := by
      rintro e (⟨a, rfl⟩ | h0) hn
      · exact hn a rfl
      · rw [h0] at e; cases e
    cases ho with
    | done _ _ ha => exact ⟨K, S, hD, ha, ih h2⟩
    | write _ _ _ _ _ e _ _ _ => exact (bad e h1 (by intro a h; cases h)).elim
    | read _ _ _ _ _ e _ => exact (bad e h1 (by intro a h; cases h)).elim
    | grow _ _ e => exact (bad e h1 (by intro a h; cases h)).elim
    | flush _ e => exact (bad e h1 (by intro a h; cases h)).elim
    | attrs _ e _ => exact (bad e h1 (by intro a h; cases h)).elim

theorem fileAsIf_whole {env : Env} (p : FileSession) : ∀ {xs : List FileAns} {D D' : DBlocks}, p.AsIf env xs D D' → D.Whole → D'.Whole := by
  induction p with
  | stop =>
    intro xs D D' h hw
    match xs, h with
    | [], h => have h : D' = D := h; rw [h]; exact hw
  | create name dt nmemb sizes k ih =>
    intro xs D D' h hw
    match xs, h with
    | .made rc :: xs, h =>
      refine ih rc h.2 (whole_put hw fun K S he => ?_)
      injection he with he
      injection he with _ he
      subst he
      exact ⟨rfl, rfl⟩
  | use name op k ih =>
    intro xs D D' h hw
    match xs, h with
    | .used x :: xs, ⟨K, S, hD, _, h⟩ =>
      refine ih x h (whole_put hw fun K' S' he => ?_)
      injection he with he
      injection he with _ he
      subst he
      obtain ⟨h1, h2⟩ := hw name K S hD
      constructor
      · cases op with
        | flush => simp only [Durable.next, Durable.flushed]; rw [h1]; rfl
        | write | read | grow | attr | reopen => exact h1
      · cases op with
        | flush => exact h2
        | write | read | grow | attr | reopen => exact h2

/-- **C102, if no answer is an error.** A program makes and uses any number of blocks with plain names in an empty directory, and comes to
its end, and no operation answered with an error code. Then, whatever happened to the file operations, every answer is the right
one, and every block holds the content that the operations on it should have produced. -/
theorem C102_all_well (env : Env) (bf : CStr) (hfmt : FmtOk env) (hchunk : env.chunkBytes < 18446744073709551616) (hbf : bf ≠ [])
    (p : FileSession) (w : World) (ht : TreeOk w.fs) (he : EmptyDir w.fs bf) (hns : NoSilent w.faults)
    (hp : p.Safe env bf PlainBlockName fun _ => none) (xs : List FileAns) (hs' : OpenBlocks) (w' : World)
    (hr : runFileNoted env bf (fun _ => none) p w = .ok (xs, hs') w') (hx : p.NoError xs) :
    ∃ D', p.AsIf env xs (fun _ => none) D' ∧ ∀ name K S, D' name = some (K, S) →
      ∃ b, hs' name = some b ∧ b.basename = pathJoin bf name ∧ Holds env K b w'.fs S.now := by
  have hN : Names bf PlainBlockName w.fs := by
    refine ⟨fun n n' h h' hne => plain_apart hbf h h' hne, fun n hn => ?_⟩
    have hr := empty_room hbf ht he hn
    exact ⟨fun d hd => hr.way _ (List.prefix_rfl) ⟨d, hd⟩, hr.noOld, fun f => hr.files _⟩
  obtain ⟨D', h1, h2⟩ := wpc_ok (C102_answers env bf PlainBlockName hfmt hchunk hbf p (fun _ => none) w (fun _ => none) ht hns hN nofun hp) hr
  have ha := C102_no_false_success env _ D' p xs h1 hx
  refine ⟨D', ha, fun name K S hD => ?_⟩
  obtain ⟨_, b, g1, g2, g3⟩ := h2 name K S hD
  obtain ⟨k1, k2⟩ := fileAsIf_whole p ha nofun name K S hD
  exact ⟨b, g1, g2, g3.holds k1 k2⟩

/-! ## Several processes -/

/-- **C104, the answers** (partial, as `C104_session_partial`). When the program ends, the handles of all processes and the files of all blocks are in a
state that the answers they got allow. -/
theorem C104_answers_partial (env : Env) (n : Nat) (bf : CStr) (N : CStr → Prop) (hfmt : FmtOk env) (hchunk : env.chunkBytes < 18446744073709551616)
    (hn : 0 < n ∧ n < 2147483648) (hbf : bf ≠ []) (p : CommSession) : ∀ (hs : SharedHandles) (w : World) (D : DBlocks), NoSilent w.faults →
    Names bf N w.fs → CommHold env n bf N hs w.fs D → p.Safe env n bf N D →
    (runCommNoted env n bf hs p).Withstands w (fun r w' => ∃ D', CommWent env n D p r.1 D' ∧ CommHold env n bf N r.2 w'.fs D')
      (fun fs => ∃ D', CommLeaves env n D p D' ∧ FilesHold env bf N fs D') := by
  induction p with
  | stop => intro hs w D _ _ h _; exact ⟨D, .stop D, h⟩
  | create name dt nmemb sizes k ih =>
    intro hs w D hns hN h hp
    obtain ⟨hname, hm, hk⟩ := hp
    unfold runCommNoted
    apply Phases.withstands_bind
    apply Phases.withstands_mono (commCreate_may hfmt hchunk hns hbf hn hm (hN.clear name hname))
    · rintro ⟨c, o⟩ w1 ⟨f1, hmade, hc, hres⟩
      dsimp only at hres ⊢
      have hN1 : Names bf N w1.fs := by
        refine ⟨hN.apart, fun m hm => ?_⟩
        by_cases hmn : m = name
        · subst hmn; exact hc
        · exact (hN.clear m hm).other hmade (hN.apart m name hm hname hmn)
      have hns1 : NoSilent w1.faults := by rw [f1]; exact hns
      apply Phases.withstands_bind
      rcases hres with ⟨hall, H, rfl, hb, hh⟩ | hnone
      · have h1 := commHold_put hbf h hname hN.apart hmade (some (sharedMade env.m dt nmemb sizes)) (some H) (by
          intro K S he
          injection he with he
          rw [he] at hh
          exact ⟨H, rfl, hb, hh⟩)
        apply Phases.withstands_mono (ih c _ w1 _ hns1 hN1 h1 ((hk c).1 hall))
        · rintro ⟨xs, hs'⟩ w' ⟨D', g1, g2⟩; exact ⟨D', .made D D' name dt nmemb sizes k c xs hall g1, g2⟩
        · rintro fs ⟨D', g1, g2⟩; exact ⟨D', .made D D' name dt nmemb sizes k c hall g1, g2⟩
      · have h1 := commHold_put hbf h hname hN.apart hmade none o (fun _ _ h => by cases h)
        apply Phases.withstands_mono (ih c _ w1 _ hns1 hN1 h1 ((hk c).2 hnone))
        · rintro ⟨xs, hs'⟩ w' ⟨D', g1, g2⟩; exact ⟨D', .notMade D D' name dt nmemb sizes k c xs hnone g1, g2⟩
        · rintro fs ⟨D', g1, g2⟩; exact ⟨D', .notMade D D' name dt nmemb sizes k c hnone g1, g2⟩
    · rintro fs ⟨hmade, _⟩
      exact ⟨_, .killedMaking D name dt nmemb sizes k,
        filesHold_put hbf (commHold_files h) hname hN.apart hmade none (fun _ _ h => by cases h)⟩
  | use name op k ih =>
    intro hs w D hns hN h hp
    obtain ⟨K, S, hD, hl, hk⟩ := hp
    obtain ⟨hname, H, k1, k2, k3⟩ := h name K S hD
    have hres := resolve_mpiPath bf name hbf
    unfold runCommNoted
    simp only [k1]
    apply Phases.withstands_bind
    apply Phases.withstands_mono (mop_may k3 hns op hl)
    · rintro ⟨x, H1⟩ w1 ⟨hf, hb, hout, S1, ho, h1⟩
      dsimp only at hb ho h1 ⊢
      rw [k2] at hout hb
      have hmade := OnlyMade.of_outside (hout.renamed hres)
      have hN1 : Names bf N w1.fs := by
        refine ⟨hN.apart, fun m hm => ?_⟩
        by_cases hmn : m = name
        · subst hmn
          obtain ⟨b, g1, _, g2⟩ := comm_base hb h1
          exact g2.clear.renamed (by rw [g1, hres])
        · exact (hN.clear m hm).other hmade (hN.apart m name hm hname hmn)
      have h2 := commHold_put hbf h hname hN.apart hmade (some (K, S1)) (some H1) (by
        intro K' S' he
        injection he with he
        injection he with e1 e2
        subst e1 e2
        exact ⟨H1, rfl, hb, h1⟩)
      apply Phases.withstands_bind
      apply Phases.withstands_mono (ih x _ w1 _ (by rw [hf]; exact hns) hN1 h2 (hk x S1 ho))
      · rintro ⟨xs, hs'⟩ w' ⟨D', g1, g2⟩; exact ⟨D', .step D D' name op k K S S1 x xs hD ho g1, g2⟩
      · rintro fs ⟨D', g1, g2⟩; exact ⟨D', .step D D' name op k K S S1 x hD ho g1, g2⟩
    · rintro fs ⟨hout, S1, b, hkl, hb, h1⟩
      rw [k2] at hout hb
      obtain ⟨b0, e0, z0, _⟩ := comm_base k2 k3
      exact ⟨_, .killed D name op k K S S1 hD hkl, filesHold_put hbf (commHold_files h) hname hN.apart (OnlyMade.of_outside (hout.renamed hres))
        (some (K, S1)) (by
          intro K' S' he
          injection he with he
          injection he with e1 e2
          subst e1 e2
          exact ⟨b, hb, by rw [hb, ← e0]; exact z0, h1⟩)⟩

/-- **C104, no false success.** If one process saw no error code, the answers of all processes and the states of all blocks are those
of a run in which nothing failed. -/
theorem C104_no_false_success (env : Env) (n r : Nat) (hr : r < n) (D D' : DBlocks) (p : CommSession) (xs : List CommAns)
    (h : CommWent env n D p xs D') (hx : p.NoError r xs) : p.AsIf env n xs D D' := by
  induction h with
  | stop D => rfl
  | made D D' name dt nmemb sizes k c xs ha _ ih => exact ⟨ha, ih hx.2⟩
  | notMade D D' name dt nmemb sizes k c xs ha _ ih =>
    obtain ⟨e, he, ha⟩ := ha
    exact absurd ((ha r hr).symm.trans hx.1) he
  | step D D' name op k K S S1 x xs hD ho _ ih =>
    obtain ⟨h1, h2⟩ := hx
    have bad : AllFailed n x → (∃ a, op = .attr a) ∨ (x r).rc = 0 → (∀ a, op ≠ .attr a) → False := by
      rintro ⟨e, he, hx⟩ (⟨a, rfl⟩ | h0) hn
      · exact hn a rfl
      · exact he ((hx r hr).symm.trans h0)
    cases ho with
    | done _ _ ha => exact ⟨K, S, hD, ha, ih h2⟩
    | write _ _ _ _ _ _ _ e => exact (bad e h1 (by intro a h; cases h)).elim
    | read _ _ _ _ _ _ _ e => exact (bad e h1 (by intro a h; cases h)).elim
    | grow _ _ e => exact (bad e h1 (by intro a h; cases h)).elim
    | flush _ e => exact (bad e h1 (by intro a h; cases h)).elim
    | attrs _ e _ => exact (bad e h1 (by intro a h; cases h)).elim

theorem commAsIf_whole {env : Env} {n : Nat} (p : CommSession) : ∀ {xs : List CommAns} {D D' : DBlocks}, p.AsIf env n xs D D' → D.Whole → D'.Whole := by
  induction p with
  | stop =>
    intro xs D D' h hw
    match xs, h with
    | [], h => have h : D' = D := h; rw [h]; exact hw
  | create name dt nmemb sizes k ih =>
    intro xs D D' h hw
    match xs, h with
    | .made c :: xs, h =>
      refine ih c h.2 (whole_put hw fun K S he => ?_)
      injection he with he
      injection he with _ he
      subst he
      exact ⟨rfl, rfl⟩
  | use name op k ih =>
    intro xs D D' h hw
    match xs, h with
    | .used x :: xs, ⟨K, S, hD, _, h⟩ =>
      refine ih x h (whole_put hw fun K' S' he => ?_)
      injection he with he
      injection he with _ he
      subst he
      obtain ⟨h1, h2⟩ := hw name K S hD
      constructor
      · cases op with
        | flush => simp only [Durable.nextAll, Durable.flushed]; rw [h1]; rfl
        | write | read | grow | attr | reopen => exact h1
      · cases op with
        | flush => exact h2
        | write | read | grow | attr | reopen => exact h2

/-- **C104, if no answer is an error** (partial, as above). The processes make and use any number of blocks with plain names in an empty
directory. If one of them saw no error code, then, whatever happened to the file operations, the answers of all processes
are the right ones, and handles and files of every block are in the state that the operations on it should have produced. -/
theorem C104_all_well_partial (env : Env) (n : Nat) (bf : CStr) (hfmt : FmtOk env) (hchunk : env.chunkBytes < 18446744073709551616)
    (hn : 0 < n ∧ n < 2147483648) (hbf : bf ≠ []) (p : CommSession) (w : World) (ht : TreeOk w.fs) (he : EmptyDir w.fs bf) (hns : NoSilent w.faults)
    (hp : p.Safe env n bf PlainBlockName fun _ => none) :
    (runCommNoted env n bf (fun _ => none) p).Withstands w
      (fun r w' => ∀ q, q < n → p.NoError q r.1 → ∃ D', p.AsIf env n r.1 (fun _ => none) D' ∧ D'.Whole ∧ ∀ name K S, D' name = some (K, S) →
        ∃ H, r.2 name = some H ∧ (H 0).basename = mpiPath bf name ∧ HoldsAllD env K n H w'.fs S) (fun _ => True) := by
  have hN : Names bf PlainBlockName w.fs := by
    refine ⟨fun m m' h h' hne => plain_apart hbf h h' hne, fun m hm => ?_⟩
    have hr := empty_room hbf ht he hm
    exact ⟨fun d hd => hr.way _ (List.prefix_rfl) ⟨d, hd⟩, hr.noOld, fun f => hr.files _⟩
  apply Phases.withstands_mono (C104_answers_partial env n bf PlainBlockName hfmt hchunk hn hbf p (fun _ => none) w (fun _ => none) hns hN nofun hp)
  · rintro r w' ⟨D', h1, h2⟩ q hq hx
    have ha := C104_no_false_success env n q hq _ D' p r.1 h1 hx
    exact ⟨D', ha, commAsIf_whole p ha nofun, fun name K S hD => (h2 name K S hD).2⟩
  · intro _ _; trivial

/-! ### The examples -/

/-- The codes that the operations of `exFileSession` answer when the operation number `k` fails. -/
def exFileCodes (k : Nat) : Option (List Int) :=
  match runFileNoted exEnv b!"d/e" (fun _ => none) exFileSession { exTreeWorld with faults := fun i => if i = k then .fail else .none } with
  | .ok (xs, _) _ => some (xs.map fun | .made rc => rc | .used x => x.rc)
  | _ => none

/-- Nothing fails; making `b/c` fails, and the program stops. -/
example : exFileCodes 1000 = some [0, 0, 0, 0] ∧ exFileCodes 10 = some [0, -1] := by decide +kernel

example (faults : Nat → Fault) (hf : NoSilent faults) :
    (runCommNoted exEnv 3 b!"d/e" (fun _ => none) exCommSession).Withstands { exTreeWorld with faults := faults }
      (fun r w' => ∀ q, q < 3 → exCommSession.NoError q r.1 → ∃ D', exCommSession.AsIf exEnv 3 r.1 (fun _ => none) D' ∧ D'.Whole ∧
        ∀ name K S, D' name = some (K, S) → ∃ H, r.2 name = some H ∧ (H 0).basename = mpiPath b!"d/e" name ∧ HoldsAllD exEnv K 3 H w'.fs S) (fun _ => True) :=
  C104_all_well_partial exEnv 3 b!"d/e" exFmt (by decide) (by decide) (by decide) exCommSession { exTreeWorld with faults := faults } exTree_ok
    exBlkTree_empty hf exCommSession_safe

end Verif
