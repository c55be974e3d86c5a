import Verif.Proof.BlocksMay
import Verif.Props.Blocks
/-!
# A file of several blocks, with failures and kills (C102)
-/

set_option autoImplicit false

namespace Verif

open Spec

theorem put_self (D : DBlocks) (name : CStr) (s : Option (Kind × Durable)) : D.put name s name = s := if_pos rfl

theorem put_other (D : DBlocks) {name n : CStr} (s : Option (Kind × Durable)) (h : n ≠ name) : D.put name s n = D n := if_neg h

/-- The other blocks, after an operation on one of them. -/
theorem allHold_put {env : Env} {bf : CStr} {N : CStr → Prop} {hs : OpenBlocks} {fs fs' : FS} {D : DBlocks} {name : CStr}
    (h : AllHold env bf N hs fs D) (hN : N name) (hap : ∀ n n', N n → N n' → n ≠ n' → Apart (pathJoin bf n) (pathJoin bf n'))
    (hm : OnlyMade (pathJoin bf name) fs fs') (s : Option (Kind × Durable)) (b : Option Block)
    (hs' : ∀ K S, s = some (K, S) → ∃ b', b = some b' ∧ b'.basename = pathJoin bf name ∧ HoldsD env K b' fs' S) :
    AllHold env bf N (fun n => if n = name then b else hs n) fs' (D.put name s) := by
  intro n K S hD
  by_cases hn : n = name
  · subst hn
    rw [put_self] at hD
    obtain ⟨b', h1, h2, h3⟩ := hs' K S hD
    exact ⟨hN, b', (if_pos rfl).trans h1, h2, h3⟩
  · rw [put_other _ _ hn] at hD
    obtain ⟨hNn, b', h1, h2, h3⟩ := h n K S hD
    have ha := hap n name hNn hN hn
    rw [← h2] at ha
    have hsrc := hm.source ha h3.dir.dir
    exact ⟨hNn, b', (if_neg hn).trans h1, h2, h3.congr hsrc.1 hsrc.2⟩

/-- **C102, from any state.** A program makes blocks and uses them. Whatever file operations fail and wherever the process is killed
(but no write is lost without an error code), it runs without undefined behaviour and without hanging, and what it leaves of
each block is what the outcomes of the operations on that block allow. -/
theorem C102_session (env : Env) (bf : CStr) (N : CStr → Prop) (hfmt : FmtOk env) (hchunk : env.chunkBytes < 18446744073709551616)
    (hbf : bf ≠ []) (p : FileSession) : ∀ (hs : OpenBlocks) (w : World) (D : DBlocks), TreeOk w.fs → NoSilent w.faults → Names bf N w.fs →
    AllHold env bf N hs w.fs D → p.Safe env bf N D →
    wpc (runFileSession env bf hs p) w (fun hs' w' => ∃ D', FileLeaves env D p D' ∧ AllHold env bf N hs' w'.fs D')
      (fun w' => ∃ hs' D', FileLeaves env D p D' ∧ AllHold env bf N hs' w'.fs D') := by
  induction p with
  | stop => intro hs w D _ _ _ h _; exact ⟨D, .stop D, h⟩
  | create name dt nmemb sizes k ih =>
    intro hs w D ht hns hN h hp
    obtain ⟨hname, hm, hp0, hp1⟩ := hp
    unfold runFileSession
    rw [wpc_bind]
    have hcl := hN.clear name hname
    have c1 := wpc_run (createBlock_may (env := env) (dt := dt) (nmemb := nmemb) (fsize := sizes) ht hbf hm.length hm.notMeta)
    refine wpc_mono (wpc_wlp (wpc_and c1 (createBlock_clear (env := env) (dt := dt) (nmemb := nmemb) (sizes := sizes) hm.length hm.notMeta hcl))
      (createBlock_keeps env bf name (some dt) nmemb sizes w ht)) ?_ ?_
    · rintro ⟨rc, b⟩ w1 ⟨⟨⟨⟨f1, hmade, hrc⟩, e⟩, hc⟩, hl⟩
      have hN1 : Names bf N w1.fs := by
        refine ⟨hN.apart, fun n hn => ?_⟩
        by_cases hnn : n = name
        · subst hnn; exact hc
        · exact (hN.clear n hn).other hmade (hN.apart n name hn hname hnn)
      have hns1 : NoSilent w1.faults := by rw [f1]; exact hns
      rcases hrc with hrc | hrc
      · injection hrc with r1 r2
        subst r1 r2
        have h1 := allHold_put h hname hN.apart hmade none none (fun _ _ h => by cases h)
        refine wpc_mono (ih (-1) _ w1 _ hl.1 hns1 hN1 h1 hp1) ?_ ?_
        · rintro hs' w' ⟨D', g1, g2⟩; exact ⟨D', .notMade D D' name dt nmemb sizes k g1, g2⟩
        · rintro w' ⟨hs', D', g1, g2⟩; exact ⟨hs', D', .notMade D D' name dt nmemb sizes k g1, g2⟩
      · injection hrc with r1 r2
        subst r1 r2
        have hi := hm.item
        have hit : itemsize env.m (dtypeNormalize env.m dt) = ((itemsize env.m (dtypeNormalize env.m dt)).toNat : Int) := by omega
        obtain ⟨k1, _⟩ := fresh_holds_may hfmt hns hm.length hm.notMeta hm.dtype hit (by omega) rfl hm.memb hm.rowBytes hm.buffer hchunk hm.nfile
          hm.size hm.bytes e hcl.way hcl.noOld hcl.data
        have h1 := allHold_put h hname hN.apart hmade (some (madeBlock env.m dt nmemb sizes))
          (some (freshBlock env (pathJoin bf name) dt nmemb sizes)) (by
            intro K S he
            injection he with he
            injection he with h1 h2
            subst h1 h2
            exact ⟨_, rfl, rfl, opened_holdsD k1 rfl rfl⟩)
        refine wpc_mono (ih 0 _ w1 _ hl.1 hns1 hN1 h1 hp0) ?_ ?_
        · rintro hs' w' ⟨D', g1, g2⟩; exact ⟨D', .made D D' name dt nmemb sizes k g1, g2⟩
        · rintro w' ⟨hs', D', g1, g2⟩; exact ⟨hs', D', .made D D' name dt nmemb sizes k g1, g2⟩
    · rintro w1 ⟨⟨hmade, _⟩, _⟩
      exact ⟨_, _, .killedMaking D name dt nmemb sizes k, allHold_put h hname hN.apart hmade none none (fun _ _ h => by cases h)⟩
  | use name op k ih =>
    intro hs w D ht hns hN h hp
    obtain ⟨K, S, hD, hl, hk⟩ := hp
    obtain ⟨hname, b, k1, k2, k3⟩ := h name K S hD
    unfold runFileSession
    simp only [k1]
    rw [wpc_bind]
    have hout := runBOp_touches env b op w
    refine wpc_mono (wpc_wlp (wpc_wlp (bop_may k3 hns op hl) (runBOp_keeps env b op w ht)) hout) ?_ ?_
    · rintro ⟨x, b'⟩ w1 ⟨⟨⟨hb, f1, S1, ho, h1⟩, hlater⟩, hsame⟩
      dsimp only at hb ho h1
      rw [k2] at hsame
      have hmade := OnlyMade.of_outside hsame
      have hN1 : Names bf N w1.fs := by
        refine ⟨hN.apart, fun n hn => ?_⟩
        by_cases hnn : n = name
        · subst hnn
          have := h1.clear
          rw [hb, k2] at this
          exact this
        · exact (hN.clear n hn).other hmade (hN.apart n name hn hname hnn)
      have h2 := allHold_put h hname hN.apart hmade (some (K, S1)) (some b') (by
        intro K' S' he
        injection he with he
        injection he with e1 e2
        subst e1 e2
        exact ⟨b', rfl, hb.trans k2, h1⟩)
      refine wpc_mono (ih x _ w1 _ hlater.1 (by rw [f1]; exact hns) hN1 h2 (hk x S1 ho)) ?_ ?_
      · rintro hs' w' ⟨D', g1, g2⟩; exact ⟨D', .step D D' name op k K S S1 x hD ho g1, g2⟩
      · rintro w' ⟨hs', D', g1, g2⟩; exact ⟨hs', D', .step D D' name op k K S S1 x hD ho g1, g2⟩
    · rintro w1 ⟨⟨⟨S1, b', hkl, hb, h1⟩, _⟩, hsame⟩
      rw [k2] at hsame
      exact ⟨_, _, .killed D name op k K S S1 hD hkl, allHold_put h hname hN.apart (OnlyMade.of_outside hsame) (some (K, S1)) (some b') (by
        intro K' S' he
        injection he with he
        injection he with e1 e2
        subst e1 e2
        exact ⟨b', rfl, hb.trans k2, h1⟩)⟩

/-- **C102, what a later process finds.** As above; when the program has ended or was killed, of every block whose header file
is not damaged (`stored`) and whose attribute file is not damaged a later process can open and finds the rows and the attributes
that were stored — whatever failed, and whatever was going on in other blocks. -/
theorem C102_survives (env : Env) (bf : CStr) (N : CStr → Prop) (hfmt : FmtOk env) (hchunk : env.chunkBytes < 18446744073709551616)
    (hbf : bf ≠ []) (p : FileSession) (hs : OpenBlocks) (w : World) (D : DBlocks) (ht : TreeOk w.fs) (hns : NoSilent w.faults)
    (hN : Names bf N w.fs) (h : AllHold env bf N hs w.fs D) (hp : p.Safe env bf N D) :
    ∃ fs D', leftDisk (runFileSession env bf hs p w) = some fs ∧ FileLeaves env D p D' ∧
      ∀ name K S n k, D' name = some (K, S) → S.stored = some (n, k) → S.attrsKnown = true →
        ∀ c, ∃ b' w', blockOpen env (pathJoin bf name) ⟨fs, noFaults, c⟩ = .ok (0, some b') w' ∧ w'.fs = fs ∧ b'.basename = pathJoin bf name ∧ b'.dirty = false ∧
          HoldsD env K b' fs ⟨S.recovered n k, some (n, k), true, S.whole⟩ ∧
          (S.whole = true → Holds env K b' fs (S.recovered n k)) := by
  have fin : ∀ (hs' : OpenBlocks) (fs : FS) (D' : DBlocks), AllHold env bf N hs' fs D' →
      ∀ name K S n k, D' name = some (K, S) → S.stored = some (n, k) → S.attrsKnown = true →
        ∀ c, ∃ b' w', blockOpen env (pathJoin bf name) ⟨fs, noFaults, c⟩ = .ok (0, some b') w' ∧ w'.fs = fs ∧ b'.basename = pathJoin bf name ∧ b'.dirty = false ∧
          HoldsD env K b' fs ⟨S.recovered n k, some (n, k), true, S.whole⟩ ∧
          (S.whole = true → Holds env K b' fs (S.recovered n k)) := by
    intro hs' fs D' hh name K S n k hD h1 h2 c
    obtain ⟨_, b, _, g2, g3⟩ := hh name K S hD
    obtain ⟨b', w', e, k1, _, k3, k4, k5⟩ := C70_recover_partial env K b ⟨fs, noFaults, c⟩ S n k g3 rfl h1 h2
    rw [g2] at e
    rw [k1] at k5
    exact ⟨b', w', e, k1, k3.trans g2, k4, k5, fun hw => k5.holds rfl hw⟩
  have key := C102_session env bf N hfmt hchunk hbf p hs w D ht hns hN h hp
  unfold wpc at key
  split at key
  · rename_i hs' w' heq
    obtain ⟨D', h1, h2⟩ := key
    exact ⟨w'.fs, D', by rw [heq]; rfl, h1, fin hs' w'.fs D' h2⟩
  · rename_i w' heq
    obtain ⟨hs', D', h1, h2⟩ := key
    exact ⟨w'.fs, D', by rw [heq]; rfl, h1, fin hs' w'.fs D' h2⟩
  · exact key.elim
  · exact key.elim

/-- **C102, the other blocks.** What a program does to other blocks, what fails there and when it is killed makes no
difference to a block. -/
theorem C102_ignored (env : Env) (name : CStr) (p : FileSession) (D D' : DBlocks) (h : FileLeaves env D p D') (hp : p.Ignores name) :
    D' name = D name := by
  induction h with
  | stop D => rfl
  | made D D' n dt nm sizes k _ ih => exact (ih (hp.2 _)).trans (put_other _ _ fun e => hp.1 e.symm)
  | notMade D D' n dt nm sizes k _ ih => exact (ih (hp.2 _)).trans (put_other _ _ fun e => hp.1 e.symm)
  | killedMaking D n dt nm sizes k => exact put_other _ _ fun e => hp.1 e.symm
  | step D D' n op k K S S1 x _ _ _ ih => exact (ih (hp.2 _)).trans (put_other _ _ fun e => hp.1 e.symm)
  | killed D n op k K S S1 _ _ => exact put_other _ _ fun e => hp.1 e.symm

/-- **C102, a block that the program has open but does not use.** If it was stored it is stored afterwards: same rows, same
attributes — whatever the program does to other blocks, whatever fails there and wherever it is killed. -/
theorem C102_kept (env : Env) (bf : CStr) (N : CStr → Prop) (hfmt : FmtOk env) (hchunk : env.chunkBytes < 18446744073709551616)
    (hbf : bf ≠ []) (p : FileSession) (hs : OpenBlocks) (w : World) (D : DBlocks) (ht : TreeOk w.fs) (hns : NoSilent w.faults)
    (hN : Names bf N w.fs) (h : AllHold env bf N hs w.fs D) (hp : p.Safe env bf N D) (name : CStr) (hi : p.Ignores name) (K : Kind)
    (A : Content) (hD : D name = some (K, Durable.opened A)) (hpend : A.pending = false) (hsaved : A.saved = A.attrs) :
    ∃ fs, leftDisk (runFileSession env bf hs p w) = some fs ∧ OnDisk env K fs (pathJoin bf name) A := by
  obtain ⟨_, b0, _, _, g0⟩ := h name K _ hD
  obtain ⟨fs, D', h1, h2, h3⟩ := C102_survives env bf N hfmt hchunk hbf p hs w D ht hns hN h hp
  have hD' : D' name = some (K, Durable.opened A) := (C102_ignored env name p D D' h2 hi).trans hD
  obtain ⟨b, w', e, _, kb, k2, _, k4⟩ := h3 name K _ A.size A.nfile hD' rfl rfl 0
  have hA : (Durable.opened A).recovered A.size A.nfile = A := by
    have hr : (fun r => if r < A.size then A.rows r else none) = A.rows := by
      funext r
      by_cases hlt : r < A.size
      · exact if_pos hlt
      · rw [if_neg hlt]
        cases hrow : A.rows r with
        | none => rfl
        | some bytes => exact absurd (g0.rows r bytes hrow).1 hlt
    obtain ⟨sz, nf, rows, attrs, saved, pend⟩ := A
    dsimp only at hpend hsaved
    subst hpend hsaved
    unfold Durable.recovered Durable.opened
    simp only at hr ⊢
    rw [hr]
  rw [hA] at k4
  exact ⟨fs, h1, hpend, hsaved, b, kb, k2, k4 rfl⟩

/-- **C102, a file that was made new.** A program makes and uses any number of blocks with plain names in an empty directory. Any
file operation may fail and the process may be killed at any moment: it runs without undefined behaviour, and of every block
that is stored a later process can open and finds what was stored. -/
theorem C102_new_file (env : Env) (bf : CStr) (hfmt : FmtOk env) (hchunk : env.chunkBytes < 18446744073709551616) (hbf : bf ≠ [])
    (p : FileSession) (w : World) (ht : TreeOk w.fs) (he : EmptyDir w.fs bf) (hns : NoSilent w.faults)
    (hp : p.Safe env bf PlainBlockName fun _ => none) :
    ∃ fs D', leftDisk (runFileSession env bf (fun _ => none) p w) = some fs ∧ FileLeaves env (fun _ => none) p D' ∧
      ∀ name K S n k, D' name = some (K, S) → S.stored = some (n, k) → S.attrsKnown = true →
        ∀ c, ∃ b' w', blockOpen env (pathJoin bf name) ⟨fs, noFaults, c⟩ = .ok (0, some b') w' ∧ w'.fs = fs ∧ b'.basename = pathJoin bf name ∧ b'.dirty = false ∧
          HoldsD env K b' fs ⟨S.recovered n k, some (n, k), true, S.whole⟩ ∧
          (S.whole = true → Holds env K b' fs (S.recovered n k)) := by
  refine C102_survives env bf PlainBlockName hfmt hchunk hbf p _ w _ ht hns ⟨fun n n' h h' hne => plain_apart hbf h h' hne, ?_⟩ ?_ hp
  · intro n hn
    have hr := empty_room hbf ht he hn
    exact ⟨fun d hd => hr.way _ (List.prefix_rfl) ⟨d, hd⟩, hr.noOld, fun f => hr.files _⟩
  · intro n K S h
    cases h

/-! ### The example -/

/-- Make the blocks `a` and `b/c`; write to `b/c` and flush it, if both were made. -/
def exFileSession : FileSession :=
  .create b!"a" b!"i4" 1 [2, 0, 3] fun _ => .create b!"b/c" b!"i4" 1 [2, 0, 3] fun q =>
    if q = 0 then .use b!"b/c" (.write 1 exSrc exMem 8) fun _ => .use b!"b/c" .flush fun _ => .stop else .stop

theorem exFileSession_safe : exFileSession.Safe exEnv b!"d/e" PlainBlockName fun _ => none := by
  have ha := exPlainBlock [b!"a"] (Or.inl rfl)
  have hc := exPlainBlock [b!"b", b!"c"] (Or.inr rfl)
  have second : ∀ D : DBlocks, FileSession.Safe exEnv b!"d/e" PlainBlockName (.create b!"b/c" b!"i4" 1 [2, 0, 3] fun q =>
      if q = 0 then .use b!"b/c" (.write 1 exSrc exMem 8) fun _ => .use b!"b/c" .flush fun _ => .stop else .stop) D := by
    intro D
    refine ⟨hc, exBlkMakeable _ (Or.inr rfl), ?_, trivial⟩
    refine ⟨_, _, put_self _ _ _, ⟨by decide, exSrc_array, fun h => absurd h (by decide), fun _ => by decide +kernel⟩, fun x S1 _ => ?_⟩
    exact ⟨_, S1, put_self _ _ _, trivial, fun _ _ _ => trivial⟩
  exact ⟨ha, exBlkMakeable _ (Or.inl rfl), second _, second _⟩

/-- With any failures and kills (that are not silent). -/
example (faults : Nat → Fault) (hf : NoSilent faults) :
    ∃ fs D', leftDisk (runFileSession exEnv b!"d/e" (fun _ => none) exFileSession { exTreeWorld with faults := faults }) = some fs ∧
      FileLeaves exEnv (fun _ => none) exFileSession D' := by
  obtain ⟨fs, D', h1, h2, _⟩ := C102_new_file exEnv b!"d/e" exFmt (by decide) (by decide) exFileSession { exTreeWorld with faults := faults }
    exTree_ok exBlkTree_empty hf exFileSession_safe
  exact ⟨fs, D', h1, h2⟩

/-- Make `a` and `b/c`, write to `b/c` and flush it; the process is killed at the `n`-th file operation. The sizes of the files
that a later process finds in `a` and in `b/c`. -/
def exKilledAt (n : Nat) : Option (List Nat) × Option (List Nat) :=
  match leftDisk (runFileSession exEnv b!"d/e" (fun _ => none) exFileSession { exTreeWorld with faults := fun k => if k = n then .crash 0 else .none }) with
  | some fs =>
    let found (name : CStr) := match blockOpen exEnv (pathJoin b!"d/e" name) ⟨fs, noFaults, 0⟩ with
      | .ok (_, some b) _ => some b.fsize
      | _ => none
    (found b!"a", found b!"b/c")
  | none => (none, none)

/-- Killed while `b/c` is made, and while it is flushed: `b/c` is damaged, `a` is whole. Killed later: both are whole. -/
example : exKilledAt 10 = (some [2, 0, 3], none) ∧ exKilledAt 22 = (some [2, 0, 3], none) ∧ exKilledAt 40 = (some [2, 0, 3], some [2, 0, 3]) := by
  decide +kernel

end Verif
