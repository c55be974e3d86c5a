import Verif.Proof.BlocksSharedMay
import Verif.Props.BlocksMay
import Verif.Props.BlocksShared
import Verif.Props.SharedMay
/-!
# A file of several blocks, shared by several processes, with failures and kills (C104)
-/

set_option autoImplicit false

namespace Verif

open Spec

/-- The directory of a shared block. -/
theorem comm_base {env : Env} {K : Kind} {n : Nat} {bf m : CStr} {H : Nat → Block} {fs : FS} {S : Durable} (hb : (H 0).basename = mpiPath bf m)
    (h : HoldsAllD env K n H fs S) : ∃ b, b.basename = mpiPath bf m ∧ (0 : Byte) ∉ b.basename ∧ HoldsD env K b fs S := by
  obtain ⟨h0, _, b, h1, h2, _, _, h3⟩ := h
  exact ⟨b, (h3 0 h0).shape.base.symm.trans hb, h2, h1⟩

theorem commHold_files {env : Env} {n : Nat} {bf : CStr} {N : CStr → Prop} {hs : SharedHandles} {fs : FS} {D : DBlocks}
    (h : CommHold env n bf N hs fs D) : FilesHold env bf N fs D := by
  intro m K S hD
  obtain ⟨h1, H, _, h2, h3⟩ := h m K S hD
  exact ⟨h1, comm_base h2 h3⟩

/-- The other blocks, after an operation on one of them. -/
theorem commHold_put {env : Env} {n : Nat} {bf : CStr} {N : CStr → Prop} {hs : SharedHandles} {fs fs' : FS} {D : DBlocks} {name : CStr}
    (hbf : bf ≠ []) (h : CommHold env n bf N hs fs D) (hN : N name) (hap : ∀ n n', N n → N n' → n ≠ n' → Apart (pathJoin bf n) (pathJoin bf n'))
    (hm : OnlyMade (pathJoin bf name) fs fs') (s : Option (Kind × Durable)) (o : Option (Nat → Block))
    (hs' : ∀ K S, s = some (K, S) → ∃ H, o = some H ∧ (H 0).basename = mpiPath bf name ∧ HoldsAllD env K n H fs' S) :
    CommHold env n bf N (fun m => if m = name then o else hs m) fs' (D.put name s) := by
  intro m K S hD
  by_cases hmn : m = name
  · subst hmn
    rw [put_self] at hD
    obtain ⟨H, h1, h2, h3⟩ := hs' K S hD
    exact ⟨hN, H, (if_pos rfl).trans h1, h2, h3⟩
  · rw [put_other _ _ hmn] at hD
    obtain ⟨hNm, H, h1, h2, h0, h3, b, h4, h5, h6, h7, h8⟩ := h m K S hD
    have hr : resolve b.basename = resolve (pathJoin bf m) := by
      rw [← resolve_mpiPath bf m hbf, ← h2, (h8 0 h0).shape.base]
    have hsrc := hm.source (apart_source (hap m name hNm hN hmn) hr) h4.dir.dir
    exact ⟨hNm, H, (if_neg hmn).trans h1, h2, h0, h3, b, h4.congr hsrc.1 hsrc.2, h5, h6, h7, h8⟩

/-- The same for the files alone. -/
theorem filesHold_put {env : Env} {bf : CStr} {N : CStr → Prop} {fs fs' : FS} {D : DBlocks} {name : CStr}
    (hbf : bf ≠ []) (h : FilesHold env bf N fs D) (hN : N name) (hap : ∀ n n', N n → N n' → n ≠ n' → Apart (pathJoin bf n) (pathJoin bf n'))
    (hm : OnlyMade (pathJoin bf name) fs fs') (s : Option (Kind × Durable))
    (hs' : ∀ K S, s = some (K, S) → ∃ b, b.basename = mpiPath bf name ∧ (0 : Byte) ∉ b.basename ∧ HoldsD env K b fs' S) :
    FilesHold env bf N fs' (D.put name s) := by
  intro m K S hD
  by_cases hmn : m = name
  · subst hmn
    rw [put_self] at hD
    exact ⟨hN, hs' K S hD⟩
  · rw [put_other _ _ hmn] at hD
    obtain ⟨hNm, b, h1, h2, h3⟩ := h m K S hD
    have hr : resolve b.basename = resolve (pathJoin bf m) := by
      rw [h1, resolve_mpiPath bf m hbf]
    have hsrc := hm.source (apart_source (hap m name hNm hN hmn) hr) h3.dir.dir
    exact ⟨hNm, b, h1, h2, h3.congr hsrc.1 hsrc.2⟩

/-- **C104, from any state** (partial: the restrictions of `C89_session_partial`). `n` processes make blocks and use them
together. Whatever file operations of whatever process fail, in every interleaving, and wherever they are killed, no process
crashes or waits for ever, all get the same verdict of every operation, and what is left of each block is what the outcomes of
the operations on that block allow. -/
theorem C104_session_partial (env : Env) (n : Nat) (bf : CStr) (N : CStr → Prop) (hfmt : FmtOk env) (hchunk : env.chunkBytes < 18446744073709551616)
    (hn : 0 < n ∧ n < 2147483648) (hbf : bf ≠ []) (p : CommSession) : ∀ (hs : SharedHandles) (w : World) (D : DBlocks), NoSilent w.faults →
    Names bf N w.fs → CommHold env n bf N hs w.fs D → p.Safe env n bf N D →
    (runCommSession env n bf hs p).Withstands w (fun hs' w' => ∃ D', CommLeaves env n D p D' ∧ CommHold env n bf N hs' w'.fs D')
      (fun fs => ∃ D', CommLeaves env n D p D' ∧ FilesHold env bf N fs D') := by
  induction p with
  | stop => intro hs w D _ _ h _; exact ⟨D, .stop D, h⟩
  | create name dt nmemb sizes k ih =>
    intro hs w D hns hN h hp
    obtain ⟨hname, hm, hk⟩ := hp
    unfold runCommSession
    apply Phases.withstands_bind
    apply Phases.withstands_mono (commCreate_may hfmt hchunk hns hbf hn hm (hN.clear name hname))
    · rintro ⟨c, o⟩ w1 ⟨f1, hmade, hc, hres⟩
      dsimp only at hres ⊢
      have hN1 : Names bf N w1.fs := by
        refine ⟨hN.apart, fun m hm => ?_⟩
        by_cases hmn : m = name
        · subst hmn; exact hc
        · exact (hN.clear m hm).other hmade (hN.apart m name hm hname hmn)
      have hns1 : NoSilent w1.faults := by rw [f1]; exact hns
      rcases hres with ⟨hall, H, rfl, hb, hh⟩ | hnone
      · have h1 := commHold_put hbf h hname hN.apart hmade (some (sharedMade env.m dt nmemb sizes)) (some H) (by
          intro K S he
          injection he with he
          rw [he] at hh
          exact ⟨H, rfl, hb, hh⟩)
        apply Phases.withstands_mono (ih c _ w1 _ hns1 hN1 h1 ((hk c).1 hall))
        · rintro hs' w' ⟨D', g1, g2⟩; exact ⟨D', .made D D' name dt nmemb sizes k c hall g1, g2⟩
        · rintro fs ⟨D', g1, g2⟩; exact ⟨D', .made D D' name dt nmemb sizes k c hall g1, g2⟩
      · have h1 := commHold_put hbf h hname hN.apart hmade none o (fun _ _ h => by cases h)
        apply Phases.withstands_mono (ih c _ w1 _ hns1 hN1 h1 ((hk c).2 hnone))
        · rintro hs' w' ⟨D', g1, g2⟩; exact ⟨D', .notMade D D' name dt nmemb sizes k c hnone g1, g2⟩
        · rintro fs ⟨D', g1, g2⟩; exact ⟨D', .notMade D D' name dt nmemb sizes k c hnone g1, g2⟩
    · rintro fs ⟨hmade, _⟩
      exact ⟨_, .killedMaking D name dt nmemb sizes k,
        filesHold_put hbf (commHold_files h) hname hN.apart hmade none (fun _ _ h => by cases h)⟩
  | use name op k ih =>
    intro hs w D hns hN h hp
    obtain ⟨K, S, hD, hl, hk⟩ := hp
    obtain ⟨hname, H, k1, k2, k3⟩ := h name K S hD
    have hres := resolve_mpiPath bf name hbf
    unfold runCommSession
    simp only [k1]
    apply Phases.withstands_bind
    apply Phases.withstands_mono (mop_may k3 hns op hl)
    · rintro ⟨x, H1⟩ w1 ⟨hf, hb, hout, S1, ho, h1⟩
      dsimp only at hb ho h1 ⊢
      rw [k2] at hout hb
      have hmade := OnlyMade.of_outside (hout.renamed hres)
      have hN1 : Names bf N w1.fs := by
        refine ⟨hN.apart, fun m hm => ?_⟩
        by_cases hmn : m = name
        · subst hmn
          obtain ⟨b, g1, _, g2⟩ := comm_base hb h1
          exact g2.clear.renamed (by rw [g1, hres])
        · exact (hN.clear m hm).other hmade (hN.apart m name hm hname hmn)
      have h2 := commHold_put hbf h hname hN.apart hmade (some (K, S1)) (some H1) (by
        intro K' S' he
        injection he with he
        injection he with e1 e2
        subst e1 e2
        exact ⟨H1, rfl, hb, h1⟩)
      apply Phases.withstands_mono (ih x _ w1 _ (by rw [hf]; exact hns) hN1 h2 (hk x S1 ho))
      · rintro hs' w' ⟨D', g1, g2⟩; exact ⟨D', .step D D' name op k K S S1 x hD ho g1, g2⟩
      · rintro fs ⟨D', g1, g2⟩; exact ⟨D', .step D D' name op k K S S1 x hD ho g1, g2⟩
    · rintro fs ⟨hout, S1, b, hkl, hb, h1⟩
      rw [k2] at hout hb
      obtain ⟨b0, e0, z0, _⟩ := comm_base k2 k3
      exact ⟨_, .killed D name op k K S S1 hD hkl, filesHold_put hbf (commHold_files h) hname hN.apart (OnlyMade.of_outside (hout.renamed hres))
        (some (K, S1)) (by
          intro K' S' he
          injection he with he
          injection he with e1 e2
          subst e1 e2
          exact ⟨b, hb, by rw [hb, ← e0]; exact z0, h1⟩)⟩

theorem filesHold_found {env : Env} {n : Nat} {bf : CStr} {N : CStr → Prop} {fs : FS} {D D' : DBlocks} {p : CommSession}
    (hl : CommLeaves env n D p D') (h : FilesHold env bf N fs D') : BlocksFound env n bf D p fs := by
  refine ⟨D', hl, fun name K S m k hD h1 h2 c n' hn' => ?_⟩
  obtain ⟨_, b, g1, g2, g3⟩ := h name K S hD
  obtain ⟨H', w', e, k1, _, _, k4, k5⟩ := C89_recover_partial env K b ⟨fs, noFaults, c⟩ S m k g3 rfl g2 h1 h2 n' hn'
  rw [g1] at e
  rw [k1] at k4 k5
  exact ⟨H', w', e, k1, k4, k5⟩

/-- **C104, what later processes find** (partial, as above). When the program has ended or everything was killed, every block whose header file
and attribute file are not damaged can be opened by any number of processes, which find the rows and attributes that were stored —
whatever failed, and whatever was going on in other blocks. -/
theorem C104_survives_partial (env : Env) (n : Nat) (bf : CStr) (N : CStr → Prop) (hfmt : FmtOk env) (hchunk : env.chunkBytes < 18446744073709551616)
    (hn : 0 < n ∧ n < 2147483648) (hbf : bf ≠ []) (p : CommSession) (hs : SharedHandles) (w : World) (D : DBlocks) (hns : NoSilent w.faults)
    (hN : Names bf N w.fs) (h : CommHold env n bf N hs w.fs D) (hp : p.Safe env n bf N D) :
    (runCommSession env n bf hs p).Withstands w (fun _ w' => BlocksFound env n bf D p w'.fs) (BlocksFound env n bf D p) := by
  apply Phases.withstands_mono (C104_session_partial env n bf N hfmt hchunk hn hbf p hs w D hns hN h hp)
  · rintro hs' w' ⟨D', h1, h2⟩; exact filesHold_found h1 (commHold_files h2)
  · rintro fs ⟨D', h1, h2⟩; exact filesHold_found h1 h2

/-- **C104, the other blocks.** What the processes do to other blocks, what fails there and when they are killed makes no
difference to a block. -/
theorem C104_ignored (env : Env) (n : Nat) (name : CStr) (p : CommSession) (D D' : DBlocks) (h : CommLeaves env n D p D') (hp : p.Ignores name) :
    D' name = D name := by
  induction h with
  | stop D => rfl
  | made D D' m dt nm sizes k c _ _ ih => exact (ih (hp.2 _)).trans (put_other _ _ fun e => hp.1 e.symm)
  | notMade D D' m dt nm sizes k c _ _ ih => exact (ih (hp.2 _)).trans (put_other _ _ fun e => hp.1 e.symm)
  | killedMaking D m dt nm sizes k => exact put_other _ _ fun e => hp.1 e.symm
  | step D D' m op k K S S1 x _ _ _ ih => exact (ih (hp.2 _)).trans (put_other _ _ fun e => hp.1 e.symm)
  | killed D m op k K S S1 _ _ => exact put_other _ _ fun e => hp.1 e.symm

/-- **C104, a block that the processes have open but do not use** (partial, as above). If it was stored it is stored
afterwards: same rows, same attributes. -/
theorem C104_kept_partial (env : Env) (n : Nat) (bf : CStr) (N : CStr → Prop) (hfmt : FmtOk env) (hchunk : env.chunkBytes < 18446744073709551616)
    (hn : 0 < n ∧ n < 2147483648) (hbf : bf ≠ []) (p : CommSession) (hs : SharedHandles) (w : World) (D : DBlocks) (hns : NoSilent w.faults)
    (hN : Names bf N w.fs) (h : CommHold env n bf N hs w.fs D) (hp : p.Safe env n bf N D) (name : CStr) (hi : p.Ignores name) (K : Kind)
    (A : Content) (hD : D name = some (K, Durable.opened A)) (hpend : A.pending = false) (hsaved : A.saved = A.attrs) :
    (runCommSession env n bf hs p).Withstands w (fun _ w' => OnDisk env K w'.fs (mpiPath bf name) A)
      (fun fs => OnDisk env K fs (mpiPath bf name) A) := by
  have fin : ∀ (fs : FS) (D' : DBlocks), CommLeaves env n D p D' → FilesHold env bf N fs D' → OnDisk env K fs (mpiPath bf name) A := by
    intro fs D' h1 h2
    have hD' : D' name = some (K, Durable.opened A) := (C104_ignored env n name p D D' h1 hi).trans hD
    obtain ⟨_, b, g1, _, g2⟩ := h2 name K _ hD'
    have := onDisk_of_holdsD g2 rfl rfl rfl hpend
    rw [g1] at this
    have e : ({ A with attrs := A.saved } : Content) = A := congrArg (fun s => ({ A with attrs := s } : Content)) hsaved
    exact e ▸ this
  apply Phases.withstands_mono (C104_session_partial env n bf N hfmt hchunk hn hbf p hs w D hns hN h hp)
  · rintro hs' w' ⟨D', h1, h2⟩; exact fin _ D' h1 (commHold_files h2)
  · rintro fs ⟨D', h1, h2⟩; exact fin fs D' h1 h2

/-- **C104, a file that was made new** (partial, as above). The processes make and use any number of blocks with plain names in an
empty directory. -/
theorem C104_new_file_partial (env : Env) (n : Nat) (bf : CStr) (hfmt : FmtOk env) (hchunk : env.chunkBytes < 18446744073709551616)
    (hn : 0 < n ∧ n < 2147483648) (hbf : bf ≠ []) (p : CommSession) (w : World) (ht : TreeOk w.fs) (he : EmptyDir w.fs bf) (hns : NoSilent w.faults)
    (hp : p.Safe env n bf PlainBlockName fun _ => none) :
    (runCommSession env n bf (fun _ => none) p).Withstands w (fun _ w' => BlocksFound env n bf (fun _ => none) p w'.fs)
      (BlocksFound env n bf (fun _ => none) p) := by
  refine C104_survives_partial env n bf PlainBlockName hfmt hchunk hn hbf p _ w _ hns ⟨fun m m' h h' hne => plain_apart hbf h h' hne, ?_⟩ ?_ hp
  · intro m hm
    have hr := empty_room hbf ht he hm
    exact ⟨fun d hd => hr.way _ (List.prefix_rfl) ⟨d, hd⟩, hr.noOld, fun f => hr.files _⟩
  · intro m K S h
    cases h

/-! ### The example -/

/-- Three processes make `a` and `b/c`, write five rows to `a` if that was made, and flush it. -/
def exCommSession : CommSession :=
  .create b!"a" b!"i4" 1 [2, 0, 3] fun c => .create b!"b/c" b!"i4" 1 [2, 0, 3] fun _ =>
    if c 0 = 0 then .use b!"a" (.write 0 exArrs (fun _ => exMem) (fun _ => 8) 2 1) fun _ => .use b!"a" .flush fun _ => .stop else .stop

theorem exCommSession_safe : exCommSession.Safe exEnv 3 b!"d/e" PlainBlockName fun _ => none := by
  have hm : ∀ name, name = b!"a" ∨ name = b!"b/c" → MakeableAll exEnv b!"d/e" name b!"i4" 1 [2, 0, 3] := by
    rintro name (rfl | rfl) <;>
    exact ⟨by decide, by decide, by decide, by decide, exB_good.dt, by decide, by decide, by decide, by decide, by decide, by decide, by decide⟩
  have ha := exPlainBlock [b!"a"] (Or.inl rfl)
  have hc := exPlainBlock [b!"b", b!"c"] (Or.inr rfl)
  have leg : (sharedMade exEnv.m b!"i4" 1 [2, 0, 3]).2.legalAll exEnv (sharedMade exEnv.m b!"i4" 1 [2, 0, 3]).1 3
      (.write 0 exArrs (fun _ => exMem) (fun _ => 8) 2 1) := by
    refine ⟨by decide, by decide, by decide, ?_⟩
    intro r hr
    match r, hr with
    | 0, _ => exact ⟨⟨by decide, by decide, by decide, fun _ => exSrc_array⟩, fun h => absurd h (by decide), by decide +kernel⟩
    | 1, _ => exact ⟨⟨by decide, by decide, by decide, fun h => absurd h (by decide)⟩, fun h => absurd h (by decide), by decide⟩
    | 2, _ => exact ⟨⟨by decide, by decide, by decide, fun _ => exPair_array⟩, fun h => absurd h (by decide), by decide +kernel⟩
  have rest : ∀ D : DBlocks, D b!"a" = some (sharedMade exEnv.m b!"i4" 1 [2, 0, 3]) → CommSession.Safe exEnv 3 b!"d/e" PlainBlockName
      (.use b!"a" (.write 0 exArrs (fun _ => exMem) (fun _ => 8) 2 1) fun _ => .use b!"a" .flush fun _ => .stop) D :=
    fun D hD => ⟨_, _, hD, leg, fun x S1 _ => ⟨_, S1, put_self _ _ _, trivial, fun _ _ _ => trivial⟩⟩
  have hne : b!"a" ≠ b!"b/c" := by decide
  refine ⟨ha, hm _ (Or.inl rfl), fun c => ⟨fun h0 => ⟨hc, hm _ (Or.inr rfl), fun _ => ?_⟩, fun h0 => ⟨hc, hm _ (Or.inr rfl), fun _ => ?_⟩⟩⟩
  · rw [if_pos (h0 0 (by decide))]
    exact ⟨fun _ => rest _ ((put_other _ _ hne).trans (put_self _ _ _)), fun _ => rest _ ((put_other _ _ hne).trans (put_self _ _ _))⟩
  · obtain ⟨e, he, h0⟩ := h0
    rw [if_neg (by rw [h0 0 (by decide)]; exact he)]
    exact ⟨fun _ => trivial, fun _ => trivial⟩

/-- With any failures (that are not silent) and kills. -/
example (faults : Nat → Fault) (hf : NoSilent faults) :
    (runCommSession exEnv 3 b!"d/e" (fun _ => none) exCommSession).Withstands { exTreeWorld with faults := faults }
      (fun _ w' => BlocksFound exEnv 3 b!"d/e" (fun _ => none) exCommSession w'.fs) (BlocksFound exEnv 3 b!"d/e" (fun _ => none) exCommSession) :=
  C104_new_file_partial exEnv 3 b!"d/e" exFmt (by decide) (by decide) (by decide) exCommSession { exTreeWorld with faults := faults } exTree_ok
    exBlkTree_empty hf exCommSession_safe

end Verif
