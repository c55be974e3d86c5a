import Verif.Spec.FileLife
import Verif.Proof.Gentle
import Verif.Props.BlocksWent
import Verif.Props.Life
/-!
# C107: the life of a file of many blocks through sessions that fail and are killed
-/

set_option autoImplicit false

namespace Verif

open Verif.Spec

/-! ## One process, which has only some of the blocks open -/

/-- The files of all blocks are in the state `D`, and so are the handles of those that are open. -/
def PartHold (env : Env) (bf : CStr) (N : CStr → Prop) (O : CStr → Bool) (hs : OpenBlocks) (fs : FS) (D : DBlocks) : Prop :=
  ∀ n K S, D n = some (K, S) → N n ∧ ∃ b, (O n = true → hs n = some b) ∧ b.basename = pathJoin bf n ∧ HoldsD env K b fs S

theorem partHold_put {env : Env} {bf : CStr} {N : CStr → Prop} {O : CStr → Bool} {hs : OpenBlocks} {fs fs' : FS} {D : DBlocks} {name : CStr}
    (h : PartHold env bf N O hs fs D) (hN : N name) (hap : ∀ n n', N n → N n' → n ≠ n' → Apart (pathJoin bf n) (pathJoin bf n'))
    (hm : OnlyMade (pathJoin bf name) fs fs') (s : Option (Kind × Durable)) (b : Option Block) (O' : CStr → Bool) (hO : ∀ n, n ≠ name → O' n = O n)
    (hs' : ∀ K S, s = some (K, S) → ∃ b', b = some b' ∧ b'.basename = pathJoin bf name ∧ HoldsD env K b' fs' S) :
    PartHold env bf N O' (fun n => if n = name then b else hs n) fs' (D.put name s) := by
  intro n K S hD
  by_cases hn : n = name
  · subst hn
    rw [put_self] at hD
    obtain ⟨b', h1, h2, h3⟩ := hs' K S hD
    exact ⟨hN, b', fun _ => (if_pos rfl).trans h1, h2, h3⟩
  · rw [put_other _ _ hn] at hD
    obtain ⟨hNn, b', h1, h2, h3⟩ := h n K S hD
    have ha := hap n name hNn hN hn
    rw [← h2] at ha
    have hsrc := hm.source ha h3.dir.dir
    exact ⟨hNn, b', fun ho => (if_neg hn).trans (h1 (by rw [← hO n hn]; exact ho)), h2, h3.congr hsrc.1 hsrc.2⟩

theorem only_put_open (D : DBlocks) (O O' : CStr → Bool) (name : CStr) (s : Option (Kind × Durable)) (hO : ∀ n, n ≠ name → O' n = O n)
    (ho : O' name = true ∨ s = none) : (D.put name s).only O' = (D.only O).put name s := by
  funext n
  by_cases hn : n = name
  · subst hn
    unfold DBlocks.only
    rw [put_self, put_self]
    rcases ho with ho | ho
    · rw [if_pos ho]
    · rw [ho]
      split <;> rfl
  · unfold DBlocks.only
    rw [put_other _ _ hn, put_other _ _ hn, hO n hn]

/-- A process that has only the blocks `O` open, with the files of all blocks. -/
theorem file_visit (env : Env) (bf : CStr) (N : CStr → Prop) (hfmt : FmtOk env) (hchunk : env.chunkBytes < 18446744073709551616)
    (hbf : bf ≠ []) (p : FileSession) : ∀ (O : CStr → Bool) (hs : OpenBlocks) (w : World) (D : DBlocks), TreeOk w.fs → NoSilent w.faults →
    Names bf N w.fs → PartHold env bf N O hs w.fs D → p.Safe env bf N (D.only O) →
    wpc (runFileNoted env bf hs p) w
      (fun r w' => ∃ D' O', FileWent env D p r.1 D' ∧ PartHold env bf N O' r.2 w'.fs D' ∧ TreeOk w'.fs ∧ Names bf N w'.fs)
      (fun w' => ∃ D' O' hs', FileLeaves env D p D' ∧ PartHold env bf N O' hs' w'.fs D' ∧ TreeOk w'.fs ∧ Names bf N w'.fs) := by
  induction p with
  | stop => intro O hs w D ht _ hN h _; exact ⟨D, O, .stop D, h, ht, hN⟩
  | create name dt nmemb sizes k ih =>
    intro O hs w D ht hns hN h hp
    obtain ⟨hname, hm, hp0, hp1⟩ := hp
    unfold runFileNoted
    rw [wpc_bind]
    have hcl := hN.clear name hname
    have c1 := wpc_run (createBlock_may (env := env) (dt := dt) (nmemb := nmemb) (fsize := sizes) ht hbf hm.length hm.notMeta)
    refine wpc_mono (wpc_wlp (wpc_wlp c1 (createBlock_gentle env bf name (some dt) nmemb sizes hm.length w hcl))
      (createBlock_keeps env bf name (some dt) nmemb sizes w ht)) ?_ ?_
    · rintro ⟨rc, b⟩ w1 ⟨⟨⟨⟨f1, hmade, hrc⟩, e⟩, hc⟩, hl⟩
      have hN1 : Names bf N w1.fs := by
        refine ⟨hN.apart, fun n hn => ?_⟩
        by_cases hnn : n = name
        · subst hnn; exact hc
        · exact (hN.clear n hn).other hmade (hN.apart n name hn hname hnn)
      have hns1 : NoSilent w1.faults := by rw [f1]; exact hns
      rw [wpc_bind]
      rcases hrc with hrc | hrc
      · injection hrc with r1 r2
        subst r1 r2
        have h1 := partHold_put h hname hN.apart hmade none none O (fun _ _ => rfl) (fun _ _ h => by cases h)
        rw [← only_put_open D O O name none (fun _ _ => rfl) (Or.inr rfl)] at hp1
        refine wpc_mono (ih (-1) O _ w1 _ hl.1 hns1 hN1 h1 hp1) ?_ ?_
        · rintro ⟨xs, hs'⟩ w' ⟨D', O', g1, g2⟩; exact ⟨D', O', .notMade D D' name dt nmemb sizes k xs g1, g2⟩
        · rintro w' ⟨D', O', hs', g1, g2⟩; exact ⟨D', O', hs', .notMade D D' name dt nmemb sizes k g1, g2⟩
      · injection hrc with r1 r2
        subst r1 r2
        have hi := hm.item
        have hit : itemsize env.m (dtypeNormalize env.m dt) = ((itemsize env.m (dtypeNormalize env.m dt)).toNat : Int) := by omega
        obtain ⟨k1, _⟩ := fresh_holds_may hfmt hns hm.length hm.notMeta hm.dtype hit (by omega) rfl hm.memb hm.rowBytes hm.buffer hchunk hm.nfile
          hm.size hm.bytes e hcl.way hcl.noOld hcl.data
        have hO : ∀ n, n ≠ name → (fun n => if n = name then true else O n) n = O n := fun n hn => if_neg hn
        have h1 := partHold_put h hname hN.apart hmade (some (madeBlock env.m dt nmemb sizes))
          (some (freshBlock env (pathJoin bf name) dt nmemb sizes)) (fun n => if n = name then true else O n) hO (by
            intro K S he
            injection he with he
            injection he with h1 h2
            subst h1 h2
            exact ⟨_, rfl, rfl, opened_holdsD k1 rfl rfl⟩)
        rw [← only_put_open D O _ name _ hO (Or.inl (if_pos rfl))] at hp0
        refine wpc_mono (ih 0 _ _ w1 _ hl.1 hns1 hN1 h1 hp0) ?_ ?_
        · rintro ⟨xs, hs'⟩ w' ⟨D', O', g1, g2⟩; exact ⟨D', O', .made D D' name dt nmemb sizes k xs g1, g2⟩
        · rintro w' ⟨D', O', hs', g1, g2⟩; exact ⟨D', O', hs', .made D D' name dt nmemb sizes k g1, g2⟩
    · rintro w1 ⟨⟨hmade, hc⟩, hl⟩
      refine ⟨_, O, _, .killedMaking D name dt nmemb sizes k, partHold_put h hname hN.apart hmade none none O (fun _ _ => rfl) (fun _ _ h => by cases h), hl.1,
        hN.apart, fun n hn => ?_⟩
      by_cases hnn : n = name
      · subst hnn; exact hc
      · exact (hN.clear n hn).other hmade (hN.apart n name hn hname hnn)
  | use name op k ih =>
    intro O hs w D ht hns hN h hp
    obtain ⟨K, S, hD, hl, hk⟩ := hp
    have hO : O name = true ∧ D name = some (K, S) := by
      unfold DBlocks.only at hD
      split at hD
      · rename_i ho; exact ⟨ho, hD⟩
      · cases hD
    obtain ⟨hname, b, k1, k2, k3⟩ := h name K S hO.2
    have k1 := k1 hO.1
    unfold runFileNoted
    simp only [k1]
    rw [wpc_bind]
    have hout := runBOp_touches env b op w
    have names : ∀ {fs : FS} {b' : Block} {S1 : Durable}, SameOutside (pathJoin bf name) w.fs fs → b'.basename = pathJoin bf name → HoldsD env K b' fs S1 →
        Names bf N fs := by
      intro fs b' S1 hsame hb h1
      refine ⟨hN.apart, fun n hn => ?_⟩
      by_cases hnn : n = name
      · subst hnn
        have := h1.clear
        rw [hb] at this
        exact this
      · exact (hN.clear n hn).other (OnlyMade.of_outside hsame) (hN.apart n name hn hname hnn)
    refine wpc_mono (wpc_wlp (wpc_wlp (bop_may k3 hns op hl) (runBOp_keeps env b op w ht)) hout) ?_ ?_
    · rintro ⟨x, b'⟩ w1 ⟨⟨⟨hb, f1, S1, ho, h1⟩, hlater⟩, hsame⟩
      dsimp only at hb ho h1
      rw [k2] at hsame
      have hmade := OnlyMade.of_outside hsame
      have h2 := partHold_put h hname hN.apart hmade (some (K, S1)) (some b') O (fun _ _ => rfl) (by
        intro K' S' he
        injection he with he
        injection he with e1 e2
        subst e1 e2
        exact ⟨b', rfl, hb.trans k2, h1⟩)
      have hk1 := hk x S1 ho
      rw [← only_put_open D O O name _ (fun _ _ => rfl) (Or.inl hO.1)] at hk1
      rw [wpc_bind]
      refine wpc_mono (ih x O _ w1 _ hlater.1 (by rw [f1]; exact hns) (names hsame (hb.trans k2) h1) h2 hk1) ?_ ?_
      · rintro ⟨xs, hs'⟩ w' ⟨D', O', g1, g2⟩; exact ⟨D', O', .step D D' name op k K S S1 x xs hO.2 ho g1, g2⟩
      · rintro w' ⟨D', O', hs', g1, g2⟩; exact ⟨D', O', hs', .step D D' name op k K S S1 x hO.2 ho g1, g2⟩
    · rintro w1 ⟨⟨⟨S1, b', hkl, hb, h1⟩, hlater⟩, hsame⟩
      rw [k2] at hsame
      exact ⟨_, O, _, .killed D name op k K S S1 hO.2 hkl, partHold_put h hname hN.apart (OnlyMade.of_outside hsame) (some (K, S1)) (some b') O (fun _ _ => rfl) (by
        intro K' S' he
        injection he with he
        injection he with e1 e2
        subst e1 e2
        exact ⟨b', rfl, hb.trans k2, h1⟩), hlater.1, names hsame (hb.trans k2) h1⟩

/-! ## One visit -/

theorem again_reopened {S : Durable} {m k : Nat} (h : S.stored = some (m, k)) : S.again = S.reopened m k := by
  unfold Durable.again
  rw [h]

theorem reopen_some {D : DBlocks} {opens : CStr → Bool} {n : CStr} {K : Kind} {S : Durable} (h : D n = some (K, S)) :
    D.reopen opens n = some (K, if opens n then S.again else S) := by
  unfold DBlocks.reopen
  rw [h]
  rfl

/-- **C107, the blocks can be opened** (partial, as below). -/
theorem C107_opens_partial (env : Env) (bf : CStr) (N : CStr → Prop) (fs : FS) (D : DBlocks) (h : FileAtRest env bf N fs D)
    (name : CStr) (K : Kind) (S : Durable) (hD : D name = some (K, S)) (hi : S.Intact) (c : Nat) :
    ∃ b w', openBlock env bf name ⟨fs, noFaults, c⟩ = .ok (0, some b) w' ∧ w'.fs = fs ∧ b.basename = pathJoin bf name ∧
      HoldsD env K b fs S.again := by
  obtain ⟨hst, hk⟩ := hi
  obtain ⟨⟨m, k⟩, hst⟩ := Option.isSome_iff_exists.1 hst
  rw [again_reopened hst]
  obtain ⟨_, bb, hb, hh⟩ := h.blocks name K S hD
  obtain ⟨b, w', e, g1, _, g3, _, g5⟩ := C70_recover_partial env K bb ⟨fs, noFaults, c⟩ S m k hh rfl hst hk
  rw [g1] at g5
  rw [hb] at e g3
  exact ⟨b, w', e, g1, g3, g5⟩

/-- **C107, one visit** (partial, as below). -/
theorem C107_visit_partial (env : Env) (bf : CStr) (N : CStr → Prop) (hfmt : FmtOk env) (hchunk : env.chunkBytes < 18446744073709551616)
    (hbf : bf ≠ []) (fs fs' : FS) (D : DBlocks) (h : FileAtRest env bf N fs D)
    (opens : CStr → Bool) (p : FileSession) (e : FileEnd) (ho : ∀ n, opens n = true → ∃ K S, D n = some (K, S) ∧ S.Intact)
    (hp : p.Safe env bf N ((D.reopen opens).only opens)) (hv : FileVisitLeft env bf fs opens p e fs') :
    ∃ D', FileLeads env (D.reopen opens) D' p e ∧ FileAtRest env bf N fs' D' := by
  obtain ⟨hs, faults, clock, hclosed, hopen, hns, hend⟩ := hv
  have hold : PartHold env bf N opens hs fs (D.reopen opens) := by
    intro n K S hn
    unfold DBlocks.reopen at hn
    cases hDn : D n with
    | none => rw [hDn] at hn; cases hn
    | some KS =>
      obtain ⟨K0, S0⟩ := KS
      rw [hDn] at hn
      injection hn with hn
      injection hn with e1 e2
      subst e1 e2
      obtain ⟨hNn, hrest⟩ := h.blocks n K0 S0 hDn
      refine ⟨hNn, ?_⟩
      cases hon : opens n with
      | false =>
        obtain ⟨b, g1, g2⟩ := hrest
        exact ⟨b, fun hc => (by cases hc), g1, by simpa using g2⟩
      | true =>
        obtain ⟨K1, S1, q1, q2⟩ := ho n hon
        rw [hDn] at q1
        injection q1 with q1
        injection q1 with e1 e2
        subst e1 e2
        obtain ⟨c, b, w', q3, q4⟩ := hopen n hon
        obtain ⟨b1, w1, q5, _, q6, q7⟩ := C107_opens_partial env bf N fs D h n K0 S0 hDn q2 c
        rw [q3] at q5
        injection q5 with q5 _
        injection q5 with _ q5
        injection q5 with q5
        subst q5
        exact ⟨b, fun _ => q4, q6, by simpa using q7⟩
  have key := file_visit env bf N hfmt hchunk hbf p opens hs ⟨fs, faults, clock⟩ _ h.tree hns h.names hold hp
  have fin : ∀ {fs' : FS} {D' : DBlocks} {O' : CStr → Bool} {hs' : OpenBlocks}, PartHold env bf N O' hs' fs' D' → TreeOk fs' → Names bf N fs' →
      FileAtRest env bf N fs' D' := by
    intro fs' D' O' hs' g1 g2 g3
    refine ⟨g2, g3, fun n K S hn => ?_⟩
    obtain ⟨q1, b, _, q2, q3⟩ := g1 n K S hn
    exact ⟨q1, b, q2, q3⟩
  rcases hend with ⟨xs, hs', w', rfl, hr, rfl⟩ | ⟨w', rfl, hr, rfl⟩
  · obtain ⟨D', O', g1, g2, g3, g4⟩ := wpc_ok key hr
    exact ⟨D', g1, fin g2 g3 g4⟩
  · unfold wpc at key
    rw [hr] at key
    obtain ⟨D', O', hs', g1, g2, g3, g4⟩ := key
    exact ⟨D', g1, fin g2 g3 g4⟩

/-! ## Any number of visits -/

/-- **C107** (partial: nothing fails while blocks are opened, file operations do not fail silently, one process at a time). Blocks
in a file; one process after another opens some of them, makes more and uses them while any file operation may fail, and comes
to its end or is killed at any moment, any number of times; what the next one does may depend on how the earlier ones ended. Then the
files of all blocks are in a state to which the operations on each block, with the answers they gave, may lead. -/
theorem C107_life_partial (env : Env) (bf : CStr) (N : CStr → Prop) (hfmt : FmtOk env) (hchunk : env.chunkBytes < 18446744073709551616)
    (hbf : bf ≠ []) (L : FileLife) (es : List FileEnd) (fs fs' : FS)
    (hd : FileDiskLife env bf fs L es fs') :
    ∀ (D : DBlocks), FileAtRest env bf N fs D → L.Safe env bf N D → ∃ D', FileLifeLeads env D L es D' ∧ FileAtRest env bf N fs' D' := by
  induction hd with
  | rest fs => intro D h _; exact ⟨D, .rest D, h⟩
  | visit fs fs1 fs' opens p next e es hv _ ih =>
    intro D h hs
    obtain ⟨s1, s2, s3⟩ := hs
    obtain ⟨D1, g1, g2⟩ := C107_visit_partial env bf N hfmt hchunk hbf fs fs1 D h opens p e s1 s2 hv
    obtain ⟨D', g3, g4⟩ := ih D1 g2 (s3 e D1 g1)
    exact ⟨D', .visit D D1 D' opens p next e es s1 g1 g3, g4⟩

/-! ## Consequences for a user -/

theorem Spec.FileWent.leaves {env : Env} {D D' : DBlocks} {p : FileSession} {xs : List FileAns} (h : FileWent env D p xs D') :
    FileLeaves env D p D' := by
  induction h with
  | stop D => exact .stop D
  | made D D' name dt nmemb sizes k xs _ ih => exact .made D D' name dt nmemb sizes k ih
  | notMade D D' name dt nmemb sizes k xs _ ih => exact .notMade D D' name dt nmemb sizes k ih
  | step D D' name op k K S S1 x xs hD ho _ ih => exact .step D D' name op k K S S1 x hD ho ih

theorem Spec.FileLeads.leaves {env : Env} {D D' : DBlocks} {p : FileSession} {e : FileEnd} (h : FileLeads env D D' p e) : FileLeaves env D p D' := by
  cases e with
  | killed => exact h
  | ended xs => exact FileWent.leaves h

/-- What a program may leave of one block, if it does only operations `P` to it. -/
theorem leaves_one {env : Env} {name : CStr} {K : Kind} {P : BOp → Prop} {R : Durable → Durable → Prop} (hr : ∀ S, R S S)
    (ht : ∀ S S1 S2, R S S1 → R S1 S2 → R S S2)
    (hstep : ∀ S S1 op, P op → Leaves env K S (.call op fun _ => .stop) S1 → R S S1) {D D' : DBlocks} {p : FileSession}
    (h : FileLeaves env D p D') : p.OnlyDoes name P → ∀ S, D name = some (K, S) → ∃ S', D' name = some (K, S') ∧ R S S' := by
  induction h with
  | stop D => intro _ S hS; exact ⟨S, hS, hr S⟩
  | made D D' n dt nm sizes k _ ih =>
    intro hp S hS
    exact ih (hp.2 _) S (by rw [put_other _ _ fun e => hp.1 e.symm]; exact hS)
  | notMade D D' n dt nm sizes k _ ih =>
    intro hp S hS
    exact ih (hp.2 _) S (by rw [put_other _ _ fun e => hp.1 e.symm]; exact hS)
  | killedMaking D n dt nm sizes k =>
    intro hp S hS
    exact ⟨S, by rw [put_other _ _ fun e => hp.1 e.symm]; exact hS, hr S⟩
  | step D D' n op k K1 S0 S1 x hD ho _ ih =>
    intro hp S hS
    by_cases hn : n = name
    · subst hn
      rw [hD] at hS
      injection hS with hS
      injection hS with e1 e2
      subst e1 e2
      obtain ⟨S', g1, g2⟩ := ih (hp.2 _) S1 (put_self _ _ _)
      exact ⟨S', g1, ht _ _ _ (hstep _ _ op (hp.1 rfl) (.step _ _ _ op x _ ho (.stop _))) g2⟩
    · exact ih (hp.2 _) S (by rw [put_other _ _ fun e => hn e.symm]; exact hS)
  | killed D n op k K1 S0 S1 hD hkl =>
    intro hp S hS
    by_cases hn : n = name
    · subst hn
      rw [hD] at hS
      injection hS with hS
      injection hS with e1 e2
      subst e1 e2
      exact ⟨S1, put_self _ _ _, hstep _ _ op (hp.1 rfl) (.killed _ _ op _ hkl)⟩
    · exact ⟨S, by rw [put_other _ _ fun e => hn e.symm]; exact hS, hr S⟩

theorem RowIn.again {q : Nat} {S : Durable} (h : RowIn q S) : RowIn q S.again ∧ S.again.now.rows q = S.now.rows q := by
  unfold Durable.again
  split
  · rename_i m k hst
    have hm := h.2 m k hst
    refine ⟨⟨hm, fun m' k' e => ?_⟩, if_pos hm⟩
    injection e with e
    injection e with e _
    rw [← e]
    exact hm
  · exact ⟨h, rfl⟩

/-- **C107, rows stay.** A row that is stored and that no process writes keeps its content, and remains within what is recorded,
whatever happens to other rows and other blocks, whatever fails and whenever processes are killed. -/
theorem C107_row_stays (env : Env) (name : CStr) (K : Kind) (q : Nat) (L : FileLife) (es : List FileEnd) (D D' : DBlocks)
    (h : FileLifeLeads env D L es D') : L.OnlyDoes name (SparesRow K q) → ∀ S, D name = some (K, S) → RowIn q S →
    ∃ S', D' name = some (K, S') ∧ RowIn q S' ∧ S'.now.rows q = S.now.rows q := by
  induction h with
  | rest D => intro _ S hS hq; exact ⟨S, hS, hq, rfl⟩
  | visit D D1 D' opens p next e es ho hl _ ih =>
    intro hL S hS hq
    have h0 := reopen_some (opens := opens) hS
    have hq0 : RowIn q (if opens name then S.again else S) ∧ (if opens name then S.again else S).now.rows q = S.now.rows q := by
      split
      · exact RowIn.again hq
      · exact ⟨hq, rfl⟩
    obtain ⟨S1, g1, g2⟩ := leaves_one (R := fun S S' => RowIn q S → RowIn q S' ∧ S'.now.rows q = S.now.rows q) (fun S hS => ⟨hS, rfl⟩)
      (fun S S1 S2 h1 h2 hS => ⟨(h2 (h1 hS).1).1, (h2 (h1 hS).1).2.trans (h1 hS).2⟩)
      (by
        intro S S1 op hop hlv hS
        refine ⟨RowIn.leaves hS hlv, C70_untouched env K q S S1 _ hlv ⟨?_, fun _ => trivial⟩⟩
        cases op <;> exact hop) (FileLeads.leaves hl) hL.1 _ h0
    obtain ⟨g3, g4⟩ := g2 hq0.1
    obtain ⟨S', k1, k2, k3⟩ := ih (hL.2 e) S1 g1 g3
    exact ⟨S', k1, k2, k3.trans (g4.trans hq0.2)⟩

theorem again_again (S : Durable) : S.again.again = S.again := by
  unfold Durable.again
  cases hst : S.stored with
  | none => simp only [hst]
  | some mk =>
    obtain ⟨m, k⟩ := mk
    simp only [Durable.reopened, Durable.recovered]
    congr 2
    funext r
    split <;> rfl

theorem Spec.Durable.Intact.again {S : Durable} (h : S.Intact) : S.again.Intact := by
  obtain ⟨⟨m, k⟩, hst⟩ := Option.isSome_iff_exists.1 h.1
  rw [again_reopened hst]
  exact ⟨rfl, rfl⟩

/-- **C107, a block that is left alone.** A stored block that no process uses or makes (they may open it) is the same afterwards: same
size, same rows, same attributes. -/
theorem C107_ignored (env : Env) (name : CStr) (L : FileLife) (es : List FileEnd) (D D' : DBlocks)
    (h : FileLifeLeads env D L es D') : L.OnlyDoes name (fun _ => False) → ∀ K S, D name = some (K, S) → S.Intact →
    ∃ S', D' name = some (K, S') ∧ S'.Intact ∧ S'.again = S.again := by
  induction h with
  | rest D => intro _ K S hS hi; exact ⟨S, hS, hi, rfl⟩
  | visit D D1 D' opens p next e es ho hl _ ih =>
    intro hL K S hS hi
    have h0 := reopen_some (opens := opens) hS
    have hq0 : (if opens name then S.again else S).Intact ∧ (if opens name then S.again else S).again = S.again := by
      split
      · exact ⟨hi.again, again_again S⟩
      · exact ⟨hi, rfl⟩
    obtain ⟨S1, g1, g2⟩ := leaves_one (R := fun S S' => S' = S) (fun S => rfl) (fun S S1 S2 h1 h2 => h2.trans h1)
      (fun S S1 op hop _ => hop.elim) (FileLeads.leaves hl) hL.1 _ h0
    subst g2
    obtain ⟨S', k1, k2, k3⟩ := ih (hL.2 e) K _ g1 hq0.1
    exact ⟨S', k1, k2, k3.trans hq0.2⟩

theorem fileAsIf_intact {env : Env} (name : CStr) (p : FileSession) : ∀ {xs : List FileAns} {D D' : DBlocks}, p.AsIf env xs D D' →
    (∃ K S, D name = some (K, S) ∧ S.Intact) → ∃ K S, D' name = some (K, S) ∧ S.Intact := by
  induction p with
  | stop =>
    intro xs D D' h hi
    match xs, h with
    | [], h => have h : D' = D := h; rw [h]; exact hi
  | create n dt nmemb sizes k ih =>
    intro xs D D' h hi
    match xs, h with
    | .made rc :: xs, h =>
      refine ih rc h.2 ?_
      by_cases hn : name = n
      · subst hn
        exact ⟨_, _, put_self _ _ _, rfl, rfl⟩
      · rw [put_other _ _ hn]
        exact hi
  | use n op k ih =>
    intro xs D D' h hi
    match xs, h with
    | .used x :: xs, ⟨K, S, hD, _, h⟩ =>
      refine ih x h ?_
      by_cases hn : name = n
      · subst hn
        obtain ⟨K', S', q1, q2⟩ := hi
        rw [hD] at q1
        injection q1 with q1
        injection q1 with e1 e2
        subst e1 e2
        refine ⟨_, _, put_self _ _ _, ?_⟩
        cases op with
        | flush =>
          refine ⟨rfl, ?_⟩
          simp only [Durable.next, Durable.flushed]
          rw [q2.2]
          rfl
        | write | read | grow | attr | reopen => exact q2
      · rw [put_other _ _ hn]
        exact hi

/-- **C107, what cannot do damage.** A block that can be opened can be opened afterwards if every process either does not make or
flush this block (it may then fail and be killed as it likes, also while it makes or flushes other blocks), or came to its end
without an error code. -/
theorem C107_intact (env : Env) (name : CStr) (L : FileLife) (es : List FileEnd) (D D' : DBlocks)
    (h : FileLifeLeads env D L es D') : L.SoundFor name es → (∃ K S, D name = some (K, S) ∧ S.Intact) →
    ∃ K S, D' name = some (K, S) ∧ S.Intact := by
  induction h with
  | rest D => intro _ hi; exact hi
  | visit D D1 D' opens p next e es ho hl _ ih =>
    intro hL hi
    obtain ⟨K, S, hS, hi⟩ := hi
    have h0 := reopen_some (opens := opens) hS
    have hi0 : (if opens name then S.again else S).Intact := by
      split
      · exact hi.again
      · exact hi
    refine ih hL.2 ?_
    rcases hL.1 with hnf | ⟨xs, rfl, hne⟩
    · obtain ⟨S1, g1, g2⟩ := leaves_one (R := fun S S' => S.Intact → S'.Intact) (fun S h => h) (fun S S1 S2 h1 h2 h => h2 (h1 h))
        (by
          intro S S1 op hop hlv hS
          obtain ⟨u1, u2, _⟩ := C70_unflushed env K S S1 _ hlv ⟨by cases op <;> exact hop, fun _ => trivial⟩
          exact ⟨by rw [u1]; exact hS.1, by rw [u2]; exact hS.2⟩) (FileLeads.leaves hl) hnf _ h0
      exact ⟨K, S1, g1, g2 hi0⟩
    · exact fileAsIf_intact name p (C102_no_false_success env _ D1 p xs hl hne) ⟨_, _, h0, hi0⟩

/-- **C107, a user's data** (partial, as above). A block of the file holds `A`. One process after another works on the file, any number of
times; each of them either does not make or flush this block (and may be killed at any moment), or comes to its end without an error
code. Then the block can be opened, and every row that was there at the beginning and that none of them wrote is found as it was
(if none of them made the block anew). -/
theorem C107_kept_partial (env : Env) (bf : CStr) (N : CStr → Prop) (hfmt : FmtOk env) (hchunk : env.chunkBytes < 18446744073709551616)
    (hbf : bf ≠ []) (L : FileLife) (es : List FileEnd) (fs fs' : FS)
    (hd : FileDiskLife env bf fs L es fs') (D : DBlocks) (h : FileAtRest env bf N fs D) (hs : L.Safe env bf N D)
    (name : CStr) (K : Kind) (A : Content) (hD : D name = some (K, Durable.opened A)) (hv : L.SoundFor name es) (c : Nat) :
    ∃ b w', openBlock env bf name ⟨fs', noFaults, c⟩ = .ok (0, some b) w' ∧
      ∀ q bytes, A.rows q = some bytes → L.OnlyDoes name (SparesRow K q) → q < b.size ∧ row env.m fs' b q = bytes := by
  obtain ⟨D', g1, g2⟩ := C107_life_partial env bf N hfmt hchunk hbf L es fs fs' hd D h hs
  obtain ⟨K', S', g3, g4⟩ := C107_intact env name L es D D' g1 hv ⟨K, _, hD, rfl, rfl⟩
  obtain ⟨b, w', e, _, _, g5⟩ := C107_opens_partial env bf N fs' D' g2 name K' S' g3 g4 c
  refine ⟨b, w', e, fun q bytes hr hsp => ?_⟩
  obtain ⟨_, b0, _, hb0⟩ := h.blocks name K _ hD
  have hlt := (hb0.rows q bytes hr).1
  have hin : RowIn q (Durable.opened A) := by
    refine ⟨hlt, fun m' k' e => ?_⟩
    injection e with e
    injection e with e _
    rw [← e]
    exact hlt
  obtain ⟨S2, k1, k2, k3⟩ := C107_row_stays env name K q L es D D' g1 hsp _ hD hin
  rw [g3] at k1
  injection k1 with k1
  injection k1 with e1 e2
  subst e1 e2
  have ha := RowIn.again k2
  refine ⟨by rw [g5.size]; exact ha.1.1, (g5.rows q bytes ?_).2.1⟩
  rw [ha.2, k3]
  exact hr

/-- **C107, visits happen** (partial, as above): there is an execution of every visit, and it leaves a disk behind. -/
theorem C107_happens_partial (env : Env) (bf : CStr) (N : CStr → Prop) (hfmt : FmtOk env) (hchunk : env.chunkBytes < 18446744073709551616)
    (hbf : bf ≠ []) (L : FileLife) : ∀ (fs : FS) (D : DBlocks),
    FileAtRest env bf N fs D → L.Safe env bf N D → ∃ es fs', FileDiskLife env bf fs L es fs' := by
  induction L with
  | rest => intro fs D _ _; exact ⟨[], fs, .rest fs⟩
  | visit opens p next ih =>
    intro fs D h hs
    obtain ⟨s1, s2, s3⟩ := hs
    have hq : NoSilent noFaults := by
      intro k n h
      exact Fault.noConfusion h
    have hex : ∀ n, ∃ ob : Option Block, (opens n = false → ob = none) ∧ (opens n = true → ∃ c b w', openBlock env bf n ⟨fs, noFaults, c⟩ = .ok (0, some b) w' ∧ ob = some b ∧
        b.basename = pathJoin bf n ∧ ∀ K S, D n = some (K, S) → HoldsD env K b fs S.again) := by
      intro n
      cases hon : opens n with
      | false => exact ⟨none, fun _ => rfl, fun h => by cases h⟩
      | true =>
        obtain ⟨K, S, q1, q2⟩ := s1 n hon
        obtain ⟨b, w', e, _, q3, q4⟩ := C107_opens_partial env bf N fs D h n K S q1 q2 0
        refine ⟨some b, fun h => (by cases h), fun _ => ⟨0, b, w', e, rfl, q3, fun K1 S1 hD => ?_⟩⟩
        rw [q1] at hD
        injection hD with hD
        injection hD with e1 e2
        subst e1 e2
        exact q4
    obtain ⟨hs, hhs⟩ := Classical.axiomOfChoice hex
    have hold : PartHold env bf N opens hs fs (D.reopen opens) := by
      intro n K S hn
      unfold DBlocks.reopen at hn
      cases hDn : D n with
      | none => rw [hDn] at hn; cases hn
      | some KS =>
        obtain ⟨K0, S0⟩ := KS
        rw [hDn] at hn
        injection hn with hn
        injection hn with e1 e2
        subst e1 e2
        obtain ⟨hNn, hrest⟩ := h.blocks n K0 S0 hDn
        refine ⟨hNn, ?_⟩
        cases hon : opens n with
        | false =>
          obtain ⟨b, g1, g2⟩ := hrest
          exact ⟨b, fun hc => (by cases hc), g1, by simpa using g2⟩
        | true =>
          obtain ⟨_, b, _, _, q1, q2, q3⟩ := (hhs n).2 hon
          exact ⟨b, fun _ => q1, q2, by simpa using q3 K0 S0 hDn⟩
    have key := file_visit env bf N hfmt hchunk hbf p opens hs ⟨fs, noFaults, 0⟩ _ h.tree hq h.names hold s2
    have hv : ∃ e fs1, FileVisitLeft env bf fs opens p e fs1 := by
      unfold wpc at key
      have hopen : ∀ n, opens n = true → ∃ c b w', openBlock env bf n ⟨fs, noFaults, c⟩ = .ok (0, some b) w' ∧ hs n = some b := by
        intro n hn
        obtain ⟨c, b, w', q1, q2, _⟩ := (hhs n).2 hn
        exact ⟨c, b, w', q1, q2⟩
      cases hr : runFileNoted env bf hs p ⟨fs, noFaults, 0⟩ with
      | ok r w2 => exact ⟨.ended r.1, w2.fs, hs, noFaults, 0, fun n hn => (hhs n).1 hn, hopen, hq, .inl ⟨r.1, r.2, w2, rfl, hr, rfl⟩⟩
      | crash w2 => exact ⟨.killed, w2.fs, hs, noFaults, 0, fun n hn => (hhs n).1 hn, hopen, hq, .inr ⟨w2, rfl, hr, rfl⟩⟩
      | ub => rw [hr] at key; exact key.elim
      | hang => rw [hr] at key; exact key.elim
    obtain ⟨e, fs1, hv⟩ := hv
    obtain ⟨D1, g1, g2⟩ := C107_visit_partial env bf N hfmt hchunk hbf fs fs1 D h opens p e s1 s2 hv
    obtain ⟨es, fs', g3⟩ := ih e fs1 D1 g2 (s3 e D1 g1)
    exact ⟨e :: es, fs', .visit fs fs1 fs' opens p next e es hv g3⟩

/-- **C107, a file that was made new**: an empty directory is a file at rest without blocks, in which blocks with plain names can be
made. -/
theorem C107_new_file (env : Env) (bf : CStr) (hbf : bf ≠ []) (fs : FS) (ht : TreeOk fs) (he : EmptyDir fs bf) :
    FileAtRest env bf PlainBlockName fs fun _ => none := by
  refine ⟨ht, ⟨fun n n' h h' hne => plain_apart hbf h h' hne, fun n hn => ?_⟩, fun n K S h => by cases h⟩
  have hr := empty_room hbf ht he hn
  exact ⟨fun d hd => hr.way _ (List.prefix_rfl) ⟨d, hd⟩, hr.noOld, fun f => hr.files _⟩

/-! ## The example -/

/-- A process makes the blocks `a` and `b/c` and writes to `b/c`; if it comes to its end and has made `a`, another one opens `a`,
writes rows 1 to 3 and stops. -/
def exFileLife : FileLife :=
  .visit (fun _ => false) exFileSession fun e => match e with
    | .ended (.made 0 :: _) => .visit (fun n => n == b!"a") (.use b!"a" (.write 1 exSrc exMem 8) fun _ => .stop) fun _ => .rest
    | _ => .rest

theorem exFileLife_safe : exFileLife.Safe exEnv b!"d/e" PlainBlockName fun _ => none := by
  have h0 : (DBlocks.reopen (fun _ => none) fun _ => false).only (fun _ => false) = fun _ => none := rfl
  refine ⟨fun n h => (by cases h), (by rw [h0]; exact exFileSession_safe), fun e D1 hl => ?_⟩
  dsimp only
  split
  · rename_i xs
    have ha : D1 b!"a" = some (madeBlock exEnv.m b!"i4" 1 [2, 0, 3]) := by
      have hl : FileWent exEnv (DBlocks.reopen (fun _ => none) fun _ => false) exFileSession (.made 0 :: xs) D1 := hl
      cases hl with
      | made _ _ _ _ _ _ _ _ hl =>
        rw [C102_ignored exEnv b!"a" _ _ _ (FileWent.leaves hl) ⟨by decide, fun x => ?_⟩]
        · exact put_self _ _ _
        · dsimp only
          split
          · exact ⟨by decide, fun _ => ⟨by decide, fun _ => trivial⟩⟩
          · trivial
    refine ⟨fun n h => ?_, ?_, fun _ _ _ => trivial⟩
    · have : n = b!"a" := by simpa using h
      subst this
      exact ⟨_, _, ha, rfl, rfl⟩
    · refine ⟨(madeBlock exEnv.m b!"i4" 1 [2, 0, 3]).1, (madeBlock exEnv.m b!"i4" 1 [2, 0, 3]).2.again, ?_, ?_, fun _ _ _ => trivial⟩
      · show D1.reopen _ b!"a" = _
        exact reopen_some ha
      · exact ⟨by decide, exSrc_array, fun h => absurd h (by decide), fun _ => by decide +kernel⟩
  · trivial

/-- With any failures and kills. -/
example : (∃ es fs', FileDiskLife exEnv b!"d/e" exTreeWorld.fs exFileLife es fs') ∧
    ∀ es fs', FileDiskLife exEnv b!"d/e" exTreeWorld.fs exFileLife es fs' →
      ∃ D', FileLifeLeads exEnv (fun _ => none) exFileLife es D' ∧ FileAtRest exEnv b!"d/e" PlainBlockName fs' D' := by
  have h := C107_new_file exEnv b!"d/e" (by decide) exTreeWorld.fs exTree_ok exBlkTree_empty
  exact ⟨C107_happens_partial exEnv b!"d/e" PlainBlockName exFmt (by decide) (by decide) exFileLife _ _ h exFileLife_safe,
    fun es fs' hd => C107_life_partial exEnv b!"d/e" PlainBlockName exFmt (by decide) (by decide) exFileLife es _ fs' hd _ h exFileLife_safe⟩

end Verif
