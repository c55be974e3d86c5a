import Verif.Spec.CommLife
import Verif.Props.FileLife
/-!
# C108: the life of a file of many blocks that is used by one group of processes after another
-/

set_option autoImplicit false

namespace Verif

open Verif.Spec

/-- `n` processes that have only the blocks `O` open, with the files of all blocks. -/
theorem comm_visit (env : Env) (n : Nat) (bf : CStr) (N : CStr → Prop) (hfmt : FmtOk env) (hchunk : env.chunkBytes < 18446744073709551616)
    (hn : 0 < n ∧ n < 2147483648) (hbf : bf ≠ []) (p : CommSession) : ∀ (O : CStr → Bool) (hs : SharedHandles) (w : World) (D : DBlocks),
    NoSilent w.faults → Names bf N w.fs → FilesHold env bf N w.fs D → CommHold env n bf N hs w.fs (D.only O) → p.Safe env n bf N (D.only O) →
    (runCommNoted env n bf hs p).Withstands w
      (fun r w' => ∃ D', CommWent env n D p r.1 D' ∧ CommAtRest env bf N w'.fs D')
      (fun fs => ∃ D', CommLeaves env n D p D' ∧ CommAtRest env bf N fs D') := by
  induction p with
  | stop => intro O hs w D _ hN h _ _; exact ⟨D, .stop D, hN, h⟩
  | create name dt nmemb sizes k ih =>
    intro O hs w D hns hN hf h hp
    obtain ⟨hname, hm, hk⟩ := hp
    have names : ∀ {fs : FS}, OnlyMade (pathJoin bf name) w.fs fs → Clear fs (pathJoin bf name) → Names bf N fs := by
      intro fs hmade hc
      refine ⟨hN.apart, fun m hm => ?_⟩
      by_cases hmn : m = name
      · subst hmn; exact hc
      · exact (hN.clear m hm).other hmade (hN.apart m name hm hname hmn)
    unfold runCommNoted
    apply Phases.withstands_bind
    apply Phases.withstands_mono (commCreate_may hfmt hchunk hns hbf hn hm (hN.clear name hname))
    · rintro ⟨c, o⟩ w1 ⟨f1, hmade, hc, hres⟩
      dsimp only at hres ⊢
      have hN1 := names hmade hc
      have hns1 : NoSilent w1.faults := by rw [f1]; exact hns
      apply Phases.withstands_bind
      rcases hres with ⟨hall, H, rfl, hb, hh⟩ | hnone
      · have h1 := commHold_put hbf h hname hN.apart hmade (some (sharedMade env.m dt nmemb sizes)) (some H) (by
          intro K S he
          injection he with he
          rw [he] at hh
          exact ⟨H, rfl, hb, hh⟩)
        have h2 := filesHold_put hbf hf hname hN.apart hmade (some (sharedMade env.m dt nmemb sizes)) (by
          intro K S he
          injection he with he
          rw [he] at hh
          exact comm_base hb hh)
        have hO : ∀ m, m ≠ name → (fun m => if m = name then true else O m) m = O m := fun m hm => if_neg hm
        have hk1 := (hk c).1 hall
        rw [← only_put_open D O _ name _ hO (Or.inl (if_pos rfl))] at h1 hk1
        apply Phases.withstands_mono (ih c _ _ w1 _ hns1 hN1 h2 h1 hk1)
        · rintro ⟨xs, hs'⟩ w' ⟨D', g1, g2⟩; exact ⟨D', .made D D' name dt nmemb sizes k c xs hall g1, g2⟩
        · rintro fs ⟨D', g1, g2⟩; exact ⟨D', .made D D' name dt nmemb sizes k c hall g1, g2⟩
      · have h1 := commHold_put hbf h hname hN.apart hmade none o (fun _ _ h => by cases h)
        have h2 := filesHold_put hbf hf hname hN.apart hmade none (fun _ _ h => by cases h)
        have hk1 := (hk c).2 hnone
        rw [← only_put_open D O O name none (fun _ _ => rfl) (Or.inr rfl)] at h1 hk1
        apply Phases.withstands_mono (ih c _ _ w1 _ hns1 hN1 h2 h1 hk1)
        · rintro ⟨xs, hs'⟩ w' ⟨D', g1, g2⟩; exact ⟨D', .notMade D D' name dt nmemb sizes k c xs hnone g1, g2⟩
        · rintro fs ⟨D', g1, g2⟩; exact ⟨D', .notMade D D' name dt nmemb sizes k c hnone g1, g2⟩
    · rintro fs ⟨hmade, hc⟩
      exact ⟨_, .killedMaking D name dt nmemb sizes k, names hmade hc, filesHold_put hbf hf hname hN.apart hmade none (fun _ _ h => by cases h)⟩
  | use name op k ih =>
    intro O hs w D hns hN hf h hp
    obtain ⟨K, S, hD, hl, hk⟩ := hp
    obtain ⟨hname, H, k1, k2, k3⟩ := h name K S hD
    have hO : O name = true ∧ D name = some (K, S) := by
      unfold DBlocks.only at hD
      split at hD
      · rename_i ho; exact ⟨ho, hD⟩
      · cases hD
    have hres := resolve_mpiPath bf name hbf
    have names : ∀ {fs : FS} {b : Block} {S1 : Durable}, SameOutside (pathJoin bf name) w.fs fs → b.basename = mpiPath bf name → HoldsD env K b fs S1 →
        Names bf N fs := by
      intro fs b S1 hsame hb h1
      refine ⟨hN.apart, fun m hm => ?_⟩
      by_cases hmn : m = name
      · subst hmn
        exact h1.clear.renamed (by rw [hb, hres])
      · exact (hN.clear m hm).other (OnlyMade.of_outside hsame) (hN.apart m name hm hname hmn)
    unfold runCommNoted
    simp only [k1]
    apply Phases.withstands_bind
    apply Phases.withstands_mono (mop_may k3 hns op hl)
    · rintro ⟨x, H1⟩ w1 ⟨hfl, hb, hout, S1, ho, h1⟩
      dsimp only at hb ho h1 ⊢
      rw [k2] at hout hb
      have hsame := hout.renamed hres
      have hmade := OnlyMade.of_outside hsame
      obtain ⟨b, g1, g0, g2⟩ := comm_base hb h1
      have h2 := commHold_put hbf h hname hN.apart hmade (some (K, S1)) (some H1) (by
        intro K' S' he
        injection he with he
        injection he with e1 e2
        subst e1 e2
        exact ⟨H1, rfl, hb, h1⟩)
      have h3 := filesHold_put hbf hf hname hN.apart hmade (some (K, S1)) (by
        intro K' S' he
        injection he with he
        injection he with e1 e2
        subst e1 e2
        exact ⟨b, g1, g0, g2⟩)
      have hk1 := hk x S1 ho
      rw [← only_put_open D O O name _ (fun _ _ => rfl) (Or.inl hO.1)] at h2 hk1
      apply Phases.withstands_bind
      apply Phases.withstands_mono (ih x O _ w1 _ (by rw [hfl]; exact hns) (names hsame g1 g2) h3 h2 hk1)
      · rintro ⟨xs, hs'⟩ w' ⟨D', q1, q2⟩; exact ⟨D', .step D D' name op k K S S1 x xs hO.2 ho q1, q2⟩
      · rintro fs ⟨D', q1, q2⟩; exact ⟨D', .step D D' name op k K S S1 x hO.2 ho q1, q2⟩
    · rintro fs ⟨hout, S1, b, hkl, hb, h1⟩
      rw [k2] at hout hb
      obtain ⟨b0, e0, z0, _⟩ := comm_base k2 k3
      have hsame := hout.renamed hres
      exact ⟨_, .killed D name op k K S S1 hO.2 hkl, names hsame hb h1, filesHold_put hbf hf hname hN.apart (OnlyMade.of_outside hsame)
        (some (K, S1)) (by
          intro K' S' he
          injection he with he
          injection he with e1 e2
          subst e1 e2
          exact ⟨b, hb, by rw [hb, ← e0]; exact z0, h1⟩)⟩

/-! ## One visit -/

/-- **C108, the blocks can be opened** by any number of processes (partial, as below). -/
theorem C108_opens_partial (env : Env) (bf : CStr) (N : CStr → Prop) (fs : FS) (D : DBlocks) (h : CommAtRest env bf N fs D)
    (name : CStr) (K : Kind) (S : Durable) (hD : D name = some (K, S)) (hi : S.Intact) (c : Nat) :
    ∃ H w', mpiOpenBlock env bf name ⟨fs, noFaults, c⟩ = .ok (0, some H) w' ∧ w'.fs = fs ∧ (H 0).basename = mpiPath bf name ∧
      ∀ n, 0 < n ∧ n < 2147483648 → HoldsAllD env K n H fs S.again := by
  obtain ⟨hst, hk⟩ := hi
  obtain ⟨⟨m, k⟩, hst⟩ := Option.isSome_iff_exists.1 hst
  rw [again_reopened hst]
  obtain ⟨_, bb, hb, hz, hh⟩ := h.blocks name K S hD
  obtain ⟨H, w', e, g1, _, g3, _, _⟩ := C89_recover_partial env K bb ⟨fs, noFaults, c⟩ S m k hh rfl hz hst hk 1 (by decide)
  refine ⟨H, w', by rw [hb] at e; exact e, g1, g3.trans hb, fun n hn => ?_⟩
  obtain ⟨H', w2, e', q1, _, _, q5, _⟩ := C89_recover_partial env K bb ⟨fs, noFaults, c⟩ S m k hh rfl hz hst hk n hn
  rw [e] at e'
  injection e' with e1 e2
  injection e1 with _ e1
  injection e1 with e1
  subst e1
  rw [q1] at q5
  exact q5

theorem comm_opened {env : Env} {n : Nat} {bf : CStr} {N : CStr → Prop} {fs : FS} {D : DBlocks} (h : CommAtRest env bf N fs D) {opens : CStr → Bool}
    (hn : 0 < n ∧ n < 2147483648) (ho : ∀ m, opens m = true → ∃ K S, D m = some (K, S) ∧ S.Intact) {hs : SharedHandles}
    (hopen : ∀ m, opens m = true → ∃ c H w', mpiOpenBlock env bf m ⟨fs, noFaults, c⟩ = .ok (0, some H) w' ∧ hs m = some H) :
    FilesHold env bf N fs (D.reopen opens) ∧ CommHold env n bf N hs fs ((D.reopen opens).only opens) := by
  have key : ∀ m K S, opens m = true → D m = some (K, S) → ∃ H, hs m = some H ∧ (H 0).basename = mpiPath bf m ∧ HoldsAllD env K n H fs S.again := by
    intro m K S hom hD
    obtain ⟨K1, S1, q1, q2⟩ := ho m hom
    rw [hD] at q1
    injection q1 with q1
    injection q1 with e1 e2
    subst e1 e2
    obtain ⟨c, H, w', q3, q4⟩ := hopen m hom
    obtain ⟨H1, w1, q5, _, q6, q7⟩ := C108_opens_partial env bf N fs D h m K S hD q2 c
    rw [q3] at q5
    injection q5 with q5 _
    injection q5 with _ q5
    injection q5 with q5
    subst q5
    exact ⟨H, q4, q6, q7 n hn⟩
  have inv : ∀ m K S, D.reopen opens m = some (K, S) → ∃ S0, D m = some (K, S0) ∧ S = if opens m then S0.again else S0 := by
    intro m K S hm
    unfold DBlocks.reopen at hm
    cases hDm : D m with
    | none => rw [hDm] at hm; cases hm
    | some KS =>
      obtain ⟨K0, S0⟩ := KS
      rw [hDm] at hm
      injection hm with hm
      injection hm with e1 e2
      subst e1 e2
      exact ⟨S0, rfl, rfl⟩
  constructor
  · intro m K S hm
    obtain ⟨S0, hD, rfl⟩ := inv m K S hm
    obtain ⟨hNm, hrest⟩ := h.blocks m K S0 hD
    refine ⟨hNm, ?_⟩
    cases hom : opens m with
    | false => simpa using hrest
    | true =>
      obtain ⟨H, _, g2, g3⟩ := key m K S0 hom hD
      simpa using comm_base g2 g3
  · intro m K S hm
    unfold DBlocks.only at hm
    split at hm
    · rename_i hom
      obtain ⟨S0, hD, rfl⟩ := inv m K S hm
      rw [if_pos hom]
      exact ⟨(h.blocks m K S0 hD).1, key m K S0 hom hD⟩
    · cases hm

/-- **C108, one visit** (partial, as below). -/
theorem C108_visit_partial (env : Env) (bf : CStr) (N : CStr → Prop) (hfmt : FmtOk env) (hchunk : env.chunkBytes < 18446744073709551616)
    (hbf : bf ≠ []) (fs fs' : FS) (D : DBlocks) (h : CommAtRest env bf N fs D) (n : Nat) (hn : 0 < n ∧ n < 2147483648)
    (opens : CStr → Bool) (p : CommSession) (e : CommEnd) (ho : ∀ m, opens m = true → ∃ K S, D m = some (K, S) ∧ S.Intact)
    (hp : p.Safe env n bf N ((D.reopen opens).only opens)) (hv : CommVisitLeft env bf fs n opens p e fs') :
    ∃ D', CommLeads env n (D.reopen opens) D' p e ∧ CommAtRest env bf N fs' D' := by
  obtain ⟨hs, faults, clock, _, hopen, hns, hend⟩ := hv
  obtain ⟨hf, hh⟩ := comm_opened h hn ho hopen
  have key := comm_visit env n bf N hfmt hchunk hn hbf p opens hs ⟨fs, faults, clock⟩ _ hns h.names hf hh hp
  rcases hend with ⟨xs, hs', rfl, hr⟩ | ⟨rfl, hr⟩
  · rcases key.ends hr with ⟨a, w', ha, rfl, D', g1, g2⟩ | ⟨hc, _⟩
    · injection ha with ha
      subst ha
      exact ⟨D', g1, g2⟩
    · cases hc
  · rcases key.ends hr with ⟨a, w', ha, _⟩ | ⟨_, D', g1, g2⟩
    · cases ha
    · exact ⟨D', g1, g2⟩

/-! ## Any number of visits -/

/-- **C108** (partial: nothing fails while blocks are opened, file operations do not fail silently, one group at a time). Blocks in a
file; one group of processes after another, of any size, opens some of them, makes more and uses them together while any file
operation of any process may fail, in every interleaving, and comes to its end or is killed at any moment, any number of times; what the
next group does may depend on how the earlier ones ended. Then the files of all blocks are in a state to which the operations on
each block, with the answers they gave, may lead. -/
theorem C108_life_partial (env : Env) (bf : CStr) (N : CStr → Prop) (hfmt : FmtOk env) (hchunk : env.chunkBytes < 18446744073709551616)
    (hbf : bf ≠ []) (L : CommLife) (es : List CommEnd) (fs fs' : FS) (hd : CommDiskLife env bf fs L es fs') :
    ∀ (D : DBlocks), CommAtRest env bf N fs D → L.Safe env bf N D → ∃ D', CommLifeLeads env D L es D' ∧ CommAtRest env bf N fs' D' := by
  induction hd with
  | rest fs => intro D h _; exact ⟨D, .rest D, h⟩
  | visit fs fs1 fs' n opens p next e es hv _ ih =>
    intro D h hs
    obtain ⟨s0, s1, s2, s3⟩ := hs
    obtain ⟨D1, g1, g2⟩ := C108_visit_partial env bf N hfmt hchunk hbf fs fs1 D h n s0 opens p e s1 s2 hv
    obtain ⟨D', g3, g4⟩ := ih D1 g2 (s3 e D1 g1)
    exact ⟨D', .visit D D1 D' n opens p next e es s1 g1 g3, g4⟩

/-! ## Consequences for a user -/

theorem Spec.CommWent.leaves {env : Env} {n : Nat} {D D' : DBlocks} {p : CommSession} {xs : List CommAns} (h : CommWent env n D p xs D') :
    CommLeaves env n D p D' := by
  induction h with
  | stop D => exact .stop D
  | made D D' name dt nmemb sizes k c xs hc _ ih => exact .made D D' name dt nmemb sizes k c hc ih
  | notMade D D' name dt nmemb sizes k c xs hc _ ih => exact .notMade D D' name dt nmemb sizes k c hc ih
  | step D D' name op k K S S1 x xs hD ho _ ih => exact .step D D' name op k K S S1 x hD ho ih

theorem Spec.CommLeads.leaves {env : Env} {n : Nat} {D D' : DBlocks} {p : CommSession} {e : CommEnd} (h : CommLeads env n D D' p e) :
    CommLeaves env n D p D' := by
  cases e with
  | killed => exact h
  | ended xs => exact CommWent.leaves h

/-- What a program may leave of one block, if it does only operations `P` to it. -/
theorem commLeaves_one {env : Env} {n : Nat} {name : CStr} {K : Kind} {P : MOp → Prop} {R : Durable → Durable → Prop} (hr : ∀ S, R S S)
    (ht : ∀ S S1 S2, R S S1 → R S1 S2 → R S S2)
    (hstep : ∀ S S1 op, P op → LeavesAll env K n S (.call op fun _ => .stop) S1 → R S S1) {D D' : DBlocks} {p : CommSession}
    (h : CommLeaves env n D p D') : p.OnlyDoes name P → ∀ S, D name = some (K, S) → ∃ S', D' name = some (K, S') ∧ R S S' := by
  induction h with
  | stop D => intro _ S hS; exact ⟨S, hS, hr S⟩
  | made D D' m dt nm sizes k c _ _ ih =>
    intro hp S hS
    exact ih (hp.2 _) S (by rw [put_other _ _ fun e => hp.1 e.symm]; exact hS)
  | notMade D D' m dt nm sizes k c _ _ ih =>
    intro hp S hS
    exact ih (hp.2 _) S (by rw [put_other _ _ fun e => hp.1 e.symm]; exact hS)
  | killedMaking D m dt nm sizes k =>
    intro hp S hS
    exact ⟨S, by rw [put_other _ _ fun e => hp.1 e.symm]; exact hS, hr S⟩
  | step D D' m op k K1 S0 S1 x hD ho _ ih =>
    intro hp S hS
    by_cases hn : m = name
    · subst hn
      rw [hD] at hS
      injection hS with hS
      injection hS with e1 e2
      subst e1 e2
      obtain ⟨S', g1, g2⟩ := ih (hp.2 _) S1 (put_self _ _ _)
      exact ⟨S', g1, ht _ _ _ (hstep _ _ op (hp.1 rfl) (.step _ _ _ op x _ ho (.stop _))) g2⟩
    · exact ih (hp.2 _) S (by rw [put_other _ _ fun e => hn e.symm]; exact hS)
  | killed D m op k K1 S0 S1 hD hkl =>
    intro hp S hS
    by_cases hn : m = name
    · subst hn
      rw [hD] at hS
      injection hS with hS
      injection hS with e1 e2
      subst e1 e2
      exact ⟨S1, put_self _ _ _, hstep _ _ op (hp.1 rfl) (.killed _ _ op _ hkl)⟩
    · exact ⟨S, by rw [put_other _ _ fun e => hn e.symm]; exact hS, hr S⟩

/-- **C108, rows stay.** A row that is stored and that no group writes keeps its content, and remains within what is recorded,
whatever happens to other rows and other blocks, whatever fails and whenever processes are killed. -/
theorem C108_row_stays (env : Env) (name : CStr) (K : Kind) (q : Nat) (L : CommLife) (es : List CommEnd) (D D' : DBlocks)
    (h : CommLifeLeads env D L es D') : L.OnlyDoes name (SparesRowAll K q) → ∀ S, D name = some (K, S) → RowIn q S →
    ∃ S', D' name = some (K, S') ∧ RowIn q S' ∧ S'.now.rows q = S.now.rows q := by
  induction h with
  | rest D => intro _ S hS hq; exact ⟨S, hS, hq, rfl⟩
  | visit D D1 D' n opens p next e es ho hl _ ih =>
    intro hL S hS hq
    have h0 := reopen_some (opens := opens) hS
    have hq0 : RowIn q (if opens name then S.again else S) ∧ (if opens name then S.again else S).now.rows q = S.now.rows q := by
      split
      · exact RowIn.again hq
      · exact ⟨hq, rfl⟩
    obtain ⟨S1, g1, g2⟩ := commLeaves_one (R := fun S S' => RowIn q S → RowIn q S' ∧ S'.now.rows q = S.now.rows q) (fun S hS => ⟨hS, rfl⟩)
      (fun S S1 S2 h1 h2 hS => ⟨(h2 (h1 hS).1).1, (h2 (h1 hS).1).2.trans (h1 hS).2⟩)
      (by
        intro S S1 op hop hlv hS
        refine ⟨RowIn.leavesAll hS hlv, C89_untouched env K n q S S1 _ hlv ⟨?_, fun _ => trivial⟩⟩
        cases op <;> exact hop) (CommLeads.leaves hl) hL.1 _ h0
    obtain ⟨g3, g4⟩ := g2 hq0.1
    obtain ⟨S', k1, k2, k3⟩ := ih (hL.2 e) S1 g1 g3
    exact ⟨S', k1, k2, k3.trans (g4.trans hq0.2)⟩

/-- **C108, a block that is left alone.** A stored block that no group uses or makes (they may open it) is the same afterwards: same
size, same rows, same attributes. -/
theorem C108_ignored (env : Env) (name : CStr) (L : CommLife) (es : List CommEnd) (D D' : DBlocks)
    (h : CommLifeLeads env D L es D') : L.OnlyDoes name (fun _ _ => False) → ∀ K S, D name = some (K, S) → S.Intact →
    ∃ S', D' name = some (K, S') ∧ S'.Intact ∧ S'.again = S.again := by
  induction h with
  | rest D => intro _ K S hS hi; exact ⟨S, hS, hi, rfl⟩
  | visit D D1 D' n opens p next e es ho hl _ ih =>
    intro hL K S hS hi
    have h0 := reopen_some (opens := opens) hS
    have hq0 : (if opens name then S.again else S).Intact ∧ (if opens name then S.again else S).again = S.again := by
      split
      · exact ⟨hi.again, again_again S⟩
      · exact ⟨hi, rfl⟩
    obtain ⟨S1, g1, g2⟩ := commLeaves_one (R := fun S S' => S' = S) (fun S => rfl) (fun S S1 S2 h1 h2 => h2.trans h1)
      (fun S S1 op hop _ => hop.elim) (CommLeads.leaves hl) hL.1 _ h0
    subst g2
    obtain ⟨S', k1, k2, k3⟩ := ih (hL.2 e) K _ g1 hq0.1
    exact ⟨S', k1, k2, k3.trans hq0.2⟩

theorem commAsIf_intact {env : Env} {n : Nat} (name : CStr) (p : CommSession) : ∀ {xs : List CommAns} {D D' : DBlocks}, p.AsIf env n xs D D' →
    (∃ K S, D name = some (K, S) ∧ S.Intact) → ∃ K S, D' name = some (K, S) ∧ S.Intact := by
  induction p with
  | stop =>
    intro xs D D' h hi
    match xs, h with
    | [], h => have h : D' = D := h; rw [h]; exact hi
  | create m dt nmemb sizes k ih =>
    intro xs D D' h hi
    match xs, h with
    | .made c :: xs, h =>
      refine ih c h.2 ?_
      by_cases hn : name = m
      · subst hn
        exact ⟨_, _, put_self _ _ _, rfl, rfl⟩
      · rw [put_other _ _ hn]
        exact hi
  | use m op k ih =>
    intro xs D D' h hi
    match xs, h with
    | .used x :: xs, ⟨K, S, hD, _, h⟩ =>
      refine ih x h ?_
      by_cases hn : name = m
      · subst hn
        obtain ⟨K', S', q1, q2⟩ := hi
        rw [hD] at q1
        injection q1 with q1
        injection q1 with e1 e2
        subst e1 e2
        refine ⟨_, _, put_self _ _ _, ?_⟩
        cases op with
        | flush =>
          refine ⟨rfl, ?_⟩
          simp only [Durable.nextAll, Durable.flushed]
          rw [q2.2]
          rfl
        | write | read | grow | attr | reopen => exact q2
      · rw [put_other _ _ hn]
        exact hi

/-- **C108, what cannot do damage.** A block that can be opened can be opened afterwards if every group either does not make or
flush this block (it may then fail and be killed as it likes, also while it makes or flushes other blocks), or came to its end and one
of its processes saw no error code. -/
theorem C108_intact (env : Env) (name : CStr) (L : CommLife) (es : List CommEnd) (D D' : DBlocks)
    (h : CommLifeLeads env D L es D') : L.SoundFor name es → (∃ K S, D name = some (K, S) ∧ S.Intact) →
    ∃ K S, D' name = some (K, S) ∧ S.Intact := by
  induction h with
  | rest D => intro _ hi; exact hi
  | visit D D1 D' n opens p next e es ho hl _ ih =>
    intro hL hi
    obtain ⟨K, S, hS, hi⟩ := hi
    have h0 := reopen_some (opens := opens) hS
    have hi0 : (if opens name then S.again else S).Intact := by
      split
      · exact hi.again
      · exact hi
    refine ih hL.2 ?_
    rcases hL.1 with hnf | ⟨xs, r, rfl, hr, hne⟩
    · obtain ⟨S1, g1, g2⟩ := commLeaves_one (R := fun S S' => S.Intact → S'.Intact) (fun S h => h) (fun S S1 S2 h1 h2 h => h2 (h1 h))
        (by
          intro S S1 op hop hlv hS
          obtain ⟨u1, u2, _⟩ := C89_unflushed env K n S S1 _ hlv ⟨by cases op <;> exact hop, fun _ => trivial⟩
          exact ⟨by rw [u1]; exact hS.1, by rw [u2]; exact hS.2⟩) (CommLeads.leaves hl) hnf _ h0
      exact ⟨K, S1, g1, g2 hi0⟩
    · exact commAsIf_intact name p (C104_no_false_success env n r hr _ D1 p xs hl hne) ⟨_, _, h0, hi0⟩

/-- **C108, a user's data** (partial, as above). A block of the file holds `A`. One group of processes after another works on the file, any
number of times; each of them either does not make or flush this block (and may be killed at any moment), or comes to its end and one of
its processes sees no error code. Then any number of processes can open the block, and each of them finds every row that was there at
the beginning and that none of the groups wrote as it was (if none of them made the block anew). -/
theorem C108_kept_partial (env : Env) (bf : CStr) (N : CStr → Prop) (hfmt : FmtOk env) (hchunk : env.chunkBytes < 18446744073709551616)
    (hbf : bf ≠ []) (L : CommLife) (es : List CommEnd) (fs fs' : FS)
    (hd : CommDiskLife env bf fs L es fs') (D : DBlocks) (h : CommAtRest env bf N fs D) (hs : L.Safe env bf N D)
    (name : CStr) (K : Kind) (A : Content) (hD : D name = some (K, Durable.opened A)) (hv : L.SoundFor name es) (c : Nat) :
    ∃ H w', mpiOpenBlock env bf name ⟨fs', noFaults, c⟩ = .ok (0, some H) w' ∧
      ∀ q bytes, A.rows q = some bytes → L.OnlyDoes name (SparesRowAll K q) → ∀ r, r < 2147483647 →
        q < (H r).size ∧ row env.m fs' (H r) q = bytes := by
  obtain ⟨D', g1, g2⟩ := C108_life_partial env bf N hfmt hchunk hbf L es fs fs' hd D h hs
  obtain ⟨K', S', g3, g4⟩ := C108_intact env name L es D D' g1 hv ⟨K, _, hD, rfl, rfl⟩
  obtain ⟨H, w', e, _, _, g5⟩ := C108_opens_partial env bf N fs' D' g2 name K' S' g3 g4 c
  refine ⟨H, w', e, fun q bytes hr hsp r hrn => ?_⟩
  obtain ⟨_, b0, _, _, hb0⟩ := h.blocks name K _ hD
  have hlt := (hb0.rows q bytes hr).1
  have hin : RowIn q (Durable.opened A) := by
    refine ⟨hlt, fun m' k' e => ?_⟩
    injection e with e
    injection e with e _
    rw [← e]
    exact hlt
  obtain ⟨S2, k1, k2, k3⟩ := C108_row_stays env name K q L es D D' g1 hsp _ hD hin
  rw [g3] at k1
  injection k1 with k1
  injection k1 with e1 e2
  subst e1 e2
  have ha := RowIn.again k2
  obtain ⟨_, _, bb, hh, _, _, _, hm⟩ := g5 2147483647 (by decide)
  have m := (hm r hrn).shape
  refine ⟨by rw [m.size, hh.size]; exact ha.1.1, ?_⟩
  rw [m.row]
  refine (hh.rows q bytes ?_).2.1
  rw [ha.2, k3]
  exact hr

/-- **C108, visits happen** (partial, as above): there is an execution of every visit, and it leaves a disk behind. -/
theorem C108_happens_partial (env : Env) (bf : CStr) (N : CStr → Prop) (hfmt : FmtOk env) (hchunk : env.chunkBytes < 18446744073709551616)
    (hbf : bf ≠ []) (L : CommLife) : ∀ (fs : FS) (D : DBlocks),
    CommAtRest env bf N fs D → L.Safe env bf N D → ∃ es fs', CommDiskLife env bf fs L es fs' := by
  induction L with
  | rest => intro fs D _ _; exact ⟨[], fs, .rest fs⟩
  | visit n opens p next ih =>
    intro fs D h hs
    obtain ⟨s0, s1, s2, s3⟩ := hs
    have hq : NoSilent noFaults := by
      intro k n h
      exact Fault.noConfusion h
    have hex : ∀ m, ∃ oH : Option (Nat → Block), (opens m = false → oH = none) ∧
        (opens m = true → ∃ c H w', mpiOpenBlock env bf m ⟨fs, noFaults, c⟩ = .ok (0, some H) w' ∧ oH = some H) := by
      intro m
      cases hom : opens m with
      | false => exact ⟨none, fun _ => rfl, fun h => by cases h⟩
      | true =>
        obtain ⟨K, S, q1, q2⟩ := s1 m hom
        obtain ⟨H, w', e, _⟩ := C108_opens_partial env bf N fs D h m K S q1 q2 0
        exact ⟨some H, fun h => (by cases h), fun _ => ⟨0, H, w', e, rfl⟩⟩
    obtain ⟨hs, hhs⟩ := Classical.axiomOfChoice hex
    obtain ⟨hf, hh⟩ := comm_opened h s0 s1 (fun m hm => (hhs m).2 hm)
    have key := comm_visit env n bf N hfmt hchunk s0 hbf p opens hs ⟨fs, noFaults, 0⟩ _ hq h.names hf hh s2
    have hv : ∃ e fs1, CommVisitLeft env bf fs n opens p e fs1 := by
      obtain ⟨o, fs1, he⟩ := key.happens
      cases o with
      | none => exact ⟨.killed, fs1, hs, noFaults, 0, fun m hm => (hhs m).1 hm, fun m hm => (hhs m).2 hm, hq, .inr ⟨rfl, he⟩⟩
      | some a => exact ⟨.ended a.1, fs1, hs, noFaults, 0, fun m hm => (hhs m).1 hm, fun m hm => (hhs m).2 hm, hq, .inl ⟨a.1, a.2, rfl, he⟩⟩
    obtain ⟨e, fs1, hv⟩ := hv
    obtain ⟨D1, g1, g2⟩ := C108_visit_partial env bf N hfmt hchunk hbf fs fs1 D h n s0 opens p e s1 s2 hv
    obtain ⟨es, fs', g3⟩ := ih e fs1 D1 g2 (s3 e D1 g1)
    exact ⟨e :: es, fs', .visit fs fs1 fs' n opens p next e es hv g3⟩

/-- **C108, a file that was made new**: an empty directory is a file at rest without blocks, in which blocks with plain names can be
made. -/
theorem C108_new_file (env : Env) (bf : CStr) (hbf : bf ≠ []) (fs : FS) (ht : TreeOk fs) (he : EmptyDir fs bf) :
    CommAtRest env bf PlainBlockName fs fun _ => none :=
  ⟨(C107_new_file env bf hbf fs ht he).names, fun m K S h => by cases h⟩

/-! ## The example -/

/-- Three processes make the blocks `a` and `b/c` and write to `a`; if they come to their end and both blocks were made,
two processes open `b/c` and flush it. -/
def exCommLife : CommLife :=
  .visit 3 (fun _ => false) exCommSession fun e => match e with
    | .ended (_ :: .made c :: _) => if c 0 = 0 then .visit 2 (fun m => m == b!"b/c") (.use b!"b/c" .flush fun _ => .stop) fun _ => .rest else .rest
    | _ => .rest

theorem exCommLife_safe : exCommLife.Safe exEnv b!"d/e" PlainBlockName fun _ => none := by
  have h0 : (DBlocks.reopen (fun _ => none) fun _ => false).only (fun _ => false) = fun _ => none := rfl
  refine ⟨by decide, fun n h => (by cases h), (by rw [h0]; exact exCommSession_safe), fun e D1 hl => ?_⟩
  dsimp only
  split
  · rename_i a c xs
    split
    · rename_i hc0
      have hi : ∀ c', CommSession.Ignores b!"b/c" (if (c' : Nat → Int) 0 = 0 then
          .use b!"a" (.write 0 exArrs (fun _ => exMem) (fun _ => 8) 2 1) fun _ => .use b!"a" .flush fun _ => .stop else .stop) := by
        intro c'
        split
        · exact ⟨by decide, fun _ => ⟨by decide, fun _ => trivial⟩⟩
        · trivial
      have ha : D1 b!"b/c" = some (sharedMade exEnv.m b!"i4" 1 [2, 0, 3]) := by
        have hl : CommWent exEnv 3 (DBlocks.reopen (fun _ => none) fun _ => false) exCommSession (a :: .made c :: xs) D1 := hl
        have key : ∀ D c', CommWent exEnv 3 D (.create b!"b/c" b!"i4" 1 [2, 0, 3] fun _ => if (c' : Nat → Int) 0 = 0 then
            .use b!"a" (.write 0 exArrs (fun _ => exMem) (fun _ => 8) 2 1) fun _ => .use b!"a" .flush fun _ => .stop else .stop)
            (.made c :: xs) D1 → D1 b!"b/c" = some (sharedMade exEnv.m b!"i4" 1 [2, 0, 3]) := by
          intro D c' hl
          cases hl with
          | made _ _ _ _ _ _ _ _ _ _ hl =>
            rw [C104_ignored exEnv 3 b!"b/c" _ _ _ (CommWent.leaves hl) (hi c')]
            exact put_self _ _ _
          | notMade _ _ _ _ _ _ _ _ _ hn _ =>
            obtain ⟨e, he, hx⟩ := hn
            exact absurd ((hx 0 (by decide)).symm.trans hc0) he
        cases hl with
        | made _ _ _ _ _ _ _ c' _ _ hl => exact key _ c' hl
        | notMade _ _ _ _ _ _ _ c' _ _ hl => exact key _ c' hl
      refine ⟨by decide, fun n h => ?_, ?_, fun _ _ _ => trivial⟩
      · have : n = b!"b/c" := by simpa using h
        subst this
        exact ⟨_, _, ha, rfl, rfl⟩
      · refine ⟨(sharedMade exEnv.m b!"i4" 1 [2, 0, 3]).1, (sharedMade exEnv.m b!"i4" 1 [2, 0, 3]).2.again, ?_, trivial, fun _ _ _ => trivial⟩
        show D1.reopen _ b!"b/c" = _
        exact reopen_some ha
    · trivial
  · trivial

/-- With any failures and kills. -/
example : (∃ es fs', CommDiskLife exEnv b!"d/e" exTreeWorld.fs exCommLife es fs') ∧
    ∀ es fs', CommDiskLife exEnv b!"d/e" exTreeWorld.fs exCommLife es fs' →
      ∃ D', CommLifeLeads exEnv (fun _ => none) exCommLife es D' ∧ CommAtRest exEnv b!"d/e" PlainBlockName fs' D' := by
  have h := C108_new_file exEnv b!"d/e" (by decide) exTreeWorld.fs exTree_ok exBlkTree_empty
  exact ⟨C108_happens_partial exEnv b!"d/e" PlainBlockName exFmt (by decide) (by decide) exCommLife _ _ h exCommLife_safe,
    fun es fs' hd => C108_life_partial exEnv b!"d/e" PlainBlockName exFmt (by decide) (by decide) exCommLife es _ fs' hd _ h exCommLife_safe⟩

end Verif
