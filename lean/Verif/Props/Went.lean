import Verif.Spec.Went
import Verif.Props.SharedMay
/-!
# C70 and C89: what a program may conclude from the answers it got

A program sees only the answers. If none of them is an error code, everything is as if no file operation had failed; and
once a flush has answered 0, a later kill cannot take away what was flushed.
-/

set_option autoImplicit false

namespace Verif

open Spec

/-! ## One process -/

/-- Noting the answers changes nothing. -/
theorem runNoted_run (env : Env) (p : Session) : ∀ (bb : Block) (w : World),
    runSession env bb p w = (do let r ← runNoted env bb p; pure r.2 : M Block) w := by
  induction p with
  | stop => intro bb w; rfl
  | call op k ih =>
    intro bb w
    unfold runSession runNoted
    simp only [bind, M.bind]
    cases runBOp env bb op w with
    | ok x w1 =>
      obtain ⟨x, b⟩ := x
      dsimp only
      rw [ih x b w1]
      simp only [bind, M.bind]
      cases runNoted env b (k x) w1 <;> rfl
    | crash w1 => rfl
    | ub => rfl
    | hang => rfl

/-- **C70, the answers** (partial, as `C70_survives_partial`). When the program ends, handle and disk are in a state that
the answers it got allow; when it is killed, so is the disk. -/
theorem C70_answers_partial (env : Env) (K : Kind) (p : Session) : ∀ (bb : Block) (w : World) (S : Durable),
    HoldsD env K bb w.fs S → NoSilent w.faults → p.Safe env K S →
    wpc (runNoted env bb p) w
      (fun r w' => r.2.basename = bb.basename ∧ w'.faults = w.faults ∧ ∃ S', Went env K S p r.1 S' ∧ HoldsD env K r.2 w'.fs S')
      (fun w' => ∃ b S', b.basename = bb.basename ∧ Leaves env K S p S' ∧ HoldsD env K b w'.fs S') := by
  induction p with
  | stop => intro bb w S h _ _; exact ⟨rfl, rfl, S, .stop S, h⟩
  | call op k ih =>
    intro bb w S h hns hp
    unfold runNoted
    rw [wpc_bind]
    apply wpc_mono (bop_may h hns op hp.1)
    · rintro ⟨x, bb1⟩ w1 ⟨hb, hf, S1, ho, h1⟩
      simp only at hb ho h1
      rw [wpc_bind]
      apply wpc_mono (ih x bb1 w1 S1 h1 (by rw [hf]; exact hns) (hp.2 x S1 ho))
      · rintro ⟨xs, b⟩ w2 ⟨hb2, hf2, S', hl, hh⟩
        exact ⟨hb2.trans hb, hf2.trans hf, S', .step S S1 S' op x k xs ho hl, hh⟩
      · rintro w2 ⟨b, S', hb2, hl, hh⟩
        exact ⟨b, S', hb2.trans hb, .step S S1 S' op x k ho hl, hh⟩
    · rintro w1 ⟨S', b, hk, hb, hh⟩
      exact ⟨b, S', hb, .killed S S' op k hk, hh⟩

/-- **C70, no false success.** If no operation answered with an error code, answers and state are those of a run in which
nothing failed. -/
theorem C70_no_false_success (env : Env) (K : Kind) (S S' : Durable) (p : Session) (xs : List BAns)
    (h : Went env K S p xs S') (hx : p.NoError xs) : p.AsIf env K xs S S' := by
  induction h with
  | stop S => rfl
  | step S S1 S' op x k xs ho _ ih =>
    obtain ⟨h1, h2⟩ := hx
    have bad : x.rc = -1 → (∃ a, op = .attr a) ∨ x.rc = 0 → (∀ a, op ≠ .attr a) → False := by
      rintro e (⟨a, rfl⟩ | h0) hn
      · exact hn a rfl
      · rw [h0] at e; cases e
    cases ho with
    | done _ _ ha => exact ⟨ha, ih h2⟩
    | write _ _ _ _ _ e _ _ _ => exact (bad e h1 (by intro a h; cases h)).elim
    | read _ _ _ _ _ e _ => exact (bad e h1 (by intro a h; cases h)).elim
    | grow _ _ e => exact (bad e h1 (by intro a h; cases h)).elim
    | flush _ e => exact (bad e h1 (by intro a h; cases h)).elim
    | attrs _ e _ => exact (bad e h1 (by intro a h; cases h)).elim

theorem Spec.Session.AsIf.kept {env : Env} {K : Kind} (p : Session) : ∀ {xs : List BAns} {S S' : Durable}, p.AsIf env K xs S S' →
    S.attrsKnown = true → S.whole = true → S'.attrsKnown = true ∧ S'.whole = true := by
  induction p with
  | stop =>
    intro xs S S' h h1 h2
    cases xs with
    | nil => have h : S' = S := h; rw [h]; exact ⟨h1, h2⟩
    | cons => exact h.elim
  | call op k ih =>
    intro xs S S' h h1 h2
    cases xs with
    | nil => exact h.elim
    | cons x xs =>
      refine ih x h.2 ?_ ?_
      · cases op with
        | flush => simp only [Durable.next, Durable.flushed]; rw [h1]; rfl
        | write | read | grow | attr | reopen => exact h1
      · cases op with
        | flush => exact h2
        | write | read | grow | attr | reopen => exact h2

/-- **C70, if no answer is an error** (partial, as above). A block was opened and holds `A`; a program works on it and comes to its
end, and no operation answered with an error code. Then, whatever happened to the file operations, every answer is the right one, and
the handle holds the content that the operations should have produced. -/
theorem C70_all_well_partial (env : Env) (K : Kind) (b : Block) (w : World) (A : Content) (p : Session)
    (h : Holds env K b w.fs A) (hd : b.dirty = false) (hp : A.pending = false) (hns : NoSilent w.faults)
    (hs : p.Safe env K (Durable.opened A)) (xs : List BAns) (b' : Block) (w' : World)
    (hr : runNoted env b p w = .ok (xs, b') w') (hx : p.NoError xs) :
    ∃ S', p.AsIf env K xs (Durable.opened A) S' ∧ Holds env K b' w'.fs S'.now := by
  have := wpc_ok (C70_answers_partial env K p b w _ (opened_holdsD h hd hp) hns hs) hr
  obtain ⟨_, _, S', h1, h2⟩ := this
  have ha := C70_no_false_success env K _ S' p xs h1 hx
  obtain ⟨k1, k2⟩ := ha.kept p rfl rfl
  exact ⟨S', ha, h2.holds k1 k2⟩

/-- **C70, what was flushed stays** (partial, as above). A handle and the disk are in any state `S` that a program may have
reached, after failures or not, and a flush answers 0 (and there are new attributes, or the stored ones are intact). Then
whatever is done without a further flush, whatever fails and whenever the process is killed: a later process can open the block,
and finds the size, the files and the attributes of the moment of the flush, and every row that was known then and was not written
since. -/
theorem C70_flush_stays_partial (env : Env) (K : Kind) (b b1 : Block) (w w1 : World) (S : Durable) (x : BAns) (p : Session)
    (h : HoldsD env K b w.fs S) (hns : NoSilent w.faults) (hr : runBOp env b .flush w = .ok (x, b1) w1) (hx : x.rc = 0)
    (hk : S.now.pending = true ∨ S.attrsKnown = true) (hs : p.Safe env K S.flushed) (hnf : p.NoFlush) :
    ∃ fs, leftDisk (runSession env b1 p w1) = some fs ∧ ∀ c, ∃ b' w', blockOpen env b.basename ⟨fs, noFaults, c⟩ = .ok (0, some b') w' ∧
      b'.size = S.now.size ∧ b'.nfile = S.now.nfile ∧
      attrView env.m b'.attrset = (if S.now.pending = true then S.now.attrs else S.now.saved) ∧
      ∀ r bytes, S.now.rows r = some bytes → p.Spares K r → row env.m fs b' r = bytes := by
  obtain ⟨hb, hf, S1, ho, h1⟩ := wpc_ok (bop_may h hns .flush trivial) hr
  dsimp only at hb ho h1
  have hS1 : S1 = S.flushed := by
    cases ho with
    | done _ _ _ => rfl
    | flush _ e => rw [hx] at e; cases e
    | attrs _ e _ => rw [hx] at e; cases e
  subst hS1
  have key := C70_session_partial env K p b1 w1 _ h1 (by rw [hf]; exact hns) hs
  have hrows : S.flushed.now.rows = S.now.rows := by
    simp only [Durable.flushed]
    split <;> rfl
  have fin : ∀ (bb : Block) (fs : FS) (S' : Durable), bb.basename = b.basename → HoldsD env K bb fs S' → Leaves env K S.flushed p S' →
      ∀ c, ∃ b' w', blockOpen env b.basename ⟨fs, noFaults, c⟩ = .ok (0, some b') w' ∧
      b'.size = S.now.size ∧ b'.nfile = S.now.nfile ∧
      attrView env.m b'.attrset = (if S.now.pending = true then S.now.attrs else S.now.saved) ∧
      ∀ r bytes, S.now.rows r = some bytes → p.Spares K r → row env.m fs b' r = bytes := by
    intro bb fs S' hb hh hl c
    obtain ⟨u1, u2, u3⟩ := C70_unflushed env K _ S' p hl hnf
    obtain ⟨b', w', e, g1, _, _, _, g5⟩ := C70_recover_partial env K bb ⟨fs, noFaults, c⟩ S' S.now.size S.now.nfile hh rfl u1
      (by
        rw [u2]
        show (S.attrsKnown || S.now.pending) = true
        rcases hk with hk | hk <;> rw [hk] <;> simp)
    rw [hb] at e
    rw [g1] at g5
    refine ⟨b', w', e, g5.size, g5.nfile, ?_, fun r bytes hr hsp => ?_⟩
    · refine (g5.attrs.trans u3).trans ?_
      simp only [Durable.flushed]
      split <;> rfl
    · refine (g5.rows r bytes ?_).2.1
      show (if r < S.now.size then S'.now.rows r else none) = some bytes
      rw [if_pos (h.rows r bytes hr).1, C70_untouched env K r _ S' p hl hsp, hrows]
      exact hr
  unfold wpc at key
  split at key
  · rename_i b2 w2 heq
    obtain ⟨hb2, S', hl, hh⟩ := key
    exact ⟨w2.fs, by rw [heq]; rfl, fin b2 w2.fs S' (hb2.trans hb) hh hl⟩
  · rename_i w2 heq
    obtain ⟨b2, S', hb2, hl, hh⟩ := key
    exact ⟨w2.fs, by rw [heq]; rfl, fin b2 w2.fs S' (hb2.trans hb) hh hl⟩
  · exact key.elim
  · exact key.elim

/-! ## Several processes -/

/-- **C89, the answers** (partial, as `C89_survives_partial`). When the program ends, handles and disk are in a state that
the answers that the processes got allow; when everything is killed, so is the disk. -/
theorem C89_answers_partial (env : Env) (K : Kind) (n : Nat) (p : MSession) : ∀ (H : Nat → Block) (w : World) (S : Durable),
    HoldsAllD env K n H w.fs S → NoSilent w.faults → p.Safe env K n S →
    (runMNoted env n H p).Withstands w
      (fun r w' => (r.2 0).basename = (H 0).basename ∧ w'.faults = w.faults ∧ SameOutside (H 0).basename w.fs w'.fs ∧
        ∃ S', WentAll env K n S p r.1 S' ∧ HoldsAllD env K n r.2 w'.fs S')
      (fun fs => SameOutside (H 0).basename w.fs fs ∧ ∃ b S', b.basename = (H 0).basename ∧ LeavesAll env K n S p S' ∧ HoldsD env K b fs S') := by
  induction p with
  | stop => intro H w S h _ _; exact ⟨rfl, rfl, .refl _ _, S, .stop S, h⟩
  | call op k ih =>
    intro H w S h hns hp
    unfold runMNoted
    apply Phases.withstands_bind
    apply Phases.withstands_mono (mop_may h hns op hp.1)
    · rintro ⟨x, H1⟩ w1 ⟨hf, hb, hout, S1, ho, h1⟩
      dsimp only at hb ho h1 ⊢
      apply Phases.withstands_bind
      apply Phases.withstands_mono (ih x H1 w1 S1 h1 (by rw [hf]; exact hns) (hp.2 x S1 ho))
      · rintro ⟨xs, H'⟩ w' ⟨g1, g0, go, S', g2, g3⟩
        rw [hb] at go
        exact ⟨g1.trans hb, g0.trans hf, hout.trans go, S', .step _ _ _ _ _ _ _ ho g2, g3⟩
      · rintro fs ⟨go, b, S', g1, g2, g3⟩
        rw [hb] at go
        exact ⟨hout.trans go, b, S', g1.trans hb, .step _ _ _ _ _ _ ho g2, g3⟩
    · rintro fs ⟨hout, S', b, g1, g2, g3⟩
      exact ⟨hout, b, S', g2, .killed _ _ _ _ g1, g3⟩

/-- **C89, no false success.** If one process saw no error code, the answers of all processes and the state are those of a run in which
nothing failed. -/
theorem C89_no_false_success (env : Env) (K : Kind) (n r : Nat) (hr : r < n) (S S' : Durable) (p : MSession) (xs : List (Nat → BAns))
    (h : WentAll env K n S p xs S') (hx : p.NoError r xs) : p.AsIf env K n xs S S' := by
  induction h with
  | stop S => rfl
  | step S S1 S' op x k xs ho _ ih =>
    obtain ⟨h1, h2⟩ := hx
    have bad : AllFailed n x → (∃ a, op = .attr a) ∨ (x r).rc = 0 → (∀ a, op ≠ .attr a) → False := by
      rintro ⟨e, he, hx⟩ (⟨a, rfl⟩ | h0) hn
      · exact hn a rfl
      · exact he ((hx r hr).symm.trans h0)
    cases ho with
    | done _ _ ha => exact ⟨ha, ih h2⟩
    | write _ _ _ _ _ _ _ e => exact (bad e h1 (by intro a h; cases h)).elim
    | read _ _ _ _ _ _ _ e => exact (bad e h1 (by intro a h; cases h)).elim
    | grow _ _ e => exact (bad e h1 (by intro a h; cases h)).elim
    | flush _ e => exact (bad e h1 (by intro a h; cases h)).elim
    | attrs _ e _ => exact (bad e h1 (by intro a h; cases h)).elim

theorem Spec.MSession.AsIf.kept {env : Env} {K : Kind} {n : Nat} (p : MSession) : ∀ {xs : List (Nat → BAns)} {S S' : Durable},
    p.AsIf env K n xs S S' → S.attrsKnown = true → S.whole = true → S'.attrsKnown = true ∧ S'.whole = true := by
  induction p with
  | stop =>
    intro xs S S' h h1 h2
    cases xs with
    | nil => have h : S' = S := h; rw [h]; exact ⟨h1, h2⟩
    | cons => exact h.elim
  | call op k ih =>
    intro xs S S' h h1 h2
    cases xs with
    | nil => exact h.elim
    | cons x xs =>
      refine ih x h.2 ?_ ?_
      · cases op with
        | flush => simp only [Durable.nextAll, Durable.flushed]; rw [h1]; rfl
        | write | read | grow | attr | reopen => exact h1
      · cases op with
        | flush => exact h2
        | write | read | grow | attr | reopen => exact h2

/-- **C89, if no answer is an error** (partial, as above). A block on disk holds `A`; `n` processes open it and run a program. If
one of them saw no error code, then, whatever happened to the file operations, the answers of all processes are the right ones, and
handles and disk are in the state that the operations should have produced. -/
theorem C89_all_well_partial (env : Env) (K : Kind) (n : Nat) (base : CStr) (fs : FS) (A : Content) (p : MSession)
    (h : OnDisk env K fs base A) (hz : (0 : Byte) ∉ base) (hn : 0 < n ∧ n < 2147483648)
    (hs : p.Safe env K n (Durable.opened A)) (c : Nat) :
    ∃ H w', mpiOpen env base ⟨fs, noFaults, c⟩ = .ok (0, some H) w' ∧ w'.fs = fs ∧ ∀ faults clock, NoSilent faults →
      (runMNoted env n H p).Withstands ⟨fs, faults, clock⟩
        (fun r w' => ∀ q, q < n → p.NoError q r.1 → ∃ S', p.AsIf env K n r.1 (Durable.opened A) S' ∧
          HoldsAllD env K n r.2 w'.fs S' ∧ S'.attrsKnown = true ∧ S'.whole = true)
        (fun _ => True) := by
  obtain ⟨b, w', e, hfs, _, hb, hd, hh⟩ := h.opens (w := ⟨fs, noFaults, c⟩) rfl
  have h0 := opened_holdsAllD (opened_holdsD hh hd h.1) hd (by rw [hb]; exact hz) hn
  refine ⟨mpiBroadcast env b, w', ?_, hfs, fun faults clock hns => ?_⟩
  · unfold mpiOpen
    simp only [bind, M.bind]
    rw [e]
    rfl
  · apply Phases.withstands_mono (C89_answers_partial env K n p _ ⟨fs, faults, clock⟩ _ h0 hns hs)
    · rintro r w1 ⟨_, _, _, S', g2, g3⟩ q hq hx
      have ha := C89_no_false_success env K n q hq _ S' p r.1 g2 hx
      exact ⟨S', ha, g3, ha.kept p rfl rfl⟩
    · intro _ _; trivial

/-- **C89, what was flushed stays** (partial, as above). The handles and the disk are in any state that a program may have reached by
failures or not; the processes flush, and if this answers 0 (and there are new attributes, or the stored ones are intact)
they go on with a program that does not flush. Whatever fails and whenever they are killed after the flush: any number of processes
can open the block and find the size, the files and the attributes of the moment of the flush, and every row that was known then and
was not written since. -/
theorem C89_flush_stays_partial (env : Env) (K : Kind) (n : Nat) (H : Nat → Block) (w : World) (S : Durable) (p : MSession)
    (h : HoldsAllD env K n H w.fs S) (hns : NoSilent w.faults) (hk : S.now.pending = true ∨ S.attrsKnown = true)
    (hs : p.Safe env K n S.flushed) (hnf : p.NoFlush) :
    (runMOp env n H .flush).Withstands w (fun y w1 => ∀ q, q < n → (y.1 q).rc = 0 →
      let Q : FS → Prop := fun fs => ∀ c n', 0 < n' ∧ n' < 2147483648 → ∃ H' w', mpiOpen env (H 0).basename ⟨fs, noFaults, c⟩ = .ok (0, some H') w' ∧
        ∀ r, r < n' → (H' r).size = S.now.size ∧ (H' r).nfile = S.now.nfile ∧
          attrView env.m (H' r).attrset = (if S.now.pending = true then S.now.attrs else S.now.saved) ∧
          ∀ i bytes, S.now.rows i = some bytes → p.Spares K n i → row env.m fs (H' r) i = bytes
      (runMSession env n y.2 p).Withstands w1 (fun _ w' => Q w'.fs) Q) (fun _ => True) := by
  have hz0 : (0 : Byte) ∉ (H 0).basename := by
    obtain ⟨hn0, _, bb, _, hz, _, _, k2⟩ := h
    rw [(k2 0 hn0).shape.base]
    exact hz
  have hlt : ∀ i bytes, S.now.rows i = some bytes → i < S.now.size := by
    obtain ⟨_, _, bb, k1, _⟩ := h
    exact fun i bytes hi => (k1.rows i bytes hi).1
  have hrows : S.flushed.now.rows = S.now.rows := by
    simp only [Durable.flushed]
    split <;> rfl
  refine Phases.withstands_mono (mop_may h hns .flush trivial) ?_ fun _ _ => trivial
  rintro ⟨x, H1⟩ w1 ⟨hf, hb, hout, S1, ho, h1⟩ q hq hx
  dsimp only at hb ho h1 hx ⊢
  have hS1 := ((C89_one_verdict env K n S S1 .flush x ho (by intro a h; cases h)).2 q hq hx).1
  have hS1 : S1 = S.flushed := hS1
  subst hS1
  have fin : ∀ (bb : Block) (fs : FS) (S' : Durable), bb.basename = (H 0).basename → HoldsD env K bb fs S' → LeavesAll env K n S.flushed p S' →
      ∀ c n', 0 < n' ∧ n' < 2147483648 → ∃ H' w', mpiOpen env (H 0).basename ⟨fs, noFaults, c⟩ = .ok (0, some H') w' ∧
        ∀ r, r < n' → (H' r).size = S.now.size ∧ (H' r).nfile = S.now.nfile ∧
          attrView env.m (H' r).attrset = (if S.now.pending = true then S.now.attrs else S.now.saved) ∧
          ∀ i bytes, S.now.rows i = some bytes → p.Spares K n i → row env.m fs (H' r) i = bytes := by
    intro bb fs S' hb hh hl c n' hn'
    obtain ⟨u1, u2, u3⟩ := C89_unflushed env K n _ S' p hl hnf
    obtain ⟨H', w', e, g1, _, _, ⟨_, _, b', g5, _, _, _, hm⟩, _⟩ := C89_recover_partial env K bb ⟨fs, noFaults, c⟩ S' S.now.size S.now.nfile hh rfl
      (by rw [hb]; exact hz0) u1
      (by
        rw [u2]
        show (S.attrsKnown || S.now.pending) = true
        rcases hk with hk | hk <;> rw [hk] <;> simp) n' hn'
    rw [hb] at e
    rw [g1] at g5
    refine ⟨H', w', e, fun r hr => ?_⟩
    have m := hm r hr
    refine ⟨m.shape.size.trans g5.size, m.shape.nfile.trans g5.nfile, ?_, fun i bytes hi hsp => ?_⟩
    · rw [m.view]
      refine (g5.attrs.trans u3).trans ?_
      simp only [Durable.flushed]
      split <;> rfl
    · rw [m.shape.row]
      refine (g5.rows i bytes ?_).2.1
      show (if i < S.now.size then S'.now.rows i else none) = some bytes
      rw [if_pos (hlt i bytes hi), C89_untouched env K n i _ S' p hl hsp, hrows]
      exact hi
  refine Phases.withstands_mono (C89_session_partial env K n p H1 w1 _ h1 (by rw [hf]; exact hns) hs) ?_ ?_
  · rintro H' w' ⟨g1, _, S', g2, hn0, _, bb, k1, _, _, _, k2⟩
    exact fin bb w'.fs S' ((k2 0 hn0).shape.base.symm.trans (g1.trans hb)) k1 g2
  · rintro fs ⟨_, b1, S', g1, g2, g3⟩
    exact fin b1 fs S' (g1.trans hb) g3 g2

/-! ## The example -/

/-- The codes that the example session gets on the example block with the given failures. -/
def exCodes (faults : Nat → Fault) : Option (List Int) :=
  match exCopySrc exTreeWorld with
  | .ok _ w =>
    match blockOpen exEnv b!"d/z" w with
    | .ok (_, some b) w1 =>
      match runNoted exEnv b exSession ⟨w1.fs, faults, 0⟩ with
      | .ok (xs, _) _ => some (xs.map BAns.rc)
      | _ => none
    | _ => none
  | _ => none

/-- Without failures there is no error code; a failing write, growing or flush is answered with one, and then the
session flushes a second time. -/
theorem exCodes_some : exCodes noFaults = some [0, 0, 0] ∧ exCodes (fun k => if k = 1 then .fail else .none) = some [-1, 0, 0] := by
  decide +kernel

/-- The hypotheses of `C70_all_well_partial` are met by the run without failures. -/
example : ∃ b w A xs b' w', Holds exEnv exKind b w.fs A ∧ b.dirty = false ∧ A.pending = false ∧ NoSilent w.faults ∧
    exSession.Safe exEnv exKind (Durable.opened A) ∧ runNoted exEnv b exSession w = .ok (xs, b') w' ∧ exSession.NoError xs ∧
    xs.length = 3 := by
  obtain ⟨w, e, hnf, _, h⟩ := exCopy_src
  obtain ⟨b, w1, e1, hfs, _, hb, hd, hh⟩ := h.opens (w := w) hnf
  have hc := exCodes_some.1
  unfold exCodes at hc
  rw [e] at hc
  dsimp only at hc
  rw [e1] at hc
  dsimp only at hc
  cases e2 : runNoted exEnv b exSession ⟨w1.fs, noFaults, 0⟩ with
  | ok r w' =>
    obtain ⟨xs, b'⟩ := r
    rw [e2] at hc
    have hc : xs.map BAns.rc = [0, 0, 0] := by injection hc
    refine ⟨b, ⟨w1.fs, noFaults, 0⟩, exCopyA, xs, b', w', by rw [hfs]; exact hh, hd, h.1, fun t n => by simp [noFaults], exSession_safe, e2, ?_, ?_⟩
    · have hl : xs.length = 3 := by simpa using congrArg List.length hc
      obtain ⟨x, y, z, rfl⟩ : ∃ x y z, xs = [x, y, z] := by
        obtain ⟨x, xs, rfl⟩ := List.exists_cons_of_length_eq_add_one hl
        obtain ⟨y, xs, rfl⟩ := List.exists_cons_of_length_eq_add_one (Nat.succ.inj hl)
        obtain ⟨z, xs, rfl⟩ := List.exists_cons_of_length_eq_add_one (Nat.succ.inj (Nat.succ.inj hl))
        rw [List.length_eq_zero_iff.mp (Nat.succ.inj (Nat.succ.inj (Nat.succ.inj hl)))]
        exact ⟨x, y, z, rfl⟩
      · simp only [List.map_cons, List.map_nil, List.cons.injEq] at hc
        refine ⟨.inr hc.1, .inr hc.2.1, .inr hc.2.2.1, ?_⟩
        show Session.NoError (if z.rc = 0 then .stop else _) []
        rw [if_pos hc.2.2.1]
        trivial
    · have := congrArg List.length hc
      simpa using this
  | crash w' => rw [e2] at hc; cases hc
  | ub => rw [e2] at hc; cases hc
  | hang => rw [e2] at hc; cases hc

/-- The hypotheses of `C70_flush_stays_partial` and `C89_flush_stays_partial` on the states: a block to which rows were written. -/
example : (Durable.opened exCopyA).attrsKnown = true ∧
    Session.Safe exEnv exKind (.call (.write 1 exSrc exMem 8) fun _ => .stop) (Durable.opened exCopyA).flushed ∧
    Session.NoFlush (.call (.write 1 exSrc exMem 8) fun _ => .stop) ∧
    exMQuiet.Safe exEnv exKind 3 (Durable.opened exCopyA).flushed ∧ exMQuiet.NoFlush := by
  refine ⟨rfl, ⟨⟨by decide, exSrc_array, fun h => absurd h (by decide), fun _ => by decide +kernel⟩, fun _ _ _ => trivial⟩,
    ⟨trivial, fun _ => trivial⟩, ⟨⟨by decide, by decide, by decide, ?_⟩, fun x S1 h1 => ⟨?_, fun _ _ _ => trivial⟩⟩,
    ⟨trivial, fun _ => ⟨trivial, fun _ => trivial⟩⟩⟩
  · intro r hr
    match r, hr with
    | 0, _ => exact ⟨⟨by decide, by decide, by decide, fun _ => exSrc_array⟩, fun h => absurd h (by decide), by decide +kernel⟩
    | 1, _ => exact ⟨⟨by decide, by decide, by decide, fun h => absurd h (by decide)⟩, fun h => absurd h (by decide), by decide⟩
    | 2, _ => exact ⟨⟨by decide, by decide, by decide, fun h => absurd h (by decide)⟩, fun h => absurd h (by decide), by decide⟩
  · have h5 : S1.now.size = 5 ∧ S1.now.nfile = 3 := by
      cases h1 with
      | done _ _ _ => exact ⟨rfl, rfl⟩
      | write _ _ _ _ _ _ _ _ => exact ⟨rfl, rfl⟩
    show S1.now.size + 4 < _ ∧ (S1.now.size + 4) * (4 * 1) < _ ∧ S1.now.nfile + 1 ≤ _
    rw [h5.1, h5.2]
    decide

end Verif
