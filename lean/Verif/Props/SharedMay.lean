import Verif.Proof.SharedMay
import Verif.Props.Durable
import Verif.Props.Shared
/-!
# C89: a shared block while file operations fail

Several processes work together on an open block. File operations of any of them may fail, be cut short or lose their data at any time, and the
processes may be killed at any moment. Every operation returns on all processes, with the same verdict, and what is left on
disk can be used again by any number of processes.
-/

set_option autoImplicit false

namespace Verif

open Spec

/-! ## A session -/

/-- **C89** (partial: see `C70_survives_partial` for the conditions on rows, attributes and files; the flushes of process 0
must not lose buffered data without an error; arrays that are read to can take any bytes). The handles of `n` processes and the disk are in
the state `S`; a collective program that uses the block as it should runs on them. Whatever fails and in whatever order the
processes work, no process crashes or waits for ever, and nothing but files of the block changes; when the program ends, handles and disk are in a state that
the outcomes of its operations allow; and when everything is killed at any moment, so is the disk. -/
theorem C89_session_partial (env : Env) (K : Kind) (n : Nat) (p : MSession) : ∀ (H : Nat → Block) (w : World) (S : Durable),
    HoldsAllD env K n H w.fs S → NoSilent w.faults → p.Safe env K n S →
    (runMSession env n H p).Withstands w
      (fun H' w' => (H' 0).basename = (H 0).basename ∧ SameOutside (H 0).basename w.fs w'.fs ∧
        ∃ S', LeavesAll env K n S p S' ∧ HoldsAllD env K n H' w'.fs S')
      (fun fs => SameOutside (H 0).basename w.fs fs ∧ ∃ b S', b.basename = (H 0).basename ∧ LeavesAll env K n S p S' ∧ HoldsD env K b fs S') := by
  induction p with
  | stop => intro H w S h _ _; exact ⟨rfl, .refl _ _, S, .stop S, h⟩
  | call op k ih =>
    intro H w S h hns hp
    unfold runMSession
    apply Phases.withstands_bind
    apply Phases.withstands_mono (mop_may h hns op hp.1)
    · rintro ⟨x, H1⟩ w1 ⟨hf, hb, hout, S1, ho, h1⟩
      dsimp only at hb ho h1 ⊢
      apply Phases.withstands_mono (ih x H1 w1 S1 h1 (by rw [hf]; exact hns) (hp.2 x S1 ho))
      · rintro H' w' ⟨g1, g0, S', g2, g3⟩
        rw [hb] at g0
        exact ⟨g1.trans hb, hout.trans g0, S', .step _ _ _ _ _ _ ho g2, g3⟩
      · rintro fs ⟨g0, b, S', g1, g2, g3⟩
        rw [hb] at g0
        exact ⟨hout.trans g0, b, S', g1.trans hb, .step _ _ _ _ _ _ ho g2, g3⟩
    · rintro fs ⟨hout, S', b, g1, g2, g3⟩
      exact ⟨hout, b, S', g2, .killed _ _ _ _ g1, g3⟩

/-- A block that several processes have just opened. -/
theorem opened_holdsAllD {env : Env} {K : Kind} {b : Block} {fs : FS} {S : Durable} (h : HoldsD env K b fs S) (hd : b.dirty = false)
    (hz : (0 : Byte) ∉ b.basename) {n : Nat} (hn : 0 < n ∧ n < 2147483648) : HoldsAllD env K n (mpiBroadcast env b) fs S := by
  refine ⟨hn.1, hn.2, b, h, hz, (fun h0 => by rw [hd] at h0; cases h0), ?_, fun r _ =>
    (mate_broadcast h.ok.layout hz h.savable.base h.savable.attrs r).mateD⟩
  unfold mpiBroadcast
  rw [if_pos rfl]

/-- What a later collective open finds. -/
theorem C89_recover_partial (env : Env) (K : Kind) (bb : Block) (w : World) (S : Durable) (m k : Nat)
    (h : HoldsD env K bb w.fs S) (hnf : w.faults = noFaults) (hz : (0 : Byte) ∉ bb.basename) (hst : S.stored = some (m, k))
    (hk : S.attrsKnown = true) (n : Nat) (hn : 0 < n ∧ n < 2147483648) :
    ∃ H w', mpiOpen env bb.basename w = .ok (0, some H) w' ∧ w'.fs = w.fs ∧ w'.faults = noFaults ∧ (H 0).basename = bb.basename ∧
      HoldsAllD env K n H w'.fs ⟨S.recovered m k, some (m, k), true, S.whole⟩ ∧
      (S.whole = true → HoldsAll env K n H w'.fs (S.recovered m k)) := by
  obtain ⟨b, w', e, g1, g2, g3, g4, g5⟩ := C70_recover_partial env K bb w S m k h hnf hst hk
  refine ⟨mpiBroadcast env b, w', ?_, g1, g2, ?_, opened_holdsAllD g5 g4 (by rw [g3]; exact hz) hn, fun hw => ?_⟩
  · unfold mpiOpen
    simp only [bind, M.bind]
    rw [e]
    rfl
  · unfold mpiBroadcast
    rw [if_pos rfl, g3]
  · refine ⟨hn.1, hn.2, b, g5.holds rfl hw, by rw [g3]; exact hz, (fun h0 => by rw [g4] at h0; cases h0), fun r _ => ?_⟩
    exact mate_broadcast g5.ok.layout (by rw [g3]; exact hz) g5.savable.base g5.savable.attrs r

/-- The disk is in a state that the program may leave behind; if in this state the header file records `m` rows in `k` files
and the attribute file is not damaged, any number of processes can open the block and find the first `m` rows as they were
written and the stored attributes; and if no growing failed, their handles hold that content in the sense of `C71`. -/
def FoundAgain (env : Env) (K : Kind) (n : Nat) (base : CStr) (S : Durable) (p : MSession) (fs : FS) : Prop :=
  ∃ S', LeavesAll env K n S p S' ∧ ∀ m k, S'.stored = some (m, k) → S'.attrsKnown = true → ∀ c n', 0 < n' ∧ n' < 2147483648 →
    ∃ H' w', mpiOpen env base ⟨fs, noFaults, c⟩ = .ok (0, some H') w' ∧ w'.fs = fs ∧
      HoldsAllD env K n' H' fs ⟨S'.recovered m k, some (m, k), true, S'.whole⟩ ∧
      (S'.whole = true → HoldsAll env K n' H' fs (S'.recovered m k))

/-- **C89** (partial, as above). A block on disk holds `A`. Any number of processes can open it together, run a program that
uses the block as it should while anything fails, and stop or be killed at any moment: the block is found again, and nothing else has
changed. -/
theorem C89_survives_partial (env : Env) (K : Kind) (n : Nat) (base : CStr) (fs : FS) (A : Content) (p : MSession)
    (h : OnDisk env K fs base A) (hz : (0 : Byte) ∉ base) (hn : 0 < n ∧ n < 2147483648)
    (hs : p.Safe env K n (Durable.opened A)) (c : Nat) :
    ∃ H w', mpiOpen env base ⟨fs, noFaults, c⟩ = .ok (0, some H) w' ∧ w'.fs = fs ∧ ∀ faults clock, NoSilent faults →
      (runMSession env n H p).Withstands ⟨fs, faults, clock⟩
        (fun _ w' => SameOutside base fs w'.fs ∧ FoundAgain env K n base (Durable.opened A) p w'.fs)
        (fun fs' => SameOutside base fs fs' ∧ FoundAgain env K n base (Durable.opened A) p fs') := by
  have fin : ∀ (bb : Block) (fs : FS) (S' : Durable), bb.basename = base → HoldsD env K bb fs S' →
      LeavesAll env K n (Durable.opened A) p S' → FoundAgain env K n base (Durable.opened A) p fs := by
    intro bb fs S' hb hh hl
    refine ⟨S', hl, fun m k h1 h2 c n' hn' => ?_⟩
    obtain ⟨H', w', e, g1, _, _, g4, g5⟩ := C89_recover_partial env K bb ⟨fs, noFaults, c⟩ S' m k hh rfl (by rw [hb]; exact hz) h1 h2 n' hn'
    rw [hb] at e
    rw [g1] at g4 g5
    exact ⟨H', w', e, g1, g4, g5⟩
  obtain ⟨b, w', e, hfs, _, hb, hd, hh⟩ := h.opens (w := ⟨fs, noFaults, c⟩) rfl
  have h0 := opened_holdsAllD (opened_holdsD hh hd h.1) hd (by rw [hb]; exact hz) hn
  refine ⟨mpiBroadcast env b, w', ?_, hfs, fun faults clock hns => ?_⟩
  · unfold mpiOpen
    simp only [bind, M.bind]
    rw [e]
    rfl
  · have hb0 : (mpiBroadcast env b 0).basename = base := by
      unfold mpiBroadcast
      rw [if_pos rfl, hb]
    apply Phases.withstands_mono (C89_session_partial env K n p _ ⟨fs, faults, clock⟩ _ h0 hns hs)
    · rintro H' w1 ⟨g1, g0, S', g2, g3⟩
      obtain ⟨hn0, _, bb, k1, _, _, _, k2⟩ := g3
      rw [hb0] at g0
      refine ⟨g0, ?_⟩
      exact fin bb w1.fs S' ((k2 0 hn0).shape.base.symm.trans (g1.trans hb0)) k1 g2
    · rintro fs1 ⟨g0, b1, S', g1, g2, g3⟩
      rw [hb0] at g0
      refine ⟨g0, ?_⟩
      exact fin b1 fs1 S' (g1.trans hb0) g3 g2

/-! ## Consequences for a user -/

/-- **C89, untouched rows.** A row that the program does not write keeps its content, whatever fails and whenever the
processes are killed. -/
theorem C89_untouched (env : Env) (K : Kind) (n q : Nat) (S S' : Durable) (p : MSession) (h : LeavesAll env K n S p S')
    (hp : p.Spares K n q) : S'.now.rows q = S.now.rows q := by
  induction h with
  | stop S => rfl
  | killed S S' op k hk =>
    cases hk with
    | write =>
      have := hp.1
      simp only [Content.forget]
      rw [if_neg this]
    | read | grow | attr | flush | attrs _ => rfl
  | step S S1 S' op x k ho hl ih =>
    rw [ih (hp.2 x)]
    have h1 := hp.1
    cases ho with
    | done _ _ _ =>
      cases op with
      | write =>
        simp only [Durable.nextAll, Content.nextAll]
        rw [if_neg h1]
      | read => rfl
      | grow => rfl
      | attr => rfl
      | flush =>
        simp only [Durable.nextAll, Durable.flushed]
        split <;> rfl
      | reopen => exact h1.elim
    | write =>
      simp only [Content.forget]
      rw [if_neg h1]
    | read | grow | flush | attrs => rfl

/-- **C89, without a flush** header and attributes on disk stay as they were. -/
theorem C89_unflushed (env : Env) (K : Kind) (n : Nat) (S S' : Durable) (p : MSession) (h : LeavesAll env K n S p S') (hp : p.NoFlush) :
    S'.stored = S.stored ∧ S'.attrsKnown = S.attrsKnown ∧ S'.now.saved = S.now.saved := by
  induction h with
  | stop S => exact ⟨rfl, rfl, rfl⟩
  | killed S S' op k hk =>
    cases hk with
    | write | read | grow | attr => exact ⟨rfl, rfl, rfl⟩
    | flush | attrs => exact hp.1.elim
  | step S S1 S' op x k ho hl ih =>
    obtain ⟨i1, i2, i3⟩ := ih (hp.2 x)
    rw [i1, i2, i3]
    have h1 := hp.1
    cases ho with
    | done _ _ _ =>
      cases op with
      | write | read | grow | attr => exact ⟨rfl, rfl, rfl⟩
      | flush => exact h1.elim
      | reopen => exact h1.elim
    | write | read | grow => exact ⟨rfl, rfl, rfl⟩
    | flush | attrs => exact h1.elim

/-- **C89, old data.** A program that does not flush, whatever it does, whatever fails and whenever it is killed: any number of
processes can open the block again and find the old size, the old attributes and every old row that it did not write. -/
theorem C89_old_data_partial (env : Env) (K : Kind) (n : Nat) (base : CStr) (fs : FS) (A : Content) (p : MSession)
    (h : OnDisk env K fs base A) (hz : (0 : Byte) ∉ base) (hn : 0 < n ∧ n < 2147483648)
    (hs : p.Safe env K n (Durable.opened A)) (hnf : p.NoFlush) (c : Nat) :
    ∃ H w', mpiOpen env base ⟨fs, noFaults, c⟩ = .ok (0, some H) w' ∧ w'.fs = fs ∧ ∀ faults clock, NoSilent faults →
      let Q : FS → Prop := fun fs' => ∀ c n', 0 < n' ∧ n' < 2147483648 → ∃ H' w', mpiOpen env base ⟨fs', noFaults, c⟩ = .ok (0, some H') w' ∧
        ∀ r, r < n' → (H' r).size = A.size ∧ (H' r).nfile = A.nfile ∧ attrView env.m (H' r).attrset = A.attrs ∧
          ∀ q bytes, A.rows q = some bytes → p.Spares K n q → row env.m fs' (H' r) q = bytes
      (runMSession env n H p).Withstands ⟨fs, faults, clock⟩ (fun _ w' => Q w'.fs) Q := by
  obtain ⟨H, w', e, hfs, hrun⟩ := C89_survives_partial env K n base fs A p h hz hn hs c
  refine ⟨H, w', e, hfs, fun faults clock hns => ?_⟩
  have hold : ∀ fs', FoundAgain env K n base (Durable.opened A) p fs' → ∀ c n', 0 < n' ∧ n' < 2147483648 →
      ∃ H' w', mpiOpen env base ⟨fs', noFaults, c⟩ = .ok (0, some H') w' ∧
        ∀ r, r < n' → (H' r).size = A.size ∧ (H' r).nfile = A.nfile ∧ attrView env.m (H' r).attrset = A.attrs ∧
          ∀ q bytes, A.rows q = some bytes → p.Spares K n q → row env.m fs' (H' r) q = bytes := by
    rintro fs' ⟨S', hl, hf⟩ c n' hn'
    obtain ⟨u1, u2, u3⟩ := C89_unflushed env K n _ S' p hl hnf
    obtain ⟨H', w1, e1, _, ⟨_, _, bb, hh, _, _, _, hm⟩, _⟩ := hf A.size A.nfile u1 u2 c n' hn'
    refine ⟨H', w1, e1, fun r hr => ?_⟩
    have m := hm r hr
    refine ⟨m.shape.size.trans hh.size, m.shape.nfile.trans hh.nfile, ?_, fun q bytes hq hsp => ?_⟩
    · rw [m.view, hh.attrs]
      exact u3.trans h.2.1
    · rw [m.shape.row]
      refine (hh.rows q bytes ?_).2.1
      obtain ⟨_, _, b, _, _, hb⟩ := h
      show (if q < A.size then S'.now.rows q else none) = some bytes
      rw [if_pos (hb.rows q bytes hq).1, C89_untouched env K n q _ S' p hl hsp]
      exact hq
  exact Phases.withstands_mono (hrun faults clock hns) (fun _ w1 hw => hold w1.fs hw.2) (fun fs' hf => hold fs' hf.2)

/-- **C89, one verdict.** Every collective operation that transfers, grows or flushes gives all processes the same code; and it is 0
only if the work was done. -/
theorem C89_one_verdict (env : Env) (K : Kind) (n : Nat) (S S' : Durable) (op : MOp) (x : Nat → BAns)
    (h : S.OutcomeAll env K n op x S') (ha : ∀ a, op ≠ .attr a) :
    (∃ e : Int, ∀ r, r < n → (x r).rc = e) ∧ (∀ r, r < n → (x r).rc = 0 → S' = S.nextAll env K n op ∧ S.now.answersAll env K n op x) := by
  have bad : AllFailed n x → (∃ e : Int, ∀ r, r < n → (x r).rc = e) ∧ ∀ r, r < n → (x r).rc = 0 → False := by
    rintro ⟨e, he, hx⟩
    exact ⟨⟨e, hx⟩, fun r hr h0 => he ((hx r hr).symm.trans h0)⟩
  cases h with
  | done _ _ hx =>
    refine ⟨⟨0, fun r hr => ?_⟩, fun r _ _ => ⟨rfl, hx⟩⟩
    have := hx r hr
    cases op with
    | write => exact this.1
    | read => exact this.1
    | attr a => exact absurd rfl (ha a)
    | grow => exact this
    | flush => exact this
    | reopen => exact this
  | write _ _ _ _ _ _ _ hx => exact ⟨(bad hx).1, fun r hr h0 => ((bad hx).2 r hr h0).elim⟩
  | read _ _ _ _ _ _ _ hx => exact ⟨(bad hx).1, fun r hr h0 => ((bad hx).2 r hr h0).elim⟩
  | grow _ _ hx => exact ⟨(bad hx).1, fun r hr h0 => ((bad hx).2 r hr h0).elim⟩
  | flush _ hx => exact ⟨(bad hx).1, fun r hr h0 => ((bad hx).2 r hr h0).elim⟩
  | attrs _ hx _ => exact ⟨(bad hx).1, fun r hr h0 => ((bad hx).2 r hr h0).elim⟩

/-! ## What is wrong after a failure -/

/-- After a collective flush that failed, process 0 keeps the sums of the checksums of all processes, and each other process
still has its own: the next flush adds them a second time. -/
theorem C89_retry_checksums (env : Env) (n : Nat) (H H' : Nat → Block) (w w' : World) (rc : Int)
    (h : mpiFlush env n H w = .ok (rc, H') w') (hrc : rc ≠ 0) (f : Nat) (hf : f < (H 0).nfile) (hn : 0 < n) :
    (reducedChecksums n H').getD f 0 =
      (((List.range n).map fun r => (H r).fchecksum.getD f 0).sum +
        ((List.range n).tail.map fun r => (H r).fchecksum.getD f 0).sum) % 4294967296 := by
  have any : ∀ {α : Type} (m : M α) (w : World), wlp m w (fun _ _ => True) (fun _ => True) := by
    intro α m w
    unfold wlp
    cases m w <;> trivial
  have hkeep : wlp (blockFlush env (reducedRoot n H)) w
      (fun r _ => r.2.fchecksum = (reducedRoot n H).fchecksum ∧ r.2.nfile = (reducedRoot n H).nfile) (fun _ => True) := by
    unfold blockFlush
    rw [wlp_bind]
    have hh : wlp (flushHeader (reducedRoot n H)) w
        (fun r _ => r.2.fchecksum = (reducedRoot n H).fchecksum ∧ r.2.nfile = (reducedRoot n H).nfile) (fun _ => True) := by
      unfold flushHeader
      split
      · rw [wlp_bind]
        refine wlp_mono (any _ _) (fun ok w1 _ => ?_) fun _ h => h
        split
        · rw [wlp_bind]
          refine wlp_mono (any _ _) (fun ok w1 _ => ?_) fun _ h => h
          split <;> exact ⟨rfl, rfl⟩
        · exact ⟨rfl, rfl⟩
      · exact ⟨rfl, rfl⟩
    refine wlp_mono hh (fun r w1 hr => ?_) fun _ h => h
    obtain ⟨ok, b⟩ := r
    dsimp only at hr ⊢
    split
    · exact hr
    · split
      · rw [wlp_bind]
        refine wlp_mono (any _ _) (fun y w1 _ => ?_) fun _ h => h
        obtain ⟨rc, s⟩ := y
        dsimp only
        split <;> exact hr
      · exact hr
  unfold mpiFlush at h
  simp only [bind, M.bind] at h
  cases e : blockFlush env (reducedRoot n H) w with
  | ok x w1 =>
    obtain ⟨rc1, b⟩ := x
    obtain ⟨k1, k2⟩ := wlp_ok hkeep e
    rw [e] at h
    dsimp only at h k1 k2
    by_cases h0 : rc1 ≠ 0
    · rw [if_pos h0] at h
      injection h with h _
      injection h with _ h
      subst h
      have e0 : ∀ l : List Nat, 0 ∉ l →
          (l.map fun r => (if r = 0 then b else H r).fchecksum.getD f 0) = l.map fun r => (H r).fchecksum.getD f 0 := by
        intro l hl
        apply List.map_congr_left
        intro r hr
        rw [if_neg (fun (h : r = 0) => hl (h ▸ hr))]
      obtain ⟨n, rfl⟩ : ∃ k, n = k + 1 := ⟨n - 1, by omega⟩
      have hck : b.fchecksum.getD f 0 = (((List.range (n + 1)).map fun r => (H r).fchecksum.getD f 0).sum) % 4294967296 := by
        rw [k1]
        show (reducedChecksums (n + 1) H).getD f 0 = _
        unfold reducedChecksums
        rw [List.getD_eq_getElem?_getD, List.getElem?_map, List.getElem?_range hf]
        rfl
      have hb : f < b.nfile := by rw [k2]; exact hf
      unfold reducedChecksums
      rw [List.getD_eq_getElem?_getD, List.getElem?_map, List.getElem?_range (by simpa using hb)]
      have hr : List.range (n + 1) = 0 :: (List.range (n + 1)).tail := by
        rw [List.range_succ_eq_map]
        rfl
      have h0t : 0 ∉ (List.range (n + 1)).tail := by
        rw [List.range_succ_eq_map]
        simp
      show (((List.range (n + 1)).map fun r => (if r = 0 then b else H r).fchecksum.getD f 0).sum) % 4294967296 = _
      have hsum : ((List.range (n + 1)).map fun r => (if r = 0 then b else H r).fchecksum.getD f 0).sum =
          b.fchecksum.getD f 0 + ((List.range (n + 1)).tail.map fun r => (H r).fchecksum.getD f 0).sum := by
        rw [← e0 _ h0t]
        generalize ht : (List.range (n + 1)).tail = t at hr
        rw [hr, List.map_cons, List.sum_cons, if_pos rfl]
      rw [hsum, hck, Nat.mod_add_mod]
    · rw [if_neg h0] at h
      injection h with h _
      injection h with h _
      exact absurd h.symm hrc
  | crash w1 => rw [e] at h; cases h
  | ub => rw [e] at h; cases h
  | hang => rw [e] at h; cases h

/-- Two processes; process 0 has added up 3 for the first file, process 1 has added up 5. -/
def exTwoH (r : Nat) : Block := { exB with dirty := true, fchecksum := if r = 0 then [3, 0, 0] else [5, 0, 0] }

/-- They flush while opening the header file fails, and flush again; the two codes, and the checksums that a later open finds. -/
def exTwice : Option (Int × Int × List Nat) :=
  match mpiFlush exEnv 2 exTwoH ⟨exW.fs, fun k => if k = 0 then .fail else .none, 0⟩ with
  | .ok (r1, H1) w1 =>
    match mpiFlush exEnv 2 H1 { w1 with faults := noFaults } with
    | .ok (r2, _) w2 =>
      match blockOpen exEnv exB.basename w2 with
      | .ok (_, some b3) _ => some (r1, r2, b3.fchecksum)
      | _ => none
    | _ => none
  | _ => none

/-- **The checksums in the header are wrong after a flush that was repeated**: 13 = 8 + 5 instead of 8, although the second
flush reports success. -/
theorem C89_retry_wrong_checksums : exTwice = some (-1, 0, [13, 0, 0]) := by decide +kernel

/-! ## The example -/

/-- What three processes read: three rows, two rows, none. -/
def exDsts3 (r : Nat) : Arr := if r = 0 then exDst else if r = 1 then exPairDst else exNone

/-- Three processes write five rows; if that worked they read them; they add a file and flush; if that failed they flush
again. -/
def exMSession : MSession :=
  .call (.write 0 exArrs (fun _ => exMem) (fun _ => 8) 2 1) fun x =>
    if (x 0).rc = 0 then .call (.read 0 exDsts3 (fun _ => exMem) (fun _ => 4) 1 100) fun _ => tail
    else tail
where
  tail : MSession := .call (.grow [4]) fun _ => .call .flush fun z => if (z 0).rc = 0 then .stop else .call .flush fun _ => .stop

theorem exMSession_tail {S : Durable} (h : S.now.size = 5 ∧ S.now.nfile = 3) : exMSession.tail.Safe exEnv exKind 3 S := by
  refine ⟨?_, fun y S2 _ => ⟨trivial, fun z S3 _ => ?_⟩⟩
  · show S.now.size + 4 < _ ∧ (S.now.size + 4) * (4 * 1) < _ ∧ S.now.nfile + 1 ≤ _
    rw [h.1, h.2]
    decide
  · show MSession.Safe exEnv exKind 3 (if (z 0).rc = 0 then .stop else .call .flush fun _ => .stop) S3
    split
    · trivial
    · exact ⟨trivial, fun _ _ _ => trivial⟩

theorem exMSession_safe : exMSession.Safe exEnv exKind 3 (Durable.opened exCopyA) := by
  have hrows : ∀ i < 5, (if 0 ≤ i ∧ i < 0 + rowsBefore (rowsOf exKind exArrs) 3 then
      some ((gathered exEnv exKind 3 exArrs (fun _ => exMem) (fun _ => 8)).getD (i - 0) []) else exCopyA.rows i).isSome = true ∧
      ∀ j < 1, (fromBlock exEnv exKind exDst ((gathered exEnv exKind 3 exArrs (fun _ => exMem) (fun _ => 8)).getD (i - 0) []) j).isSome = true ∧
        (fromBlock exEnv exKind exPairDst ((gathered exEnv exKind 3 exArrs (fun _ => exMem) (fun _ => 8)).getD (i - 0) []) j).isSome = true := by
    decide +kernel
  refine ⟨⟨by decide, by decide, by decide, ?_⟩, fun x S1 h1 => ?_⟩
  · intro r hr
    match r, hr with
    | 0, _ => exact ⟨⟨by decide, by decide, by decide, fun _ => exSrc_array⟩, fun h => absurd h (by decide), by decide +kernel⟩
    | 1, _ => exact ⟨⟨by decide, by decide, by decide, fun h => absurd h (by decide)⟩, fun h => absurd h (by decide), by decide⟩
    | 2, _ => exact ⟨⟨by decide, by decide, by decide, fun _ => exPair_array⟩, fun h => absurd h (by decide), by decide +kernel⟩
  · show MSession.Safe exEnv exKind 3 (if (x 0).rc = 0 then _ else exMSession.tail) S1
    split
    · rename_i h0
      have hS := (C89_one_verdict _ _ _ _ _ _ _ h1 (by simp)).2 0 (by decide) h0
      obtain ⟨rfl, _⟩ := hS
      refine ⟨⟨⟨by decide, by decide, by decide, ?_⟩, ?_⟩, fun y S2 h2 => ?_⟩
      · intro r hr
        match r, hr with
        | 0, _ =>
          refine ⟨⟨by decide, by decide, by decide, fun _ => exDst_array⟩, exDst_disjoint, by decide, fun i hi => ?_⟩
          have hi : i < 3 := hi
          obtain ⟨h1, h2⟩ := hrows i (by omega)
          have hlt : 0 + rowsBefore (rowsOf exKind exDsts3) 0 + i < 0 + rowsBefore (rowsOf exKind exArrs) 3 := by
            show 0 + 0 + i < 0 + 5; omega
          refine ⟨_, if_pos ⟨Nat.zero_le _, hlt⟩, fun j hj => ?_⟩
          have := (h2 j hj).1
          rw [show 0 + rowsBefore (rowsOf exKind exDsts3) 0 + i - 0 = i - 0 by show 0 + 0 + i - 0 = _; omega]
          exact this
        | 1, _ =>
          refine ⟨⟨by decide, by decide, by decide, fun _ => exPairDst_array⟩, exPairDst_disjoint, by decide, fun i hi => ?_⟩
          have hi : i < 2 := hi
          obtain ⟨h1, h2⟩ := hrows (3 + i) (by omega)
          have hlt : 0 + rowsBefore (rowsOf exKind exDsts3) 1 + i < 0 + rowsBefore (rowsOf exKind exArrs) 3 := by
            show 0 + 3 + i < 0 + 5; omega
          refine ⟨_, if_pos ⟨Nat.zero_le _, hlt⟩, fun j hj => ?_⟩
          have := (h2 j hj).2
          rw [show 0 + rowsBefore (rowsOf exKind exDsts3) 1 + i - 0 = 3 + i - 0 by show 0 + 3 + i - 0 = _; omega]
          exact this
        | 2, _ =>
          exact ⟨⟨by decide, by decide, by decide, fun h => absurd h (by decide)⟩, fun i j hi => absurd hi (by show ¬ i < 0; omega),
            fun h => absurd h (by decide), fun i hi => absurd hi (by show ¬ i < 0; omega)⟩
      · intro r hr h0 bs _
        match r, hr with
        | 0, _ => exact ⟨_, rfl⟩
        | 1, _ => exact ⟨_, rfl⟩
        | 2, _ => exact absurd h0 (by decide)
      · apply exMSession_tail
        cases h2 with
        | done _ _ _ => exact ⟨rfl, rfl⟩
        | read _ _ _ _ _ _ _ _ => exact ⟨rfl, rfl⟩
    · apply exMSession_tail
      cases h1 with
      | done _ _ _ => exact ⟨rfl, rfl⟩
      | write _ _ _ _ _ _ _ _ => exact ⟨rfl, rfl⟩

/-- The hypotheses of `C89_survives_partial` are met. -/
example : ∃ fs, OnDisk exEnv exKind fs b!"d/z" exCopyA ∧ ∃ H w', mpiOpen exEnv b!"d/z" ⟨fs, noFaults, 0⟩ = .ok (0, some H) w' ∧
    ∀ faults clock, NoSilent faults → (runMSession exEnv 3 H exMSession).Withstands ⟨fs, faults, clock⟩
      (fun _ w' => SameOutside b!"d/z" fs w'.fs ∧ FoundAgain exEnv exKind 3 b!"d/z" (Durable.opened exCopyA) exMSession w'.fs)
      (fun fs' => SameOutside b!"d/z" fs fs' ∧ FoundAgain exEnv exKind 3 b!"d/z" (Durable.opened exCopyA) exMSession fs') := by
  obtain ⟨w, _, _, _, h⟩ := exCopy_src
  obtain ⟨H, w', e, _, g⟩ := C89_survives_partial exEnv exKind 3 b!"d/z" w.fs exCopyA exMSession h (by decide) ⟨by decide, by decide⟩ exMSession_safe 0
  exact ⟨w.fs, h, H, w', e, g⟩

/-- Without its flushes it is a session for `C89_old_data_partial`; it writes rows 1 to 3 and spares the others. -/
def exMQuiet : MSession :=
  .call (.write 1 (fun r => if r = 0 then exSrc else exNone) (fun _ => exMem) (fun _ => 8) 2 1) fun _ => .call (.grow [4]) fun _ => .stop

example : exMQuiet.NoFlush ∧ exMQuiet.Spares exKind 3 0 ∧ exMQuiet.Spares exKind 3 4 ∧ ¬ exMQuiet.Spares exKind 3 2 ∧
    (exCopyA.rows 0).isSome = true ∧ (exCopyA.rows 4).isSome = true := by
  refine ⟨⟨trivial, fun _ => ⟨trivial, fun _ => trivial⟩⟩, ⟨by decide, fun _ => ⟨trivial, fun _ => trivial⟩⟩,
    ⟨by decide, fun _ => ⟨trivial, fun _ => trivial⟩⟩, fun h => absurd h.1 (by decide), by decide +kernel, by decide +kernel⟩

end Verif
