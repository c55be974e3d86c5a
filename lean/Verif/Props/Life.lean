import Verif.Spec.Life
import Verif.Props.Went
/-!
# C105: the life of a block through sessions that fail and are killed
-/

set_option autoImplicit false

namespace Verif

open Verif.Spec

/-! ## What an answered session may lead to is something that it may leave behind -/

theorem Spec.Went.leaves {env : Env} {K : Kind} {S S' : Durable} {p : Session} {xs : List BAns} (h : Went env K S p xs S') :
    Leaves env K S p S' := by
  induction h with
  | stop S => exact .stop S
  | step S S1 S' op x k xs ho _ ih => exact .step S S1 S' op x k ho ih

theorem Spec.WentAll.leaves {env : Env} {K : Kind} {n : Nat} {S S' : Durable} {p : MSession} {xs : List (Nat → BAns)}
    (h : WentAll env K n S p xs S') : LeavesAll env K n S p S' := by
  induction h with
  | stop S => exact .stop S
  | step S S1 S' op x k xs ho _ ih => exact .step S S1 S' op x k ho ih

/-! ## One visit -/

/-- **C105, the block can be opened** (partial, as below). Files that are at rest in the state `S`, neither the header file nor the
attribute file of which is damaged: a process, and any number of processes together, can open the block. -/
theorem C105_opens_partial (env : Env) (K : Kind) (base : CStr) (hz : (0 : Byte) ∉ base) (fs : FS) (S : Durable) (m k : Nat)
    (h : AtRest env K base fs S) (hst : S.stored = some (m, k)) (hk : S.attrsKnown = true) (c : Nat) :
    (∃ b w', blockOpen env base ⟨fs, noFaults, c⟩ = .ok (0, some b) w' ∧ w'.fs = fs ∧ b.basename = base ∧ HoldsD env K b fs (S.reopened m k)) ∧
    ∀ n, 0 < n ∧ n < 2147483648 → ∃ H w', mpiOpen env base ⟨fs, noFaults, c⟩ = .ok (0, some H) w' ∧ w'.fs = fs ∧
      (H 0).basename = base ∧ HoldsAllD env K n H fs (S.reopened m k) := by
  obtain ⟨bb, hb, hh⟩ := h
  subst hb
  constructor
  · obtain ⟨b, w', e, g1, _, g3, _, g5⟩ := C70_recover_partial env K bb ⟨fs, noFaults, c⟩ S m k hh rfl hst hk
    rw [g1] at g5
    exact ⟨b, w', e, g1, g3, g5⟩
  · intro n hn
    obtain ⟨H, w', e, g1, _, g3, g4, _⟩ := C89_recover_partial env K bb ⟨fs, noFaults, c⟩ S m k hh rfl hz hst hk n hn
    rw [g1] at g4
    exact ⟨H, w', e, g1, g3, g4⟩

/-- **C105, one visit** (partial, as below). -/
theorem C105_visit_partial (env : Env) (K : Kind) (base : CStr) (hz : (0 : Byte) ∉ base) (fs fs' : FS) (S : Durable) (m k : Nat)
    (h : AtRest env K base fs S) (hst : S.stored = some (m, k)) (hk : S.attrsKnown = true) (v : LifeVisit) (e : VisitEnd)
    (hs : v.Safe env K (S.reopened m k)) (hv : VisitLeft env base fs v e fs') :
    ∃ S', v.Leads env K (S.reopened m k) S' e ∧ AtRest env K base fs' S' := by
  cases v with
  | alone p =>
    obtain ⟨c, b, w', faults, clock, ho, hns, hend⟩ := hv
    obtain ⟨⟨b1, w1, e1, g1, g3, g5⟩, _⟩ := C105_opens_partial env K base hz fs S m k h hst hk c
    rw [ho] at e1
    injection e1 with e2 e3
    injection e2 with _ e2
    injection e2 with e2
    subst e2 e3
    have := C70_answers_partial env K p b ⟨w'.fs, faults, clock⟩ _ (by rw [g1]; exact g5) hns hs
    rcases hend with ⟨xs, b', w2, rfl, hr, rfl⟩ | ⟨w2, rfl, hr, rfl⟩
    · obtain ⟨k1, _, S', k2, k3⟩ := wpc_ok this hr
      exact ⟨S', k2, b', k1.trans g3, k3⟩
    · unfold wpc at this
      rw [hr] at this
      obtain ⟨b', S', k1, k2, k3⟩ := this
      exact ⟨S', k2, b', k1.trans g3, k3⟩
  | shared n p =>
    obtain ⟨c, H, w', faults, clock, ho, hns, hend⟩ := hv
    obtain ⟨hn1, hn2, hs⟩ := hs
    obtain ⟨H1, w1, e1, g1, g3, g5⟩ := (C105_opens_partial env K base hz fs S m k h hst hk c).2 n ⟨hn1, hn2⟩
    rw [ho] at e1
    injection e1 with e2 e3
    injection e2 with _ e2
    injection e2 with e2
    subst e2 e3
    have := C89_answers_partial env K n p H ⟨w'.fs, faults, clock⟩ _ (by rw [g1]; exact g5) hns hs
    rcases hend with ⟨xs, H', rfl, hr⟩ | ⟨rfl, hr⟩
    · rcases this.ends hr with ⟨a, w2, ea, rfl, k1, _, _, S', k2, k3⟩ | ⟨ea, _⟩
      · injection ea with ea
        subst ea
        obtain ⟨hn0, _, bb, q1, _, _, _, q2⟩ := k3
        exact ⟨S', k2, bb, (q2 0 hn0).shape.base.symm.trans (k1.trans g3), q1⟩
      · cases ea
    · rcases this.ends hr with ⟨a, w2, ea, _⟩ | ⟨_, _, b', S', k1, k2, k3⟩
      · cases ea
      · exact ⟨S', k2, b', k1.trans g3, k3⟩

/-! ## Any number of visits -/

/-- **C105** (partial: nothing fails while the block is opened, kills stop all processes of a visit, file operations do not fail
silently, the kind of the block fits `K`). The files of a block are in the state `S`. One after another, processes or groups of
processes open it, use it as they should while anything fails, and come to their end or are killed at any moment, any number of
times. Then either a flush that failed or was interrupted has damaged the header file or the attribute file, or the files are in
a state that the visits, with the answers they got, may lead to. -/
theorem C105_life_partial (env : Env) (K : Kind) (base : CStr) (hz : (0 : Byte) ∉ base) (vs : List (LifeVisit × VisitEnd)) :
    ∀ (fs fs' : FS) (S : Durable), AtRest env K base fs S → LifeSafe env K vs S → DiskLife env base fs vs fs' →
      ∃ o, LifeLeads env K S vs o ∧ ∀ S', o = some S' → AtRest env K base fs' S' := by
  induction vs with
  | nil =>
    intro fs fs' S h _ hd
    cases hd
    refine ⟨some S, .nil S, fun S' e => ?_⟩
    injection e with e
    rw [← e]
    exact h
  | cons ve vs ih =>
    intro fs fs' S h hs hd
    obtain ⟨v, e⟩ := ve
    cases hd with
    | cons _ fs1 _ _ _ _ hv hd =>
      by_cases hk : S.attrsKnown = true
      · cases hst : S.stored with
        | none =>
          refine ⟨none, .damaged S _ (fun hi => ?_), fun S' e => by cases e⟩
          have := hi.1
          rw [hst] at this
          cases this
        | some mk =>
          obtain ⟨m, k⟩ := mk
          obtain ⟨s1, s2⟩ := hs m k hst hk
          obtain ⟨S1, g1, g2⟩ := C105_visit_partial env K base hz fs fs1 S m k h hst hk v e s1 hv
          obtain ⟨o, g3, g4⟩ := ih fs1 fs' S1 g2 (s2 S1 g1) hd
          exact ⟨o, .cons S S1 m k v e vs o hst hk g1 g3, g4⟩
      · exact ⟨none, .damaged S _ (fun hi => hk hi.2), fun S' e => by cases e⟩

/-! ## Consequences for a user -/

theorem Spec.RowIn.outcome {env : Env} {K : Kind} {q : Nat} {S S' : Durable} {op : BOp} {x : BAns} (h : RowIn q S)
    (ho : S.Outcome env K op x S') : RowIn q S' := by
  cases ho with
  | done _ _ _ =>
    cases op with
    | write p a mem sw =>
      simp only [Durable.next, Content.next]
      refine ⟨?_, h.2⟩
      dsimp only
      split <;> exact h.1
    | read | attr => exact h
    | grow sizes => exact ⟨Nat.lt_of_lt_of_le h.1 (Nat.le_add_right _ _), h.2⟩
    | flush =>
      refine ⟨?_, fun m k e => ?_⟩
      · simp only [Durable.next, Durable.flushed]
        split <;> exact h.1
      · simp only [Durable.next, Durable.flushed] at e
        injection e with e
        injection e with e _
        rw [← e]
        exact h.1
    | reopen =>
      simp only [Durable.next, Content.next]
      refine ⟨?_, h.2⟩
      dsimp only
      split <;> exact h.1
  | write | read => exact h
  | grow sizes x _ => exact ⟨Nat.lt_of_lt_of_le h.1 (Nat.le_add_right _ _), h.2⟩
  | flush => exact ⟨h.1, fun m k e => by cases e⟩
  | attrs =>
    refine ⟨h.1, fun m k e => ?_⟩
    simp only [Durable.attrsLost] at e
    injection e with e
    injection e with e _
    rw [← e]
    exact h.1

theorem Spec.RowIn.leaves {env : Env} {K : Kind} {q : Nat} {S S' : Durable} {p : Session} (h : RowIn q S) (hl : Leaves env K S p S') : RowIn q S' := by
  induction hl with
  | stop S => exact h
  | killed S S' op k hk =>
    cases hk with
    | write | read | grow => exact h
    | flush => exact ⟨h.1, fun m k e => by cases e⟩
    | attrs =>
      refine ⟨h.1, fun m k e => ?_⟩
      simp only [Durable.attrsLost] at e
      injection e with e
      injection e with e _
      rw [← e]
      exact h.1
  | step S S1 S' op x k ho _ ih => exact ih (h.outcome ho)

theorem Spec.RowIn.outcomeAll {env : Env} {K : Kind} {n q : Nat} {S S' : Durable} {op : MOp} {x : Nat → BAns} (h : RowIn q S)
    (ho : S.OutcomeAll env K n op x S') : RowIn q S' := by
  cases ho with
  | done _ _ _ =>
    cases op with
    | write | read | attr => exact h
    | grow sizes => exact ⟨Nat.lt_of_lt_of_le h.1 (Nat.le_add_right _ _), h.2⟩
    | flush =>
      refine ⟨?_, fun m k e => ?_⟩
      · simp only [Durable.nextAll, Durable.flushed]
        split <;> exact h.1
      · simp only [Durable.nextAll, Durable.flushed] at e
        injection e with e
        injection e with e _
        rw [← e]
        exact h.1
    | reopen n' =>
      simp only [Durable.nextAll, Content.nextAll, Content.next]
      refine ⟨?_, h.2⟩
      dsimp only
      split <;> exact h.1
  | write | read => exact h
  | grow sizes x _ => exact ⟨Nat.lt_of_lt_of_le h.1 (Nat.le_add_right _ _), h.2⟩
  | flush => exact ⟨h.1, fun m k e => by cases e⟩
  | attrs =>
    refine ⟨h.1, fun m k e => ?_⟩
    simp only [Durable.attrsLost] at e
    injection e with e
    injection e with e _
    rw [← e]
    exact h.1

theorem Spec.RowIn.leavesAll {env : Env} {K : Kind} {n q : Nat} {S S' : Durable} {p : MSession} (h : RowIn q S) (hl : LeavesAll env K n S p S') :
    RowIn q S' := by
  induction hl with
  | stop S => exact h
  | killed S S' op k hk =>
    cases hk with
    | write | read | grow | attr => exact h
    | flush => exact ⟨h.1, fun m k e => by cases e⟩
    | attrs =>
      refine ⟨h.1, fun m k e => ?_⟩
      simp only [Durable.attrsLost] at e
      injection e with e
      injection e with e _
      rw [← e]
      exact h.1
  | step S S1 S' op x k ho _ ih => exact ih (h.outcomeAll ho)

/-- What a visit leads to is something that its program may leave behind. -/
theorem leads_in {env : Env} {K : Kind} {q : Nat} {S S' : Durable} {v : LifeVisit} {e : VisitEnd} (h : v.Leads env K S S' e)
    (hq : RowIn q S) : RowIn q S' := by
  cases v with
  | alone p =>
    cases e with
    | killed => exact hq.leaves h
    | ended xs => exact hq.leaves (Went.leaves h)
    | endedAll => exact h.elim
  | shared n p =>
    cases e with
    | killed => exact hq.leavesAll h
    | ended xs => exact h.elim
    | endedAll xs => exact hq.leavesAll (WentAll.leaves h)

theorem leads_row {env : Env} {K : Kind} {q : Nat} {S S' : Durable} {v : LifeVisit} {e : VisitEnd} (h : v.Leads env K S S' e)
    (hsp : v.Spares K q) : S'.now.rows q = S.now.rows q := by
  cases v with
  | alone p =>
    cases e with
    | killed => exact C70_untouched env K q S S' p h hsp
    | ended xs => exact C70_untouched env K q S S' p (Went.leaves h) hsp
    | endedAll => exact h.elim
  | shared n p =>
    cases e with
    | killed => exact C89_untouched env K n q S S' p h hsp
    | ended xs => exact h.elim
    | endedAll xs => exact C89_untouched env K n q S S' p (WentAll.leaves h) hsp

/-- **C105, the size never shrinks.** Through any number of visits that fail and are killed, what is recorded never becomes less. -/
theorem C105_size_stays (env : Env) (K : Kind) (q : Nat) (vs : List (LifeVisit × VisitEnd)) (S : Durable) (o : Option Durable)
    (h : LifeLeads env K S vs o) (hq : RowIn q S) (S' : Durable) (ho : o = some S') : RowIn q S' := by
  induction h with
  | nil S =>
    injection ho with ho
    rw [← ho]
    exact hq
  | damaged => cases ho
  | cons S S1 m k v e vs o hst hk hl _ ih =>
    have hm := hq.2 m k hst
    have hq' : RowIn q (S.reopened m k) := by
      refine ⟨hm, fun m' k' e => ?_⟩
      injection e with e
      injection e with e _
      rw [← e]
      exact hm
    exact ih (leads_in hl hq') ho

/-- **C105, rows stay.** A row that is stored and that no visit writes keeps its content through any number of visits that fail
and are killed, and remains within what is recorded. -/
theorem C105_row_stays (env : Env) (K : Kind) (q : Nat) (vs : List (LifeVisit × VisitEnd)) (S : Durable) (o : Option Durable)
    (h : LifeLeads env K S vs o) (hq : RowIn q S) (hsp : ∀ ve ∈ vs, ve.1.Spares K q) (S' : Durable) (ho : o = some S') :
    RowIn q S' ∧ S'.now.rows q = S.now.rows q := by
  induction h with
  | nil S =>
    injection ho with ho
    rw [← ho]
    exact ⟨hq, rfl⟩
  | damaged => cases ho
  | cons S S1 m k v e vs o hst hk hl _ ih =>
    have hm := hq.2 m k hst
    have hq' : RowIn q (S.reopened m k) := by
      refine ⟨hm, fun m' k' e => ?_⟩
      injection e with e
      injection e with e _
      rw [← e]
      exact hm
    have g1 := leads_in hl hq'
    have g2 := leads_row hl (hsp _ List.mem_cons_self)
    obtain ⟨g3, g4⟩ := ih g1 (fun ve hve => hsp ve (List.mem_cons_of_mem _ hve)) ho
    refine ⟨g3, g4.trans (g2.trans ?_)⟩
    show (if q < m then S.now.rows q else none) = S.now.rows q
    rw [if_pos hm]

theorem Spec.Session.AsIf.intact {env : Env} {K : Kind} (p : Session) : ∀ {xs : List BAns} {S S' : Durable}, p.AsIf env K xs S S' →
    S.Intact → S'.Intact := by
  induction p with
  | stop =>
    intro xs S S' h hi
    cases xs with
    | nil => have h : S' = S := h; rw [h]; exact hi
    | cons => exact h.elim
  | call op k ih =>
    intro xs S S' h hi
    cases xs with
    | nil => exact h.elim
    | cons x xs =>
      refine ih x h.2 ?_
      cases op with
      | flush =>
        refine ⟨rfl, ?_⟩
        simp only [Durable.next, Durable.flushed]
        rw [hi.2]
        rfl
      | write | read | grow | attr | reopen => exact hi

theorem Spec.MSession.AsIf.intact {env : Env} {K : Kind} {n : Nat} (p : MSession) : ∀ {xs : List (Nat → BAns)} {S S' : Durable},
    p.AsIf env K n xs S S' → S.Intact → S'.Intact := by
  induction p with
  | stop =>
    intro xs S S' h hi
    cases xs with
    | nil => have h : S' = S := h; rw [h]; exact hi
    | cons => exact h.elim
  | call op k ih =>
    intro xs S S' h hi
    cases xs with
    | nil => exact h.elim
    | cons x xs =>
      refine ih x h.2 ?_
      cases op with
      | flush =>
        refine ⟨rfl, ?_⟩
        simp only [Durable.nextAll, Durable.flushed]
        rw [hi.2]
        rfl
      | write | read | grow | attr | reopen => exact hi

/-- **C105, what cannot do damage.** If every visit either does not flush (it may then fail and be killed as it likes) or comes to its
end without an error code, nothing is ever damaged. -/
theorem C105_intact (env : Env) (K : Kind) (vs : List (LifeVisit × VisitEnd)) (S : Durable) (o : Option Durable)
    (h : LifeLeads env K S vs o) (hi : S.Intact) (hv : ∀ ve ∈ vs, ve.1.Sound ve.2) : ∃ S', o = some S' ∧ S'.Intact := by
  induction h with
  | nil S => exact ⟨S, rfl, hi⟩
  | damaged S vs hn => exact (hn hi).elim
  | cons S S1 m k v e vs o hst hk hl _ ih =>
    refine ih ?_ (fun ve hve => hv ve (List.mem_cons_of_mem _ hve))
    have hR : (S.reopened m k).Intact := ⟨rfl, rfl⟩
    have hso := hv _ List.mem_cons_self
    dsimp only at hso
    cases v with
    | alone p =>
      rcases hso with hnf | ⟨xs, rfl, hne⟩
      · have hl : Leaves env K (S.reopened m k) p S1 := by
          cases e with
          | killed => exact hl
          | ended xs => exact Went.leaves hl
          | endedAll => exact hl.elim
        obtain ⟨u1, u2, _⟩ := C70_unflushed env K _ S1 p hl hnf
        exact ⟨by rw [u1]; rfl, by rw [u2]; rfl⟩
      · exact (C70_no_false_success env K _ S1 p xs hl hne).intact p hR
    | shared n p =>
      rcases hso with hnf | ⟨xs, r, rfl, hr, hne⟩
      · have hl : LeavesAll env K n (S.reopened m k) p S1 := by
          cases e with
          | killed => exact hl
          | ended xs => exact hl.elim
          | endedAll xs => exact WentAll.leaves hl
        obtain ⟨u1, u2, _⟩ := C89_unflushed env K n _ S1 p hl hnf
        exact ⟨by rw [u1]; rfl, by rw [u2]; rfl⟩
      · exact (C89_no_false_success env K n r hr _ S1 p xs hl hne).intact p hR

/-- **C105, a user's data** (partial, as above). A block on disk holds `A`. One after another, any number of processes and groups of
processes open it and use it as they should while anything fails; each of them either does not flush (and may be killed at any
moment), or comes to its end without an error code. Then the block can be opened, and every row that was there at the
beginning and that none of them wrote is found as it was. -/
theorem C105_kept_partial (env : Env) (K : Kind) (base : CStr) (hz : (0 : Byte) ∉ base) (fs fs' : FS) (A : Content)
    (h : OnDisk env K fs base A) (vs : List (LifeVisit × VisitEnd)) (hs : LifeSafe env K vs (Durable.opened A))
    (hd : DiskLife env base fs vs fs') (hv : ∀ ve ∈ vs, ve.1.Sound ve.2) (c : Nat) :
    ∃ b w', blockOpen env base ⟨fs', noFaults, c⟩ = .ok (0, some b) w' ∧ A.size ≤ b.size ∧
      ∀ q bytes, A.rows q = some bytes → (∀ ve ∈ vs, ve.1.Spares K q) → row env.m fs' b q = bytes := by
  obtain ⟨b0, w0, e0, hfs, _, hb, hd0, hh⟩ := h.opens (w := ⟨fs, noFaults, c⟩) rfl
  dsimp only at hfs
  have hD : HoldsD env K b0 fs (Durable.opened A) := opened_holdsD hh hd0 h.1
  obtain ⟨o, g1, g2⟩ := C105_life_partial env K base hz vs fs fs' _ ⟨b0, hb, hD⟩ hs hd
  obtain ⟨S', ho, hi⟩ := C105_intact env K vs _ o g1 ⟨rfl, rfl⟩ hv
  obtain ⟨⟨m, k⟩, hst⟩ := Option.isSome_iff_exists.mp hi.1
  obtain ⟨⟨b, w', e, _, _, g⟩, _⟩ := C105_opens_partial env K base hz fs' S' m k (g2 S' ho) hst hi.2 c
  have hin : ∀ q, q < A.size → RowIn q (Durable.opened A) := by
    intro q hq
    refine ⟨hq, fun m' k' e => ?_⟩
    injection e with e
    injection e with e _
    rw [← e]
    exact hq
  have hm : ∀ q, q < A.size → q < m := fun q hq => (C105_size_stays env K q vs _ o g1 (hin q hq) S' ho).2 m k hst
  refine ⟨b, w', e, ?_, fun q bytes hr hsp => ?_⟩
  · rw [g.size]
    show A.size ≤ m
    exact Nat.le_of_not_lt fun hlt => absurd (hm m hlt) (by omega)
  · have hlt := (hD.rows q bytes hr).1
    refine (g.rows q bytes ?_).2.1
    show (if q < m then S'.now.rows q else none) = some bytes
    rw [if_pos (hm q hlt), (C105_row_stays env K q vs _ o g1 (hin q hlt) hsp S' ho).2]
    exact hr

/-! ## The example -/

/-- **C105, visits happen** (partial, as above): if neither the header file nor the attribute file is damaged and the program uses the block
as it should, there is an execution of the visit, and it leaves a disk behind. -/
theorem C105_happens_partial (env : Env) (K : Kind) (base : CStr) (hz : (0 : Byte) ∉ base) (fs : FS) (S : Durable) (m k : Nat)
    (h : AtRest env K base fs S) (hst : S.stored = some (m, k)) (hk : S.attrsKnown = true) (v : LifeVisit)
    (hs : v.Safe env K (S.reopened m k)) : ∃ e fs', VisitLeft env base fs v e fs' := by
  have hq : NoSilent noFaults := by
    intro k n h
    exact Fault.noConfusion h
  cases v with
  | alone p =>
    obtain ⟨⟨b, w', e1, g1, g3, g5⟩, _⟩ := C105_opens_partial env K base hz fs S m k h hst hk 0
    have := C70_answers_partial env K p b ⟨w'.fs, noFaults, 0⟩ _ (by rw [g1]; exact g5) hq hs
    unfold wpc at this
    cases hr : runNoted env b p ⟨w'.fs, noFaults, 0⟩ with
    | ok r w2 => exact ⟨.ended r.1, w2.fs, 0, b, w', noFaults, 0, e1, hq, .inl ⟨r.1, r.2, w2, rfl, hr, rfl⟩⟩
    | crash w2 => exact ⟨.killed, w2.fs, 0, b, w', noFaults, 0, e1, hq, .inr ⟨w2, rfl, hr, rfl⟩⟩
    | ub => rw [hr] at this; exact this.elim
    | hang => rw [hr] at this; exact this.elim
  | shared n p =>
    obtain ⟨hn1, hn2, hs⟩ := hs
    obtain ⟨H, w', e1, g1, g3, g5⟩ := (C105_opens_partial env K base hz fs S m k h hst hk 0).2 n ⟨hn1, hn2⟩
    have := C89_answers_partial env K n p H ⟨w'.fs, noFaults, 0⟩ _ (by rw [g1]; exact g5) hq hs
    obtain ⟨o, fs', he⟩ := this.happens
    cases o with
    | none => exact ⟨.killed, fs', 0, H, w', noFaults, 0, e1, hq, .inr ⟨rfl, he⟩⟩
    | some a => exact ⟨.endedAll a.1, fs', 0, H, w', noFaults, 0, e1, hq, .inl ⟨a.1, a.2, rfl, he⟩⟩

/-- A process writes rows 1 to 3 and stops without a flush. -/
def exQuiet : Session := .call (.write 1 exSrc exMem 8) fun _ => .stop

theorem exQuiet_safe (S : Durable) : exQuiet.Safe exEnv exKind S :=
  ⟨⟨by decide, exSrc_array, fun h => absurd h (by decide), fun _ => by decide +kernel⟩, fun _ _ _ => trivial⟩

theorem exMQuiet_safe (S : Durable) (h : S.now.size = 5 ∧ S.now.nfile = 3) : exMQuiet.Safe exEnv exKind 3 S := by
  refine ⟨⟨by rw [h.1]; decide, by decide, by decide, ?_⟩, fun x S1 h1 => ⟨?_, fun _ _ _ => trivial⟩⟩
  · intro r hr
    match r, hr with
    | 0, _ => exact ⟨⟨by decide, by decide, by decide, fun _ => exSrc_array⟩, fun h => absurd h (by decide), by decide +kernel⟩
    | 1, _ => exact ⟨⟨by decide, by decide, by decide, fun h => absurd h (by decide)⟩, fun h => absurd h (by decide), by decide⟩
    | 2, _ => exact ⟨⟨by decide, by decide, by decide, fun h => absurd h (by decide)⟩, fun h => absurd h (by decide), by decide⟩
  · have h5 : S1.now.size = 5 ∧ S1.now.nfile = 3 := by
      cases h1 with
      | done _ _ _ => exact h
      | write _ _ _ _ _ _ _ _ => exact h
    show S1.now.size + 4 < _ ∧ (S1.now.size + 4) * (4 * 1) < _ ∧ S1.now.nfile + 1 ≤ _
    rw [h5.1, h5.2]
    decide

/-- The hypotheses of `C105_kept_partial` are met by two visits: a process alone, then three processes together. Both spare row 0. -/
example : ∃ fs fs' e1 e2, OnDisk exEnv exKind fs b!"d/z" exCopyA ∧
    LifeSafe exEnv exKind [(.alone exQuiet, e1), (.shared 3 exMQuiet, e2)] (Durable.opened exCopyA) ∧
    DiskLife exEnv b!"d/z" fs [(.alone exQuiet, e1), (.shared 3 exMQuiet, e2)] fs' ∧
    (∀ ve ∈ [(LifeVisit.alone exQuiet, e1), (.shared 3 exMQuiet, e2)], ve.1.Sound ve.2 ∧ ve.1.Spares exKind 0) ∧
    (exCopyA.rows 0).isSome = true := by
  obtain ⟨w, _, _, _, hD⟩ := exCopy_src
  have hz : (0 : Byte) ∉ (b!"d/z" : CStr) := by decide
  obtain ⟨b0, w0, e0, hfs, _, hb, hd0, hh⟩ := hD.opens (w := ⟨w.fs, noFaults, 0⟩) rfl
  have h0 : AtRest exEnv exKind b!"d/z" w.fs (Durable.opened exCopyA) := ⟨b0, hb, opened_holdsD hh hd0 hD.1⟩
  have q1 : exQuiet.NoFlush := ⟨trivial, fun _ => trivial⟩
  have q2 : exMQuiet.NoFlush := ⟨trivial, fun _ => ⟨trivial, fun _ => trivial⟩⟩
  have st : ∀ S1 e, (LifeVisit.alone exQuiet).Leads exEnv exKind ((Durable.opened exCopyA).reopened 5 3) S1 e →
      S1.stored = some (5, 3) ∧ S1.attrsKnown = true := by
    intro S1 e hl
    have hl : Leaves exEnv exKind ((Durable.opened exCopyA).reopened 5 3) exQuiet S1 := by
      cases e with
      | killed => exact hl
      | ended xs => exact Went.leaves hl
      | endedAll => exact hl.elim
    obtain ⟨u1, u2, _⟩ := C70_unflushed exEnv exKind _ S1 exQuiet hl q1
    exact ⟨u1, u2⟩
  have s2 : ∀ S : Durable, (LifeVisit.shared 3 exMQuiet).Safe exEnv exKind (S.reopened 5 3) := fun S => ⟨by decide, by decide, exMQuiet_safe _ ⟨rfl, rfl⟩⟩
  obtain ⟨e1, fs1, v1⟩ := C105_happens_partial exEnv exKind b!"d/z" hz w.fs _ 5 3 h0 rfl rfl (.alone exQuiet) (exQuiet_safe _)
  obtain ⟨S1, l1, r1⟩ := C105_visit_partial exEnv exKind b!"d/z" hz w.fs fs1 _ 5 3 h0 rfl rfl (.alone exQuiet) e1 (exQuiet_safe _) v1
  obtain ⟨e2, fs2, v2⟩ := C105_happens_partial exEnv exKind b!"d/z" hz fs1 S1 5 3 r1 (st S1 e1 l1).1 (st S1 e1 l1).2 (.shared 3 exMQuiet) (s2 S1)
  refine ⟨w.fs, fs2, e1, e2, hD, ?_, .cons _ fs1 _ _ _ _ v1 (.cons _ fs2 _ _ _ _ v2 (.nil _)), ?_, by decide +kernel⟩
  · intro m k hmk _
    obtain ⟨rfl, rfl⟩ : 5 = m ∧ 3 = k := by
      have hmk : some (5, 3) = some (m, k) := hmk
      injection hmk with hmk
      injection hmk with h1 h2
      exact ⟨h1, h2⟩
    refine ⟨exQuiet_safe _, fun S2 l2 m k hmk _ => ⟨?_, fun _ _ => trivial⟩⟩
    obtain ⟨rfl, rfl⟩ : 5 = m ∧ 3 = k := by
      have hmk := (st S2 e1 l2).1.symm.trans hmk
      injection hmk with hmk
      injection hmk with h1 h2
      exact ⟨h1, h2⟩
    exact s2 S2
  · intro ve hve
    rcases List.mem_cons.mp hve with rfl | hve
    · exact ⟨.inl q1, ⟨by decide, fun _ => trivial⟩⟩
    · rcases List.mem_cons.mp hve with rfl | hve
      · exact ⟨.inl q2, ⟨by decide, fun _ => ⟨trivial, fun _ => trivial⟩⟩⟩
      · cases hve

end Verif
