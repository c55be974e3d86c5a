import Verif.Spec.CopyMpi
/-!
# The work queue: invariant and measure
-/

set_option autoImplicit false

namespace Verif

open Spec

theorem upd_same {α : Type} (f : Nat → α) (r : Nat) (a : α) : upd f r a r = a := by simp [upd]

theorem upd_ne {α : Type} (f : Nat → α) {r q : Nat} (a : α) (h : q ≠ r) : upd f r a q = f q := by simp [upd, h]

/-- Sum over the processes. -/
def sumTo (n : Nat) (f : Nat → Nat) : Nat := ((List.range n).map f).sum

theorem sumTo_succ (n : Nat) (f : Nat → Nat) : sumTo (n + 1) f = sumTo n f + f n := by
  simp [sumTo, List.range_succ]

theorem sumTo_congr {n : Nat} {f g : Nat → Nat} (h : ∀ r, r < n → f r = g r) : sumTo n f = sumTo n g := by
  induction n with
  | zero => rfl
  | succ n ih => rw [sumTo_succ, sumTo_succ, ih fun r hr => h r (by omega), h n (by omega)]

theorem sumTo_change {n : Nat} {f g : Nat → Nat} {r : Nat} (hr : r < n) (h : ∀ q, q ≠ r → f q = g q) :
    sumTo n f + g r = sumTo n g + f r := by
  induction n with
  | zero => omega
  | succ n ih =>
    rw [sumTo_succ, sumTo_succ]
    by_cases h1 : r = n
    · subst h1
      have := sumTo_congr (n := r) (f := f) (g := g) fun q hq => h q (by omega)
      omega
    · have := ih (by omega)
      have := h n (by omega)
      omega

/-- Ranges under way to a process or being copied by it. -/
def orderRanges (l : List Order) : List (Nat × Nat) :=
  l.filterMap fun x => match x with | .work o k => some (o, k) | .die => none

def atRanges : WorkerAt → List (Nat × Nat)
  | .copying o l => [(o, l)]
  | _ => []

/-- How often a row is in a range that is under way to a process or being copied. -/
def pendingTimes (row : Nat) (s : CopyConf) (r : Nat) : Nat :=
  timesIn row (orderRanges (s.toWorker r)) + timesIn row (atRanges (s.worker r))

theorem timesIn_append (row : Nat) (a b : List (Nat × Nat)) : timesIn row (a ++ b) = timesIn row a + timesIn row b := by
  simp [timesIn]

theorem timesIn_nil (row : Nat) : timesIn row [] = 0 := rfl

theorem timesIn_one (row o l : Nat) : timesIn row [(o, l)] = if o ≤ row ∧ row < o + l then 1 else 0 := by
  unfold timesIn
  by_cases h : o ≤ row ∧ row < o + l <;> simp [h]

/-- What a process that was not sent `DIE_TAG` may look like; `idle` if its message was the one that ended the loop. -/
inductive Busy (bad : Prop) : WorkerAt → List Note → List Order → Prop where
  | starting : Busy bad .starting [] []
  | asked (m : Note) : Busy bad .waiting [m] []
  | ordered (o l : Nat) : Busy bad .waiting [] [.work o l]
  | copying (o l : Nat) : Busy bad (.copying o l) [] []
  | idle (h : bad) : Busy bad .waiting [] []

/-- What a process that was sent `DIE_TAG` may look like. -/
inductive Dismissed (bad : Prop) : WorkerAt → List Note → List Order → Prop where
  | busy {w : WorkerAt} {q : List Note} {o : List Order} (h : Busy bad w q o) : Dismissed bad w q (o ++ [.die])
  | left (q : List Note) (h : ¬ bad → q.length = 1) : Dismissed bad .left q []

theorem Busy.mono {p q : Prop} {w : WorkerAt} {a : List Note} {b : List Order} (h : Busy p w a b) (hpq : p → q) : Busy q w a b := by
  cases h with
  | starting => exact .starting
  | asked m => exact .asked m
  | ordered o l => exact .ordered o l
  | copying o l => exact .copying o l
  | idle h => exact .idle (hpq h)

theorem Dismissed.mono {p q : Prop} {w : WorkerAt} {a : List Note} {b : List Order} (h : Dismissed p w a b) (hpq : p → q) :
    Dismissed q w a b := by
  cases h with
  | busy h => exact .busy (h.mono hpq)
  | left a h => exact .left a fun hq => h fun hp => hq (hpq hp)

/-- How far the server is with dismissing. -/
def ServerAt.dismissed (n : Nat) : ServerAt → Nat
  | .serving _ _ => 0
  | .dismissing i => i
  | .left => n

def ServerAt.gone : ServerAt → Prop
  | .serving _ _ => False
  | _ => True

/-- The state of one process. -/
def WorkerOk (n : Nat) (bad : Prop) (s : CopyConf) (r : Nat) : Prop :=
  (r < s.server.dismissed n → Dismissed bad (s.worker r) (s.toServer r) (s.toWorker r)) ∧
  (¬ r < s.server.dismissed n → Busy (s.server.gone ∧ bad) (s.worker r) (s.toServer r) (s.toWorker r))

/-- The invariant: `out` is the number of rows handed out so far. -/
structure CopyInv (n size chunk : Nat) (es : List CopyEvent) (out : Nat) (s : CopyConf) : Prop where
  out_le : out ≤ size
  server : ∀ o c, s.server = .serving o c → o = out ∧ (c = chunk ∨ out = size) ∧ c ≤ chunk
  dis : ∀ i, s.server = .dismissing i → 1 ≤ i
  workers : ∀ r, 1 ≤ r → r < n → WorkerOk n (failedRanges es ≠ []) s r
  rows : ∀ row, timesIn row (copiedRanges es) + timesIn row (failedRanges es) + sumTo n (pendingTimes row s) =
    if row < out then 1 else 0
  early : out < size → s.server.gone → failedRanges es ≠ []
  errs : ∀ r, 1 ≤ r → r < n → .error ∈ s.toServer r → failedRanges es ≠ []
  handed : ∀ r o l, .hand r o l ∈ es → 0 < l ∧ l ≤ chunk ∧ o + l ≤ size

theorem copiedRanges_append (a b : List CopyEvent) : copiedRanges (a ++ b) = copiedRanges a ++ copiedRanges b := by
  simp [copiedRanges]

theorem failedRanges_append (a b : List CopyEvent) : failedRanges (a ++ b) = failedRanges a ++ failedRanges b := by
  simp [failedRanges]

theorem orderRanges_append (a b : List Order) : orderRanges (a ++ b) = orderRanges a ++ orderRanges b := by
  simp [orderRanges]

theorem sumTo_zero {n : Nat} {f : Nat → Nat} (h : ∀ r, r < n → f r = 0) : sumTo n f = 0 := by
  induction n with
  | zero => rfl
  | succ n ih => rw [sumTo_succ, ih fun r hr => h r (by omega), h n (by omega)]

theorem copyInv_start (n size chunk : Nat) : CopyInv n size chunk [] 0 (copyStart chunk) where
  out_le := Nat.zero_le _
  server := by
    rintro o c h
    cases h
    exact ⟨rfl, Or.inl rfl, Nat.le_refl _⟩
  dis := by intro i h; cases h
  workers := fun r h1 h2 => ⟨fun h => by simp [copyStart, ServerAt.dismissed] at h, fun _ => .starting⟩
  rows := by
    intro row
    rw [sumTo_zero (f := pendingTimes row (copyStart chunk)) fun r _ => rfl]
    simp [copiedRanges, failedRanges, timesIn]
  early := by intro _ h; exact h.elim
  errs := by intro r _ _ h; cases h
  handed := by intro r o l h; cases h

/-- What a step changes at one process. -/
theorem pending_change {n row : Nat} {s s' : CopyConf} {r : Nat} (hr : r < n) (h : ∀ q, q ≠ r → s'.worker q = s.worker q ∧ s'.toWorker q = s.toWorker q) :
    sumTo n (pendingTimes row s') + pendingTimes row s r = sumTo n (pendingTimes row s) + pendingTimes row s' r := by
  refine sumTo_change hr fun q hq => ?_
  unfold pendingTimes
  rw [(h q hq).1, (h q hq).2]

/-- A step of one process other than 0. -/
theorem copyInv_worker {n size chunk out : Nat} {es : List CopyEvent} {s s' : CopyConf} {e : CopyEvent} {r : Nat}
    (h : CopyInv n size chunk es out s) (hr : 1 ≤ r ∧ r < n) (hs : s'.server = s.server)
    (ho : ∀ q, q ≠ r → s'.worker q = s.worker q ∧ s'.toWorker q = s.toWorker q ∧ s'.toServer q = s.toServer q)
    (he : ∀ a b c, e ≠ .hand a b c)
    (hw : WorkerOk n (failedRanges es ≠ []) s r → WorkerOk n (failedRanges (es ++ [e]) ≠ []) s' r)
    (hp : ∀ row, timesIn row (copiedRanges [e]) + timesIn row (failedRanges [e]) + pendingTimes row s' r = pendingTimes row s r)
    (hn : .error ∈ s'.toServer r → .error ∈ s.toServer r ∨ failedRanges [e] ≠ []) :
    CopyInv n size chunk (es ++ [e]) out s' := by
  have hmono : failedRanges es ≠ [] → failedRanges (es ++ [e]) ≠ [] := by
    intro h1 h2
    rw [failedRanges_append] at h2
    exact h1 (List.append_eq_nil_iff.mp h2).1
  refine ⟨h.out_le, by rw [hs]; exact h.server, by rw [hs]; exact h.dis, ?_, ?_, by rw [hs]; exact fun a b => hmono (h.early a b), ?_, ?_⟩
  · intro q h1 h2
    by_cases hq : q = r
    · subst hq; exact hw (h.workers q h1 h2)
    · obtain ⟨a, b⟩ := h.workers q h1 h2
      unfold WorkerOk
      rw [hs, (ho q hq).1, (ho q hq).2.1, (ho q hq).2.2]
      exact ⟨fun x => (a x).mono hmono, fun x => (b x).mono fun ⟨u, v⟩ => ⟨u, hmono v⟩⟩
  · intro row
    have h1 := h.rows row
    have h2 := pending_change (n := n) (row := row) (s := s) (s' := s') hr.2 fun q hq => ⟨(ho q hq).1, (ho q hq).2.1⟩
    have h3 := hp row
    rw [copiedRanges_append, failedRanges_append, timesIn_append, timesIn_append]
    omega
  · intro q h1 h2 h3
    by_cases hq : q = r
    · subst hq
      rcases hn h3 with h4 | h4
      · exact hmono (h.errs q h1 h2 h4)
      · intro h5
        rw [failedRanges_append] at h5
        exact h4 (List.append_eq_nil_iff.mp h5).2
    · rw [(ho q hq).2.2] at h3
      exact hmono (h.errs q h1 h2 h3)
  · intro a b c h1
    rcases List.mem_append.mp h1 with h1 | h1
    · exact h.handed _ _ _ h1
    · rw [List.mem_singleton] at h1
      exact absurd h1.symm (he a b c)

/-- A step of process 0 that hands nothing out. -/
theorem copyInv_server {n size chunk out : Nat} {es : List CopyEvent} {s s' : CopyConf}
    (h : CopyInv n size chunk es out s) (hs : s'.server.gone) (hd : ∀ i, s'.server = .dismissing i → 1 ≤ i)
    (hw : ∀ r, 1 ≤ r → r < n → WorkerOk n (failedRanges es ≠ []) s r → WorkerOk n (failedRanges es ≠ []) s' r)
    (hp : ∀ row r, r < n → pendingTimes row s' r = pendingTimes row s r)
    (hn : ∀ r, 1 ≤ r → r < n → .error ∈ s'.toServer r → .error ∈ s.toServer r)
    (hearly : out < size → failedRanges es ≠ []) :
    CopyInv n size chunk (es ++ [.other]) out s' := by
  have hf : failedRanges (es ++ [.other]) = failedRanges es := by simp [failedRanges]
  have hcp : copiedRanges (es ++ [.other]) = copiedRanges es := by simp [copiedRanges]
  refine ⟨h.out_le, ?_, hd, ?_, ?_, by rw [hf]; exact fun a _ => hearly a, ?_, ?_⟩
  · intro o c he
    rw [he] at hs
    exact hs.elim
  · rw [hf]; exact fun r h1 h2 => hw r h1 h2 (h.workers r h1 h2)
  · intro row
    rw [hf, hcp, sumTo_congr fun r hr => hp row r hr]
    exact h.rows row
  · rw [hf]; exact fun r h1 h2 h3 => h.errs r h1 h2 (hn r h1 h2 h3)
  · intro a b c h1
    rcases List.mem_append.mp h1 with h1 | h1
    · exact h.handed _ _ _ h1
    · rw [List.mem_singleton] at h1
      cases h1

theorem copyInv_step {n size chunk out : Nat} {es : List CopyEvent} {s s' : CopyConf} {e : CopyEvent} (hc : 0 < chunk)
    (h : CopyInv n size chunk es out s) (t : CopyStep n size s e s') : ∃ out', CopyInv n size chunk (es ++ [e]) out' s' := by
  cases t with
  | hand offset c r q hs hlt hr hm =>
    obtain ⟨h1, h2, h3⟩ := h.server _ _ hs
    subst h1
    have hcc : c = chunk := by rcases h2 with h2 | h2 <;> omega
    subst hcc
    have hl : 0 < nextLen size offset c ∧ nextLen size offset c ≤ c ∧ offset + nextLen size offset c ≤ size ∧
        (nextLen size offset c = c ∨ offset + nextLen size offset c = size) := by
      unfold nextLen; split <;> omega
    generalize hk : nextLen size offset c = len at hl ⊢
    have hf : failedRanges (es ++ [.hand r offset len]) = failedRanges es := by simp [failedRanges]
    have hcp : copiedRanges (es ++ [.hand r offset len]) = copiedRanges es := by simp [copiedRanges]
    refine ⟨offset + len, ⟨hl.2.2.1, ?_, ?_, ?_, ?_, ?_, ?_, ?_⟩⟩
    · rintro o c' he
      cases he
      exact ⟨rfl, hl.2.2.2, hl.2.1⟩
    · intro i he; cases he
    · intro q' h1 h2
      obtain ⟨_, hb⟩ := h.workers q' h1 h2
      rw [hs] at hb
      have hb := hb (by simp [ServerAt.dismissed])
      refine ⟨fun hlt => by simp [ServerAt.dismissed] at hlt, fun _ => ?_⟩
      rw [hf]
      by_cases hq : q' = r
      · subst hq
        simp only [upd_same]
        rw [hm] at hb
        generalize hw1 : s.worker q' = w1 at hb
        generalize hw2 : s.toWorker q' = w2 at hb
        cases hb with
        | asked m => exact .ordered _ _
      · simp only [upd_ne _ _ hq]
        exact hb.mono fun ⟨x, _⟩ => x.elim
    · intro row
      rw [hf, hcp]
      have := h.rows row
      have hp := pending_change (n := n) (row := row) (s := s)
        (s' := { s with
          server := .serving (offset + len) len
          toServer := upd s.toServer r q
          toWorker := upd s.toWorker r (s.toWorker r ++ [.work offset len]) }) hr.2 (fun q' hq => ⟨rfl, upd_ne _ _ hq⟩)
      have hp1 : pendingTimes row { s with
          server := .serving (offset + len) len
          toServer := upd s.toServer r q
          toWorker := upd s.toWorker r (s.toWorker r ++ [.work offset len]) } r =
          pendingTimes row s r + if offset ≤ row ∧ row < offset + len then 1 else 0 := by
        unfold pendingTimes
        simp only [upd_same, orderRanges_append, timesIn_append]
        rw [← timesIn_one row offset len]
        simp [orderRanges]
        omega
      rw [hp1] at hp
      have hsum : (if row < offset + len then 1 else 0) = (if row < offset then 1 else 0) +
          (if offset ≤ row ∧ row < offset + len then 1 else 0) := by
        split <;> split <;> split <;> omega
      omega
    · intro _ hg; exact hg.elim
    · intro q' h1 h2 he
      rw [hf]
      by_cases hq : q' = r
      · subst hq
        simp only [upd_same] at he
        exact h.errs q' h1 h2 (by rw [hm]; exact List.mem_cons_of_mem _ he)
      · simp only [upd_ne _ _ hq] at he
        exact h.errs q' h1 h2 he
    · intro r' o l he
      rcases List.mem_append.mp he with he | he
      · exact h.handed _ _ _ he
      · rw [List.mem_singleton] at he
        cases he
        exact ⟨hl.1, hl.2.1, hl.2.2.1⟩
  | giveUp offset c r q hs hlt hr hm =>
    have hfail : failedRanges es ≠ [] := h.errs r hr.1 hr.2 (by rw [hm]; exact List.mem_cons_self)
    refine ⟨out, copyInv_server h trivial (by intro i hi; cases hi; exact Nat.le_refl _) ?_ (fun _ _ _ => rfl) ?_ fun _ => hfail⟩
    · intro r' h1 h2 h3
      have hb := h3.2 (by rw [hs]; simp [ServerAt.dismissed])
      refine ⟨fun hlt => by simp [ServerAt.dismissed] at hlt; omega, fun _ => ?_⟩
      by_cases hq : r' = r
      · subst hq
        simp only [upd_same]
        rw [hm] at hb
        generalize s.worker r' = w1 at hb ⊢
        generalize s.toWorker r' = w2 at hb ⊢
        cases hb with
        | asked m => exact .idle ⟨trivial, hfail⟩
      · simp only [upd_ne _ _ hq]
        exact hb.mono fun ⟨_, x⟩ => ⟨trivial, x⟩
    · intro r' h1 h2 h3
      by_cases hq : r' = r
      · subst hq
        simp only [upd_same] at h3
        rw [hm]; exact List.mem_cons_of_mem _ h3
      · simpa only [upd_ne _ _ hq] using h3
  | allOut offset c hs hge =>
    obtain ⟨h1, _, _⟩ := h.server _ _ hs
    refine ⟨out, copyInv_server h trivial (by intro i hi; cases hi; exact Nat.le_refl _) ?_ (fun _ _ _ => rfl)
      (fun _ _ _ => id) fun _ => by omega⟩
    intro r' h1 h2 h3
    have hb := h3.2 (by rw [hs]; simp [ServerAt.dismissed])
    exact ⟨fun hlt => by simp [ServerAt.dismissed] at hlt; omega, fun _ => hb.mono fun ⟨_, x⟩ => ⟨trivial, x⟩⟩
  | dismiss i hs hi =>
    refine ⟨out, copyInv_server h trivial (by intro j hj; cases hj; omega) ?_ ?_ (fun _ _ _ => id) fun ho => h.early ho (by rw [hs]; trivial)⟩
    · intro r' h1 h2 h3
      by_cases hq : r' = i
      · subst hq
        have hb := h3.2 (by rw [hs]; simp [ServerAt.dismissed])
        refine ⟨fun _ => ?_, fun hn => by simp [ServerAt.dismissed] at hn⟩
        simp only [upd_same]
        exact .busy (hb.mono fun ⟨_, x⟩ => x)
      · unfold WorkerOk
        rw [WorkerOk, hs] at h3
        simp only [upd_ne _ _ hq]
        refine ⟨fun hlt => ?_, fun hn => ?_⟩
        · simp only [ServerAt.dismissed] at hlt
          exact h3.1 (by simp only [ServerAt.dismissed]; omega)
        · simp only [ServerAt.dismissed] at hn
          have := h3.2 (by simp only [ServerAt.dismissed]; omega)
          exact this.mono fun ⟨_, x⟩ => ⟨trivial, x⟩
    · intro row r' _
      unfold pendingTimes
      by_cases hq : r' = i
      · subst hq
        simp only [upd_same, orderRanges_append, timesIn_append]
        simp [orderRanges, timesIn]
      · simp only [upd_ne _ _ hq]
  | leave i hs hi =>
    refine ⟨out, copyInv_server h trivial (by intro j hj; cases hj) ?_ (fun _ _ _ => rfl) (fun _ _ _ => id) fun ho => h.early ho (by rw [hs]; trivial)⟩
    intro r' h1 h2 h3
    rw [WorkerOk, hs] at h3
    exact ⟨fun _ => h3.1 (by simp only [ServerAt.dismissed]; omega), fun hn => absurd h2 hn⟩
  | start r hr hw =>
    refine ⟨out, copyInv_worker h hr rfl (fun q hq => ⟨upd_ne _ _ hq, rfl, upd_ne _ _ hq⟩) (by intro _ _ _ he; cases he) ?_ ?_ ?_⟩
    · intro ⟨h1, h2⟩
      have hf : failedRanges (es ++ [.other]) = failedRanges es := by simp [failedRanges]
      rw [hf]
      unfold WorkerOk
      simp only [upd_same]
      refine ⟨fun hx => ?_, fun hx => ?_⟩
      · have := h1 hx
        rw [hw] at this
        generalize s.toServer r = a at this ⊢
        generalize s.toWorker r = b at this ⊢
        cases this with
        | busy hb => cases hb with | starting => exact .busy (.asked _)
      · have := h2 hx
        rw [hw] at this
        generalize s.toServer r = a at this ⊢
        generalize s.toWorker r = b at this ⊢
        cases this with | starting => exact .asked _
    · intro row
      unfold pendingTimes
      simp [upd_same, hw, copiedRanges, failedRanges, atRanges, timesIn]
    · intro he
      simp only [upd_same] at he
      rcases List.mem_append.mp he with he | he
      · exact Or.inl he
      · simp at he
  | take r offset len q hr hw hm =>
    refine ⟨out, copyInv_worker h hr rfl (fun q hq => ⟨upd_ne _ _ hq, upd_ne _ _ hq, rfl⟩) (by intro _ _ _ he; cases he) ?_ ?_ Or.inl⟩
    · intro ⟨h1, h2⟩
      have hf : failedRanges (es ++ [.taken r offset len]) = failedRanges es := by simp [failedRanges]
      rw [hf]
      unfold WorkerOk
      simp only [upd_same]
      refine ⟨fun hx => ?_, fun hx => ?_⟩
      · have := h1 hx
        rw [hw] at this
        generalize s.toServer r = a at this ⊢
        generalize s.toWorker r = b at this hm
        cases this with
        | busy hb =>
          cases hb with
          | asked => simp at hm
          | ordered o l =>
            simp only [List.singleton_append, List.cons.injEq, Order.work.injEq] at hm
            obtain ⟨⟨rfl, rfl⟩, rfl⟩ := hm
            exact .busy (o := []) (.copying _ _)
          | idle => simp at hm
      · have := h2 hx
        rw [hw] at this
        generalize s.toServer r = a at this ⊢
        generalize s.toWorker r = b at this hm
        cases this with
        | asked => cases hm
        | ordered o l => cases hm; exact .copying _ _
        | idle => cases hm
    · intro row
      unfold pendingTimes
      simp only [upd_same, hm, hw]
      simp [copiedRanges, failedRanges, atRanges, orderRanges, timesIn, List.countP_cons]
  | quit r q hr hw hm =>
    refine ⟨out, copyInv_worker h hr rfl (fun q hq => ⟨upd_ne _ _ hq, upd_ne _ _ hq, rfl⟩) (by intro _ _ _ he; cases he) ?_ ?_ Or.inl⟩
    · intro ⟨h1, h2⟩
      have hf : failedRanges (es ++ [.other]) = failedRanges es := by simp [failedRanges]
      rw [hf]
      unfold WorkerOk
      simp only [upd_same]
      refine ⟨fun hx => ?_, fun hx => ?_⟩
      · have := h1 hx
        rw [hw] at this
        generalize s.toServer r = a at this ⊢
        generalize s.toWorker r = b at this hm
        cases this with
        | busy hb =>
          cases hb with
          | asked => simp at hm; subst hm; exact .left _ fun _ => rfl
          | ordered o l => simp at hm
          | idle hbad => simp at hm; subst hm; exact .left _ fun hn => absurd hbad hn
      · have := h2 hx
        rw [hw] at this
        generalize s.toServer r = a at this ⊢
        generalize s.toWorker r = b at this hm
        cases this with
        | asked => cases hm
        | ordered o l => cases hm
        | idle => cases hm
    · intro row
      unfold pendingTimes
      simp only [upd_same, hm, hw]
      simp [copiedRanges, failedRanges, atRanges, orderRanges, timesIn]
  | copied r offset len hr hw =>
    refine ⟨out, copyInv_worker h hr rfl (fun q hq => ⟨upd_ne _ _ hq, rfl, upd_ne _ _ hq⟩) (by intro _ _ _ he; cases he) ?_ ?_ ?_⟩
    · intro ⟨h1, h2⟩
      have hf : failedRanges (es ++ [.copied r offset len]) = failedRanges es := by simp [failedRanges]
      rw [hf]
      unfold WorkerOk
      simp only [upd_same]
      refine ⟨fun hx => ?_, fun hx => ?_⟩
      · have := h1 hx
        rw [hw] at this
        generalize s.toServer r = a at this ⊢
        generalize s.toWorker r = b at this ⊢
        cases this with
        | busy hb => cases hb with | copying => exact .busy (.asked _)
      · have := h2 hx
        rw [hw] at this
        generalize s.toServer r = a at this ⊢
        generalize s.toWorker r = b at this ⊢
        cases this with | copying => exact .asked _
    · intro row
      unfold pendingTimes
      simp only [upd_same, hw]
      simp [copiedRanges, failedRanges, atRanges, timesIn]
      omega
    · intro he
      simp only [upd_same] at he
      rcases List.mem_append.mp he with he | he
      · exact Or.inl he
      · simp at he
  | failed r offset len hr hw =>
    refine ⟨out, copyInv_worker h hr rfl (fun q hq => ⟨upd_ne _ _ hq, rfl, upd_ne _ _ hq⟩) (by intro _ _ _ he; cases he) ?_ ?_ ?_⟩
    · intro ⟨h1, h2⟩
      have hf : failedRanges es ≠ [] → failedRanges (es ++ [.failed r offset len]) ≠ [] := by
        intro _ h2
        rw [failedRanges_append] at h2
        simp [failedRanges] at h2
      unfold WorkerOk
      simp only [upd_same]
      refine ⟨fun hx => ?_, fun hx => ?_⟩
      · have := h1 hx
        rw [hw] at this
        generalize s.toServer r = a at this ⊢
        generalize s.toWorker r = b at this ⊢
        cases this with
        | busy hb => cases hb with | copying => exact .busy (.asked _)
      · have := h2 hx
        rw [hw] at this
        generalize s.toServer r = a at this ⊢
        generalize s.toWorker r = b at this ⊢
        cases this with | copying => exact .asked _
    · intro row
      unfold pendingTimes
      simp only [upd_same, hw]
      simp [copiedRanges, failedRanges, atRanges, timesIn]
      omega
    · intro _
      exact Or.inr (by simp [failedRanges])

theorem copyInv_run {n size chunk : Nat} {es : List CopyEvent} {s : CopyConf} (hc : 0 < chunk)
    (t : CopyRun n size (copyStart chunk) es s) : ∃ out, CopyInv n size chunk es out s := by
  induction t with
  | nil => exact ⟨0, copyInv_start _ _ _⟩
  | snoc t h ih =>
    obtain ⟨out, hi⟩ := ih
    exact copyInv_step hc hi h

/-! ### The number of steps -/

def orderWeight : Order → Nat
  | .work _ _ => 2
  | .die => 1

def workerWeight (s : CopyConf) (r : Nat) : Nat :=
  (match s.worker r with | .starting => 1 | .copying _ _ => 1 | _ => 0) + ((s.toWorker r).map orderWeight).sum

def serverWeight (n size : Nat) : ServerAt → Nat
  | .serving o _ => 4 * (size - o) + 2 * n + 4
  | .dismissing i => 2 * (n - i) + 1
  | .left => 0

/-- It gets smaller with every step. -/
def copyWeight (n size : Nat) (s : CopyConf) : Nat := serverWeight n size s.server + sumTo n (workerWeight s)

theorem weight_change {n : Nat} {s s' : CopyConf} {r : Nat} (hr : r < n)
    (h : ∀ q, q ≠ r → s'.worker q = s.worker q ∧ s'.toWorker q = s.toWorker q) :
    sumTo n (workerWeight s') + workerWeight s r = sumTo n (workerWeight s) + workerWeight s' r := by
  refine sumTo_change hr fun q hq => ?_
  unfold workerWeight
  rw [(h q hq).1, (h q hq).2]

theorem copyWeight_step {n size chunk out : Nat} {es : List CopyEvent} {s s' : CopyConf} {e : CopyEvent} (hc : 0 < chunk)
    (h : CopyInv n size chunk es out s) (t : CopyStep n size s e s') : copyWeight n size s' + 1 ≤ copyWeight n size s := by
  cases t with
  | hand offset c r q hs hlt hr hm =>
    obtain ⟨h1, h2, h3⟩ := h.server _ _ hs
    have hl : 0 < nextLen size offset c ∧ offset + nextLen size offset c ≤ size := by
      unfold nextLen; split <;> omega
    generalize nextLen size offset c = len at hl ⊢
    have hp := weight_change (n := n) (s := s) (s' := { s with
          server := .serving (offset + len) len
          toServer := upd s.toServer r q
          toWorker := upd s.toWorker r (s.toWorker r ++ [.work offset len]) }) hr.2 (fun q' hq => ⟨rfl, upd_ne _ _ hq⟩)
    unfold copyWeight
    rw [hs]
    simp only [serverWeight]
    simp only [workerWeight, upd_same, List.map_append, List.sum_append] at hp
    simp only [List.map, orderWeight, List.sum_cons, List.sum_nil] at hp
    omega
  | giveUp offset c r q hs hlt hr hm =>
    unfold copyWeight
    rw [hs]
    simp only [serverWeight]
    have : sumTo n (workerWeight { s with server := .dismissing 1, toServer := upd s.toServer r q }) = sumTo n (workerWeight s) := rfl
    omega
  | allOut offset c hs hge =>
    unfold copyWeight
    rw [hs]
    simp only [serverWeight]
    have : sumTo n (workerWeight { s with server := .dismissing 1 }) = sumTo n (workerWeight s) := rfl
    omega
  | dismiss i hs hi =>
    have hp := weight_change (n := n) (s := s) (s' := { s with
          server := .dismissing (i + 1)
          toWorker := upd s.toWorker i (s.toWorker i ++ [.die]) }) hi (fun q' hq => ⟨rfl, upd_ne _ _ hq⟩)
    unfold copyWeight
    rw [hs]
    simp only [serverWeight]
    simp only [workerWeight, upd_same, List.map_append, List.sum_append] at hp
    simp only [List.map, orderWeight, List.sum_cons, List.sum_nil] at hp
    omega
  | leave i hs hi =>
    unfold copyWeight
    rw [hs]
    simp only [serverWeight]
    have : sumTo n (workerWeight { s with server := .left }) = sumTo n (workerWeight s) := rfl
    omega
  | start r hr hw =>
    have hp := weight_change (n := n) (s := s) (s' := { s with
          worker := upd s.worker r .waiting
          toServer := upd s.toServer r (s.toServer r ++ [.done]) }) hr.2 (fun q' hq => ⟨upd_ne _ _ hq, rfl⟩)
    unfold copyWeight
    simp only [workerWeight, upd_same, hw] at hp
    dsimp only
    omega
  | take r offset len q hr hw hm =>
    have hp := weight_change (n := n) (s := s) (s' := { s with
          worker := upd s.worker r (.copying offset len)
          toWorker := upd s.toWorker r q }) hr.2 (fun q' hq => ⟨upd_ne _ _ hq, upd_ne _ _ hq⟩)
    unfold copyWeight
    simp only [workerWeight, upd_same, hw, hm, List.map, orderWeight, List.sum_cons] at hp
    dsimp only
    omega
  | quit r q hr hw hm =>
    have hp := weight_change (n := n) (s := s) (s' := { s with
          worker := upd s.worker r .left
          toWorker := upd s.toWorker r q }) hr.2 (fun q' hq => ⟨upd_ne _ _ hq, upd_ne _ _ hq⟩)
    unfold copyWeight
    simp only [workerWeight, upd_same, hw, hm, List.map, orderWeight, List.sum_cons] at hp
    dsimp only
    omega
  | copied r offset len hr hw =>
    have hp := weight_change (n := n) (s := s) (s' := { s with
          worker := upd s.worker r .waiting
          toServer := upd s.toServer r (s.toServer r ++ [.done]) }) hr.2 (fun q' hq => ⟨upd_ne _ _ hq, rfl⟩)
    unfold copyWeight
    simp only [workerWeight, upd_same, hw] at hp
    dsimp only
    omega
  | failed r offset len hr hw =>
    have hp := weight_change (n := n) (s := s) (s' := { s with
          worker := upd s.worker r .waiting
          toServer := upd s.toServer r (s.toServer r ++ [.error]) }) hr.2 (fun q' hq => ⟨upd_ne _ _ hq, rfl⟩)
    unfold copyWeight
    simp only [workerWeight, upd_same, hw] at hp
    dsimp only
    omega

theorem sumTo_const (n k : Nat) : sumTo n (fun _ => k) = n * k := by
  induction n with
  | zero => simp [sumTo]
  | succ n ih => rw [sumTo_succ, ih, Nat.succ_mul]

theorem copyWeight_start (n size chunk : Nat) : copyWeight n size (copyStart chunk) = 4 * size + 3 * n + 4 := by
  have : sumTo n (workerWeight (copyStart chunk)) = n := by
    have := sumTo_const n 1
    rw [Nat.mul_one] at this
    exact this
  unfold copyWeight
  rw [this]
  simp only [copyStart, serverWeight]
  omega

theorem copyRun_length {n size chunk : Nat} {es : List CopyEvent} {s : CopyConf} (hc : 0 < chunk)
    (t : CopyRun n size (copyStart chunk) es s) : es.length + copyWeight n size s ≤ 4 * size + 3 * n + 4 := by
  rw [← copyWeight_start n size chunk]
  induction t with
  | nil => simp
  | snoc t h ih =>
    obtain ⟨out, hi⟩ := copyInv_run hc t
    have := copyWeight_step hc hi h
    rw [List.length_append]
    simp only [List.length_cons, List.length_nil]
    omega

/-! ### No deadlock -/

theorem copy_stuck {n size chunk out : Nat} {es : List CopyEvent} {s : CopyConf} (h : CopyInv n size chunk es out s) (hn : 2 ≤ n)
    (hs : CopyStuck n size s) : AllLeft n s := by
  have hbusy : ∀ (r : Nat) (b : Prop), 1 ≤ r → r < n → Busy b (s.worker r) (s.toServer r) (s.toWorker r) →
      s.worker r = .waiting ∧ s.toWorker r = [] := by
    intro r b h1 h2 hb
    generalize hw : s.worker r = w1 at hb
    generalize hx : s.toServer r = w2 at hb
    generalize ho : s.toWorker r = w3 at hb
    cases hb with
    | starting => exact absurd (CopyStep.start s r ⟨h1, h2⟩ hw) (hs _ _)
    | asked m => exact ⟨rfl, rfl⟩
    | ordered o l => exact absurd (CopyStep.take s r o l [] ⟨h1, h2⟩ hw ho) (hs _ _)
    | copying o l => exact absurd (CopyStep.copied s r o l ⟨h1, h2⟩ hw) (hs _ _)
    | idle => exact ⟨rfl, rfl⟩
  have hleft : s.server = .left := by
    cases hsv : s.server with
    | left => rfl
    | dismissing i =>
      by_cases hi : i < n
      · exact absurd (CopyStep.dismiss s i hsv hi) (hs _ _)
      · exact absurd (CopyStep.leave s i hsv hi) (hs _ _)
    | serving o c =>
      by_cases hlt : o < size
      · obtain ⟨_, hb⟩ := h.workers 1 (Nat.le_refl _) (by omega)
        rw [hsv] at hb
        have hb := hb (by simp [ServerAt.dismissed])
        obtain ⟨h1, h2⟩ := hbusy 1 _ (Nat.le_refl _) (by omega) hb
        rw [h1, h2] at hb
        generalize hx : s.toServer 1 = w2 at hb
        cases hb with
        | asked m =>
          cases m with
          | done => exact absurd (CopyStep.hand s o c 1 [] hsv hlt ⟨Nat.le_refl _, by omega⟩ hx) (hs _ _)
          | error => exact absurd (CopyStep.giveUp s o c 1 [] hsv hlt ⟨Nat.le_refl _, by omega⟩ hx) (hs _ _)
        | idle hg => exact hg.1.elim
      · exact absurd (CopyStep.allOut s o c hsv hlt) (hs _ _)
  refine ⟨hleft, fun r h1 h2 => ?_⟩
  have hd := (h.workers r h1 h2).1 (by rw [hleft]; exact h2)
  generalize hw : s.worker r = w1 at hd ⊢
  generalize hx : s.toServer r = w2 at hd
  generalize ho : s.toWorker r = w3 at hd
  cases hd with
  | left => rfl
  | busy hb =>
    cases hb with
    | starting => exact absurd (CopyStep.start s r ⟨h1, h2⟩ hw) (hs _ _)
    | asked m => exact absurd (CopyStep.quit s r [] ⟨h1, h2⟩ hw ho) (hs _ _)
    | ordered o l => exact absurd (CopyStep.take s r o l [.die] ⟨h1, h2⟩ hw ho) (hs _ _)
    | copying o l => exact absurd (CopyStep.copied s r o l ⟨h1, h2⟩ hw) (hs _ _)
    | idle => exact absurd (CopyStep.quit s r [] ⟨h1, h2⟩ hw ho) (hs _ _)

/-- Nobody has anything to do any more. -/
theorem CopyInv.noPending {n size chunk out : Nat} {es : List CopyEvent} {s : CopyConf} (h : CopyInv n size chunk es out s)
    (hl : AllLeft n s) (h0 : s.worker 0 = .starting ∧ s.toWorker 0 = []) (row : Nat) : sumTo n (pendingTimes row s) = 0 := by
  refine sumTo_zero fun r hr => ?_
  unfold pendingTimes
  by_cases h1 : r = 0
  · subst h1
    rw [h0.1, h0.2]; rfl
  · have hd := (h.workers r (by omega) hr).1 (by rw [hl.1]; exact hr)
    rw [hl.2 r (by omega) hr] at hd ⊢
    generalize s.toServer r = w2 at hd
    generalize s.toWorker r = w3 at hd ⊢
    cases hd with
    | left => rfl
    | busy hb => cases hb

theorem copyRun_zero {n size chunk : Nat} {es : List CopyEvent} {s : CopyConf} (hc : 0 < chunk) (t : CopyRun n size (copyStart chunk) es s) :
    s.worker 0 = .starting ∧ s.toWorker 0 = [] ∧ s.toServer 0 = [] := by
  induction t with
  | nil => exact ⟨rfl, rfl, rfl⟩
  | snoc t h ih =>
    have := ih
    cases h with
    | hand o c r q _ _ hr _ => exact ⟨this.1, by dsimp only; rw [upd_ne _ _ (by omega)]; exact this.2.1, by dsimp only; rw [upd_ne _ _ (by omega)]; exact this.2.2⟩
    | giveUp o c r q _ _ hr _ => exact ⟨this.1, this.2.1, by dsimp only; rw [upd_ne _ _ (by omega)]; exact this.2.2⟩
    | allOut => exact this
    | dismiss i hs hi =>
      obtain ⟨out, hi⟩ := copyInv_run hc t
      have := hi.dis i hs
      exact ⟨ih.1, by dsimp only; rw [upd_ne _ _ (by omega)]; exact ih.2.1, ih.2.2⟩
    | leave => exact this
    | start r hr => exact ⟨by dsimp only; rw [upd_ne _ _ (by omega)]; exact this.1, this.2.1, by dsimp only; rw [upd_ne _ _ (by omega)]; exact this.2.2⟩
    | take r o l q hr => exact ⟨by dsimp only; rw [upd_ne _ _ (by omega)]; exact this.1, by dsimp only; rw [upd_ne _ _ (by omega)]; exact this.2.1, this.2.2⟩
    | quit r q hr => exact ⟨by dsimp only; rw [upd_ne _ _ (by omega)]; exact this.1, by dsimp only; rw [upd_ne _ _ (by omega)]; exact this.2.1, this.2.2⟩
    | copied r o l hr => exact ⟨by dsimp only; rw [upd_ne _ _ (by omega)]; exact this.1, this.2.1, by dsimp only; rw [upd_ne _ _ (by omega)]; exact this.2.2⟩
    | failed r o l hr => exact ⟨by dsimp only; rw [upd_ne _ _ (by omega)]; exact this.1, this.2.1, by dsimp only; rw [upd_ne _ _ (by omega)]; exact this.2.2⟩

end Verif
