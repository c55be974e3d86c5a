import Verif.Proof.CopyMpi
/-!
# C52: parallel copy covers every row exactly once
-/

set_option autoImplicit false

namespace Verif

open Spec

/-- C52. `n` processes copy `size` rows, at most `chunk` rows at a time. However they are scheduled:

* there is a bound on the number of steps;
* no row is ever copied twice, and no range goes beyond the end or is larger than the buffer;
* when nobody can go on, all processes have left their functions (there is no deadlock), and if no copy failed, every row has
  been copied exactly once.

It needs a second process and a buffer of at least one row, see `C52_alone` and `C52_small_buffer`. -/
theorem C52_parallel_copy_partial (n size chunk : Nat) (hn : 2 ≤ n) (hc : 0 < chunk) (es : List CopyEvent) (s : CopyConf)
    (t : CopyRun n size (copyStart chunk) es s) :
    es.length ≤ 4 * size + 3 * n + 4 ∧
    (∀ row, timesIn row (copiedRanges es) ≤ 1 ∧ (size ≤ row → timesIn row (copiedRanges es) = 0)) ∧
    (∀ r o l, .hand r o l ∈ es → 0 < l ∧ l ≤ chunk ∧ o + l ≤ size) ∧
    (CopyStuck n size s → AllLeft n s ∧
      (failedRanges es = [] → ∀ row, row < size → timesIn row (copiedRanges es) = 1)) := by
  obtain ⟨out, h⟩ := copyInv_run hc t
  have hz := copyRun_zero hc t
  refine ⟨by have := copyRun_length hc t; omega, fun row => ?_, h.handed, fun hs => ?_⟩
  · have h1 := h.rows row
    have h2 := h.out_le
    refine ⟨?_, fun h3 => ?_⟩
    · split at h1 <;> omega
    · rw [if_neg (by omega)] at h1
      omega
  · have hl := copy_stuck h hn hs
    refine ⟨hl, fun hf row hrow => ?_⟩
    have hout : out = size := by
      have := h.out_le
      by_cases h1 : out < size
      · exact absurd hf (h.early h1 (by rw [hl.1]; trivial))
      · omega
    have h1 := h.rows row
    rw [h.noPending hl ⟨hz.1, hz.2.1⟩, hf, if_pos (by omega)] at h1
    simpa [timesIn] using h1

/-- Every way the processes can be scheduled can be continued until nobody can go on. -/
theorem C52_ends (n size chunk : Nat) (hc : 0 < chunk) (es : List CopyEvent) (s : CopyConf)
    (t : CopyRun n size (copyStart chunk) es s) :
    ∃ es' s', CopyRun n size (copyStart chunk) es' s' ∧ CopyStuck n size s' := by
  generalize hw : 4 * size + 3 * n + 4 - es.length = k
  induction k generalizing es s with
  | zero =>
    refine ⟨es, s, t, fun e s' h => ?_⟩
    have h1 := copyRun_length hc (t.snoc h)
    have h2 := copyRun_length hc t
    rw [List.length_append] at h1
    simp only [List.length_cons, List.length_nil] at h1
    omega
  | succ k ih =>
    by_cases hs : CopyStuck n size s
    · exact ⟨es, s, t, hs⟩
    · have : ∃ e s', CopyStep n size s e s' := by
        refine Classical.byContradiction fun hn => hs fun e s' h => hn ⟨e, s', h⟩
      obtain ⟨e, s', h⟩ := this
      refine ih (es ++ [e]) s' (t.snoc h) ?_
      rw [List.length_append]
      simp only [List.length_cons, List.length_nil]
      omega

/-- The last message of every process is never received: `n - 1` messages are left over. (The program relies on `MPI_Send`
returning before the message is received.) -/
theorem C52_leftover (n size chunk : Nat) (hn : 2 ≤ n) (hc : 0 < chunk) (es : List CopyEvent) (s : CopyConf)
    (t : CopyRun n size (copyStart chunk) es s) (hs : CopyStuck n size s) (hf : failedRanges es = []) :
    unreceived n s = n - 1 := by
  obtain ⟨out, h⟩ := copyInv_run hc t
  have hz := copyRun_zero hc t
  have hl := copy_stuck h hn hs
  have h1 : ∀ r, 1 ≤ r → r < n → (s.toServer r).length = 1 := by
    intro r h1 h2
    have hd := (h.workers r h1 h2).1 (by rw [hl.1]; exact h2)
    rw [hl.2 r h1 h2] at hd
    generalize s.toServer r = w2 at hd ⊢
    generalize s.toWorker r = w3 at hd
    cases hd with
    | left q hq => exact hq fun hx => hx hf
    | busy hb => cases hb
  have : ∀ m, m ≤ n → sumTo m (fun r => (s.toServer r).length) = m - 1 := by
    intro m
    induction m with
    | zero => intro _; rfl
    | succ m ih =>
      intro hm
      rw [sumTo_succ, ih (by omega)]
      by_cases h0 : m = 0
      · subst h0; rw [hz.2.2]; rfl
      · rw [h1 m (by omega) (by omega)]; omega
  exact this n (Nat.le_refl _)

/-- Alone, process 0 waits for a message that nobody sends. -/
theorem C52_alone (size chunk : Nat) (h : 0 < size) : CopyStuck 1 size (copyStart chunk) ∧ ¬ AllLeft 1 (copyStart chunk) := by
  refine ⟨fun e s' t => ?_, fun h => nomatch h.1⟩
  cases t with
  | hand _ _ r => omega
  | giveUp _ _ r => omega
  | allOut o c hs hge => cases hs; omega
  | dismiss i hs => cases hs
  | leave i hs => cases hs
  | start r => omega
  | take r => omega
  | quit r => omega
  | copied r => omega
  | failed r => omega

/-- With a buffer smaller than a row, the processes exchange ranges of no rows forever: there are runs of every length. -/
theorem C52_small_buffer (n size : Nat) (hn : 2 ≤ n) (hs : 0 < size) :
    ∀ k, ∃ es s, CopyRun n size (copyStart 0) es s ∧ k ≤ es.length ∧ copiedRanges es = List.replicate k (0, 0) := by
  have hstart : ∀ k, ∃ es s, CopyRun n size (copyStart 0) es s ∧ k ≤ es.length ∧ copiedRanges es = List.replicate k (0, 0) ∧
      s.server = .serving 0 0 ∧ s.worker 1 = .waiting ∧ s.toServer 1 = [.done] ∧ s.toWorker 1 = [] := by
    intro k
    induction k with
    | zero =>
      refine ⟨[] ++ [.other], _, CopyRun.snoc (.nil _) (.start _ 1 ⟨Nat.le_refl _, by omega⟩ rfl), Nat.zero_le _, rfl, rfl, ?_, ?_, rfl⟩
      · rfl
      · rfl
    | succ k ih =>
      obtain ⟨es, s, t, h1, h2, h3, h4, h5, h6⟩ := ih
      have hl : nextLen size 0 0 = 0 := by unfold nextLen; split <;> omega
      have t1 := t.snoc (.hand s 0 0 1 [] h3 hs ⟨Nat.le_refl _, by omega⟩ h5)
      rw [hl] at t1
      have t2 := t1.snoc (.take _ 1 0 0 [] ⟨Nat.le_refl _, by omega⟩ h4 (by simp only [upd_same]; rw [h6]; rfl))
      have t3 := t2.snoc (.copied _ 1 0 0 ⟨Nat.le_refl _, by omega⟩ rfl)
      refine ⟨_, _, t3, ?_, ?_, rfl, ?_, ?_, ?_⟩
      · simp only [List.length_append, List.length_cons, List.length_nil]; omega
      · rw [copiedRanges_append, copiedRanges_append, copiedRanges_append, h2, List.replicate_succ']
        simp [copiedRanges]
      · rfl
      · simp only [upd_same]; rfl
      · rfl
  intro k
  obtain ⟨es, s, h1, h2, h3, _⟩ := hstart k
  exact ⟨es, s, h1, h2, h3⟩

/-- When copying the last range fails, nobody notices: there is a run in which every process leaves its function, just as in a
run without failures, but no row was copied. (`main` then returns 0.) -/
theorem C52_failure_unnoticed : ∃ es s, CopyRun 2 3 (copyStart 3) es s ∧ AllLeft 2 s ∧ copiedRanges es = [] ∧
    s.toServer 1 = [.error] := by
  have t := CopyRun.nil (n := 2) (size := 3) (copyStart 3)
  have t := t.snoc (.start _ 1 ⟨by decide, by decide⟩ rfl)
  have t := t.snoc (.hand _ 0 3 1 [] rfl (by decide) ⟨by decide, by decide⟩ rfl)
  have t := t.snoc (.take _ 1 0 3 [] ⟨by decide, by decide⟩ rfl rfl)
  have t := t.snoc (.failed _ 1 0 3 ⟨by decide, by decide⟩ rfl)
  have t := t.snoc (.allOut _ 3 3 rfl (by decide))
  have t := t.snoc (.dismiss _ 1 rfl (by decide))
  have t := t.snoc (.leave _ 2 rfl (by decide))
  have t := t.snoc (.quit _ 1 [] ⟨by decide, by decide⟩ rfl rfl)
  refine ⟨_, _, t, ⟨rfl, fun r h1 h2 => ?_⟩, rfl, rfl⟩
  have : r = 1 := by omega
  subst this
  rfl

/-- An example of `C52_parallel_copy_partial`: three processes, five rows, two at a time; process 2 copies the first range
after process 1 has copied the others. -/
example : ∃ es s, CopyRun 3 5 (copyStart 2) es s ∧ AllLeft 3 s ∧ failedRanges es = [] ∧
    copiedRanges es = [(2, 2), (4, 1), (0, 2)] := by
  have t := CopyRun.nil (n := 3) (size := 5) (copyStart 2)
  have t := t.snoc (.start _ 2 ⟨by decide, by decide⟩ rfl)
  have t := t.snoc (.start _ 1 ⟨by decide, by decide⟩ rfl)
  have t := t.snoc (.hand _ 0 2 2 [] rfl (by decide) ⟨by decide, by decide⟩ rfl)
  have t := t.snoc (.hand _ 2 2 1 [] rfl (by decide) ⟨by decide, by decide⟩ rfl)
  have t := t.snoc (.take _ 1 2 2 [] ⟨by decide, by decide⟩ rfl rfl)
  have t := t.snoc (.copied _ 1 2 2 ⟨by decide, by decide⟩ rfl)
  have t := t.snoc (.hand _ 4 2 1 [] rfl (by decide) ⟨by decide, by decide⟩ rfl)
  have t := t.snoc (.allOut _ 5 1 rfl (by decide))
  have t := t.snoc (.dismiss _ 1 rfl (by decide))
  have t := t.snoc (.take _ 1 4 1 [.die] ⟨by decide, by decide⟩ rfl rfl)
  have t := t.snoc (.copied _ 1 4 1 ⟨by decide, by decide⟩ rfl)
  have t := t.snoc (.quit _ 1 [] ⟨by decide, by decide⟩ rfl rfl)
  have t := t.snoc (.take _ 2 0 2 [] ⟨by decide, by decide⟩ rfl rfl)
  have t := t.snoc (.copied _ 2 0 2 ⟨by decide, by decide⟩ rfl)
  have t := t.snoc (.dismiss _ 2 rfl (by decide))
  have t := t.snoc (.leave _ 3 rfl (by decide))
  have t := t.snoc (.quit _ 2 [] ⟨by decide, by decide⟩ rfl rfl)
  refine ⟨_, _, t, ⟨rfl, fun r h1 h2 => ?_⟩, rfl, rfl⟩
  have : r = 1 ∨ r = 2 := by omega
  rcases this with rfl | rfl <;> rfl

end Verif
