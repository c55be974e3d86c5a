import Verif.Proof.ErrMsg
/-!
# C39: error messages
-/

set_option autoImplicit false

namespace Verif

open Spec

/-- **C39** (partial: the threads set messages or raise errors with a message of their own, whose texts fit; where there is an atomic
exchange). Any number of threads, any calls, any schedule: nothing undefined happens, so no buffer is released twice or
used after its release. The calls end. A buffer in use is the current message unless a call is going on. When
all calls have returned, the current message is the only buffer in use, so every other was released, and it is the message of the last
call of one of the threads. -/
theorem C39_threads_partial (sh : EShared) (progs : List (List EOp)) (hq : Quiet sh) (hp : ∀ prog ∈ progs, ∀ op ∈ prog, Sets op)
    (n : Nat) (S : ESys) (h : ERun true n (ESys.start sh progs) S) :
    ¬ S.Undefined true ∧ n ≤ 5 * (progs.map List.length).sum ∧
    (∀ p, S.sh.cur = some p → (S.sh.text p).isSome) ∧
    (∀ p, (S.sh.text p).isSome → S.sh.cur = some p ∨ ∃ t ∈ S.ths, ¬ t.finished ∧ p ∈ t.pc.holds) ∧
    (S.finished → Quiet S.sh ∧
      ((∀ prog ∈ progs, prog = []) ∧ current S.sh = current sh ∨
        ∃ prog ∈ progs, ∃ op, prog.getLast? = some op ∧ current S.sh = message op)) := by
  obtain ⟨hI, hn⟩ := EInv.run hq hp h
  have hleft : (ESys.start sh progs).left = 5 * (progs.map List.length).sum := by
    unfold ESys.start ESys.left
    clear hp h hI hn
    induction progs with
    | nil => rfl
    | cons a l ih =>
      simp only [List.map_cons, List.sum_cons, List.map_map] at ih ⊢
      rw [ih]
      unfold EThread.left
      dsimp only
      omega
  have hlive : ∀ p, (S.sh.text p).isSome → S.sh.cur = some p ∨ ∃ t ∈ S.ths, ¬ t.finished ∧ p ∈ t.pc.holds := by
    intro p hl
    have h1 := hI.owned p
    rw [if_pos hl] at h1
    have h2 : p ∈ S.owned := List.count_pos_iff.mp (by omega)
    unfold ESys.owned at h2
    rcases List.mem_append.mp h2 with h3 | h3
    · left
      cases hc : S.sh.cur with
      | none => rw [hc] at h3; simp at h3
      | some q => rw [hc] at h3; simp at h3; rw [h3]
    · right
      obtain ⟨t, ht, hh⟩ := List.mem_flatMap.mp h3
      refine ⟨t, ht, ?_, hh⟩
      rintro ⟨hr, _⟩
      rw [hr] at hh
      simp [EPc.holds] at hh
  refine ⟨?_, by omega, fun p hc => hI.cur_live hc, hlive, ?_⟩
  · rintro ⟨i, t, hi, hf, e⟩
    obtain ⟨sh', t', e', _⟩ := hI.thread_step hp hi hf
    rw [e] at e'
    cases e'
  · intro hf
    refine ⟨?_, ?_⟩
    · intro p
      refine ⟨fun hl => ?_, fun hc => hI.cur_live hc⟩
      rcases hlive p hl with h1 | ⟨t, ht, hn, _⟩
      · exact h1
      · exact absurd (hf t ht) hn
    · rcases hI.last with ⟨_, k2, k3⟩ | ⟨i, t, prog, fin, op, hi, hpr, hcur, k⟩
      · left
        refine ⟨?_, k2⟩
        intro prog hpr
        obtain ⟨i, hi⟩ := List.mem_iff_getElem?.mp hpr
        have hlt : i < S.ths.length := by
          rw [hI.len]
          apply Decidable.byContradiction
          intro hc
          rw [List.getElem?_eq_none (by omega)] at hi
          cases hi
        have := k3 i _ prog (List.getElem?_eq_getElem hlt) hi
        rw [← this.2]
        exact (hf _ (List.getElem_mem hlt)).2
      · right
        have hft := hf t (List.mem_of_getElem? hi)
        refine ⟨prog, List.mem_of_getElem? hpr, op, ?_, hcur⟩
        rcases k with ⟨k, _⟩ | ⟨rest, _, k, _⟩
        · rw [k, hft.2]
          simp
        · rw [hft.2] at k
          cases k

/-- **C39** (partial: one thread alone; a message that is raised again must not contain a percent sign). After any calls, each
buffer but the current message is released, nothing undefined happens on the way, and the message is what the calls make of it:
raising again keeps the text and adds the place. -/
theorem C39_alone_partial (sh : EShared) (ops : List EOp) (hq : Quiet sh) (hm : MayCallAll (current sh) ops) :
    ∃ n S, ERun true n (ESys.start sh [ops]) S ∧ S.finished ∧ Quiet S.sh ∧ current S.sh = ops.foldl messageAfter (current sh) ∧
      ∀ m T, ERun true m (ESys.start sh [ops]) T → ¬ T.Undefined true ∧ (T.finished → T = S) := by
  obtain ⟨n, sh', r, q, c⟩ := calls_alone ops hq hm
  have hf : ESys.finished ⟨sh', [⟨.ready, []⟩]⟩ := by
    intro t ht
    simp only [List.mem_singleton] at ht
    subst ht
    exact ⟨rfl, rfl⟩
  exact ⟨n, _, r, hf, q, c, fun m T hT => ⟨(r.alone hf hT).1, (r.alone hf hT).2.1⟩⟩

/-! ### Examples -/

/-- One message. -/
def exErr : EShared := ⟨[none, some b!"old"], some 1⟩

theorem exErr_quiet : Quiet exErr := by
  intro p
  match p with
  | 0 => decide
  | 1 => decide
  | p + 2 => simp [exErr, EShared.text]

/-- Three threads set and raise messages. -/
def exErrProgs : List (List EOp) :=
  [[.raise b!"Failed to open `%s' (%d)" [b!"a/b", b!"2"] b!"bigfile.c" 189, .set none],
    [.set (some b!"x")], [.raise b!"Size mismatched" [] b!"bigfile.c" 700]]

theorem exErr_sets : ∀ prog ∈ exErrProgs, ∀ op ∈ prog, Sets op := by
  intro prog hp
  simp only [exErrProgs, List.mem_cons, List.not_mem_nil, or_false] at hp
  rcases hp with rfl | rfl | rfl <;> intro op hop <;> simp only [List.mem_cons, List.not_mem_nil, or_false] at hop
  · rcases hop with rfl | rfl
    · exact ⟨by decide, b!"Failed to open `a/b' (2) @(bigfile.c:189)", by decide, by decide⟩
    · exact trivial
  · subst hop; exact trivial
  · subst hop
    exact ⟨by decide, b!"Size mismatched @(bigfile.c:700)", by decide, by decide⟩

example (n : Nat) (S : ESys) (h : ERun true n (ESys.start exErr exErrProgs) S) : ¬ S.Undefined true ∧ n ≤ 20 := by
  have := C39_threads_partial exErr exErrProgs exErr_quiet exErr_sets n S h
  exact ⟨this.1, this.2.1⟩

/-- The example of `C39_alone_partial`: a failure is raised, and raised again by two callers. -/
example : ∃ n S, ERun true n (ESys.start exErr [[.raise b!"Failed to open `%s'" [b!"a"] b!"bigfile.c" 1934, .reraise b!"bigfile.c" 330,
      .reraise b!"bigfile.c" 240, .get]]) S ∧ S.finished ∧
    current S.sh = some b!"Failed to open `a' @(bigfile.c:1934) @(bigfile.c:330) @(bigfile.c:240)" := by
  obtain ⟨n, S, h1, h2, _, h4, _⟩ := C39_alone_partial exErr [.raise b!"Failed to open `%s'" [b!"a"] b!"bigfile.c" 1934,
    .reraise b!"bigfile.c" 330, .reraise b!"bigfile.c" 240, .get] exErr_quiet
    ⟨⟨by decide, b!"Failed to open `a' @(bigfile.c:1934)", by decide, by decide⟩, ⟨by decide, by unfold NoPercent; decide, by unfold NoPercent; decide⟩,
      ⟨by decide, by unfold NoPercent; decide, by unfold NoPercent; decide⟩, trivial, trivial⟩
  exact ⟨n, S, h1, h2, by rw [h4]; decide⟩

/-- Run a schedule: the numbers of the threads in the order in which they make steps. -/
def erun (atomic : Bool) : List Nat → ESys → Option ESys
  | [], S => some S
  | i :: is, S =>
    match S.ths[i]? with
    | none => none
    | some t => if t.finished then none else
      match estep atomic S.sh t with
      | none => none
      | some (sh', t') => erun atomic is ⟨sh', S.ths.set i t'⟩

theorem erun_run {atomic : Bool} : ∀ {is : List Nat} {S T U : ESys} {n : Nat}, ERun atomic n S T → erun atomic is T = some U →
    ∃ m, ERun atomic m S U := by
  intro is
  induction is with
  | nil => intro S T U n h e; cases e; exact ⟨n, h⟩
  | cons i is ih =>
    intro S T U n h e
    unfold erun at e
    cases hi : T.ths[i]? with
    | none => rw [hi] at e; cases e
    | some t =>
      rw [hi] at e
      dsimp only at e
      split at e
      · cases e
      · rename_i hf
        cases hs : estep atomic T.sh t with
        | none => rw [hs] at e; cases e
        | some r =>
          rw [hs] at e
          exact ih (.step h (.step hi hf hs)) e

/-- Is the next step of thread `i` undefined? -/
def eundef (atomic : Bool) (i : Nat) (S : ESys) : Bool :=
  match S.ths[i]? with
  | none => false
  | some t => decide (¬ t.finished) && (estep atomic S.sh t).isNone

theorem eundef_undefined {atomic : Bool} {i : Nat} {S : ESys} (h : eundef atomic i S = true) : S.Undefined atomic := by
  unfold eundef at h
  cases hi : S.ths[i]? with
  | none => rw [hi] at h; cases h
  | some t =>
    rw [hi] at h
    simp only [Bool.and_eq_true, decide_eq_true_eq, Option.isNone_iff_eq_none] at h
    exact ⟨i, t, hi, h.1, h.2⟩

theorem erun_undefined {atomic : Bool} {is : List Nat} {i : Nat} {S : ESys}
    (h : (erun atomic is S).map (eundef atomic i) = some true) : ∃ n T, ERun atomic n S T ∧ T.Undefined atomic := by
  cases hr : erun atomic is S with
  | none => rw [hr] at h; cases h
  | some T =>
    rw [hr] at h
    obtain ⟨m, hm⟩ := erun_run (.nil S) hr
    exact ⟨m, T, hm, eundef_undefined (Option.some.inj h)⟩

/-- Raising again is not safe: it reads the current message, which another thread may have released. -/
theorem C39_reraise_race : ∃ n S, ERun true n (ESys.start exErr [[.reraise b!"bigfile.c" 330], [.set (some b!"x")]]) S ∧
    S.Undefined true := erun_undefined (is := [0, 0, 1, 1, 1, 1]) (i := 0) (by decide)

/-- So is reading the message. -/
theorem C39_get_race : ∃ n S, ERun true n (ESys.start exErr [[.get], [.set (some b!"x")]]) S ∧
    S.Undefined true := erun_undefined (is := [0, 1, 1, 1, 1]) (i := 0) (by decide)

/-- Without an atomic exchange two threads release the same buffer. -/
theorem C39_no_exchange : ∃ n S, ERun false n (ESys.start exErr [[.set (some b!"y")], [.set (some b!"x")]]) S ∧
    S.Undefined false := erun_undefined (is := [0, 0, 0, 1, 1, 1, 0, 1, 0, 1].take 9) (i := 1) (by decide)

/-- A message with a percent sign, as the name of a file may have one, is undefined when it is raised again. -/
theorem C39_percent : ∃ n S, ERun true n (ESys.start exErr [[.raise b!"Failed to open `%s'" [b!"%s"] b!"bigfile.c" 1934,
    .reraise b!"bigfile.c" 330]]) S ∧ S.Undefined true := erun_undefined (is := [0, 0, 0, 0, 0, 0, 0]) (i := 0) (by decide)

/-- A message with an argument of more than about 500 characters, as the name of a file may have, does not fit in the buffer. -/
theorem C39_overflow (sh : EShared) (name : CStr) (h : 527 ≤ name.length) : ∃ n S,
    ERun true n (ESys.start sh [[.raise b!"Failed to open `%s'" [name] b!"bigfile.c" 1934]]) S ∧ S.Undefined true := by
  refine ⟨0, _, .nil _, 0, ⟨.ready, [.raise b!"Failed to open `%s'" [name] b!"bigfile.c" 1934]⟩, rfl, not_finished_of_ops, ?_⟩
  have hv : vfmt false (b!"Failed to open `%s'" ++ raisePlace b!"bigfile.c" 1934) [name] =
      some (b!"Failed to open `" ++ (name ++ b!"' @(bigfile.c:1934)")) := by
    have : raisePlace b!"bigfile.c" 1934 = b!" @(bigfile.c:1934)" := by decide
    rw [this]
    simp [vfmt, fmtModifier, fmtLetter]
  have : raiseText b!"Failed to open `%s'" [name] b!"bigfile.c" 1934 = none := by
    unfold raiseText
    dsimp only
    rw [hv, if_pos (by decide)]
    dsimp only
    rw [if_neg]
    simp
    omega
  simp only [estep, raiseStart, this, Option.map_none]

end Verif
