import Verif.C.Withstands
/-!
# What a collective computation may leave behind

This file is about executions and is not part of `/repo`.
-/

set_option autoImplicit false

namespace Verif

/-- The collective computation, begun in the world `w`, may leave the disk `fs`: after it has returned `a` everywhere (`some a`), or when
everything was killed at some moment (`none`). When all processes work, the operations of each of them may fail or be cut short in
any pattern, and they may be killed after any step. -/
inductive Phases.Ends {α : Type} : Phases α → World → Option α → FS → Prop
  | ret (a : α) (w : World) : Phases.Ends (.ret a) w (some a) w.fs
  | root {β : Type} (m : M β) (k : β → Phases α) (w w' : World) (b : β) (o : Option α) (fs : FS) :
      m w = .ok b w' → Phases.Ends (k b) w' o fs → Phases.Ends (.root m k) w o fs
  | rootKilled {β : Type} (m : M β) (k : β → Phases α) (w w' : World) : m w = .crash w' → Phases.Ends (.root m k) w none w'.fs
  | all {β : Type} (n : Nat) (P : Nat → Prog β) (k : (Nat → β) → Phases α) (w : World) (F : Nat → Nat → Fault) (es : List Event) (s : Conf β)
      (out : Nat → β) (o : Option α) (fs : FS) : (∀ r t m, F r t ≠ .crash m) → Run F n (startAll P w.fs.node) es s → s.Stuck F n →
      (∀ r, r < n → (s.thr r).prog = .ret (out r)) →
      Phases.Ends (k out) ⟨⟨s.nodes, domAfter s.nodes es w.fs.dom⟩, w.faults, w.clock⟩ o fs → Phases.Ends (.all n P k) w o fs
  | allKilled {β : Type} (n : Nat) (P : Nat → Prog β) (k : (Nat → β) → Phases α) (w : World) (F : Nat → Nat → Fault) (es : List Event) (s : Conf β) :
      (∀ r t m, F r t ≠ .crash m) → Run F n (startAll P w.fs.node) es s →
      Phases.Ends (.all n P k) w none ⟨s.nodes, domAfter s.nodes es w.fs.dom⟩

/-- What is true of all executions is true of what they leave behind. -/
theorem Phases.Withstands.ends {α : Type} {p : Phases α} {w : World} {Q : α → World → Prop} {R : FS → Prop} {o : Option α} {fs : FS}
    (h : p.Withstands w Q R) (he : p.Ends w o fs) : (∃ a w', o = some a ∧ w'.fs = fs ∧ Q a w') ∨ (o = none ∧ R fs) := by
  induction he with
  | ret a w => exact .inl ⟨a, w, rfl, rfl, h⟩
  | root m k w w' b o fs e _ ih =>
    apply ih
    simp only [Phases.Withstands] at h
    rw [e] at h
    exact h
  | rootKilled m k w w' e =>
    simp only [Phases.Withstands] at h
    rw [e] at h
    exact .inr ⟨rfl, h⟩
  | all n P k w F es s out o fs hF hr hst hout _ ih =>
    obtain ⟨B, hB⟩ := h F hF
    exact ih (((hB es s hr).2.2 hst).2 out hout)
  | allKilled n P k w F es s hF hr =>
    obtain ⟨B, hB⟩ := h F hF
    exact .inr ⟨rfl, (hB es s hr).2.1⟩

theorem Run.extended {α : Type} {F : Nat → Nat → Fault} {n : Nat} {s s' s2 : Conf α} {es : List Event} {e : Event}
    (h : Run F n s es s') (hs : Step F n s' e s2) : Run F n s (es ++ [e]) s2 := by
  induction h with
  | nil s => exact .cons hs (.nil _)
  | cons h _ ih => exact .cons h (ih hs)

/-- If the lengths of all runs are bounded, some run cannot be continued. -/
theorem exists_stuck {α : Type} {F : Nat → Nat → Fault} {n B : Nat} {s0 : Conf α} (hB : ∀ es s, Run F n s0 es s → es.length ≤ B) :
    ∃ es s, Run F n s0 es s ∧ s.Stuck F n := by
  have go : ∀ d es s, Run F n s0 es s → B - es.length ≤ d → ∃ es s, Run F n s0 es s ∧ s.Stuck F n := by
    intro d
    induction d with
    | zero =>
      intro es s hr hd
      refine ⟨es, s, hr, fun e s' hst => ?_⟩
      have := hB _ _ (hr.extended hst)
      rw [List.length_append, List.length_singleton] at this
      omega
    | succ d ih =>
      intro es s hr hd
      by_cases hst : s.Stuck F n
      · exact ⟨es, s, hr, hst⟩
      · obtain ⟨e, hst⟩ := Classical.not_forall.mp hst
        obtain ⟨s', hst⟩ := Classical.not_forall.mp hst
        have hst := Classical.not_not.mp hst
        refine ih _ _ (hr.extended hst) ?_
        rw [List.length_append, List.length_singleton]
        omega
  exact go B [] s0 (.nil _) (Nat.sub_le _ _)

/-- A computation that withstands failures leaves something behind. -/
theorem Phases.Withstands.happens {α : Type} {p : Phases α} : ∀ {w : World} {Q : α → World → Prop} {R : FS → Prop},
    p.Withstands w Q R → ∃ o fs, p.Ends w o fs := by
  induction p with
  | ret a => intro w _ _ _; exact ⟨_, _, .ret a w⟩
  | ub => intro _ _ _ h; exact h.elim
  | hang => intro _ _ _ h; exact h.elim
  | root m k ih =>
    intro w Q R h
    simp only [Phases.Withstands] at h
    cases e : m w with
    | ok b w' =>
      rw [e] at h
      obtain ⟨o, fs, he⟩ := ih b h
      exact ⟨o, fs, .root m k w w' b o fs e he⟩
    | crash w' => exact ⟨_, _, .rootKilled m k w w' e⟩
    | ub => rw [e] at h; exact h.elim
    | hang => rw [e] at h; exact h.elim
  | @all β n P k ih =>
    intro w Q R h
    have hF : ∀ (r t : Nat) m, (fun _ _ => Fault.none : Nat → Nat → Fault) r t ≠ .crash m := fun _ _ _ h => by cases h
    by_cases hne : Nonempty β
    · obtain ⟨B, hB⟩ := h (fun _ _ => .none) hF
      obtain ⟨es, s, hr, hst⟩ := exists_stuck (fun es s hr => (hB es s hr).1)
      obtain ⟨hfin, hk⟩ := (hB es s hr).2.2 hst
      obtain ⟨d⟩ := hne
      have hout : ∀ r, ∃ a : β, r < n → (s.thr r).prog = .ret a := by
        intro r
        by_cases hrn : r < n
        · obtain ⟨a, ha⟩ := hfin r hrn
          exact ⟨a, fun _ => ha⟩
        · exact ⟨d, fun h => (hrn h).elim⟩
      obtain ⟨out, hout⟩ := Classical.axiomOfChoice hout
      obtain ⟨o, fs, he⟩ := ih out (hk out hout)
      exact ⟨o, fs, .all n P k w _ es s out o fs hF hr hst hout he⟩
    · exact ⟨_, _, .allKilled n P k w _ [] _ hF (.nil _)⟩

end Verif
