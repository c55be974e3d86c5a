import Verif.C.Withstands
import Verif.Proof.Phases
import Verif.Proof.Proc
import Verif.Model.Mpi
import Verif.Spec.Transfer
/-!
# Rules for collective computations under failures; what a program keeps whatever it meets
-/

set_option autoImplicit false

namespace Verif

open Spec

variable {α β : Type}

/-! ## Phases -/

theorem Phases.withstands_mono {p : Phases α} {w : World} {Q Q' : α → World → Prop} {R R' : FS → Prop} (h : p.Withstands w Q R)
    (hq : ∀ a w', Q a w' → Q' a w') (hr : ∀ fs, R fs → R' fs) : p.Withstands w Q' R' := by
  induction p generalizing w with
  | ret a => exact hq _ _ h
  | ub => exact h
  | hang => exact h
  | root m k ih =>
    simp only [Phases.Withstands] at h ⊢
    cases e : m w with
    | ok b w' => rw [e] at h; exact ih b h
    | crash w' => rw [e] at h; exact hr _ h
    | _ => rw [e] at h; exact h
  | all n P k ih =>
    intro F hF
    obtain ⟨B, hB⟩ := h F hF
    refine ⟨B, fun es s hrun => ?_⟩
    obtain ⟨h1, h2, h3⟩ := hB es s hrun
    refine ⟨h1, hr _ h2, fun hs => ?_⟩
    obtain ⟨h4, h5⟩ := h3 hs
    exact ⟨h4, fun out ho => ih out (h5 out ho)⟩

theorem Phases.withstands_bind' {p : Phases α} {f : α → Phases β} {w : World} {Q : β → World → Prop} {R : FS → Prop}
    (h : p.Withstands w (fun a w' => (f a).Withstands w' Q R) R) : (p.bind f).Withstands w Q R := by
  induction p generalizing w with
  | ret a => exact h
  | ub => exact h
  | hang => exact h
  | root m k ih =>
    simp only [Phases.Withstands, Phases.bind] at h ⊢
    cases e : m w with
    | ok b w' => rw [e] at h; exact ih b h
    | _ => rw [e] at h; exact h
  | all n P k ih =>
    intro F hF
    obtain ⟨B, hB⟩ := h F hF
    refine ⟨B, fun es s hrun => ?_⟩
    obtain ⟨h1, h2, h3⟩ := hB es s hrun
    refine ⟨h1, h2, fun hs => ?_⟩
    obtain ⟨h4, h5⟩ := h3 hs
    exact ⟨h4, fun out ho => ih out (h5 out ho)⟩

theorem Phases.withstands_bind {p : Phases α} {f : α → Phases β} {w : World} {Q : β → World → Prop} {R : FS → Prop}
    (h : p.Withstands w (fun a w' => (f a).Withstands w' Q R) R) : (p >>= f).Withstands w Q R := Phases.withstands_bind' h

theorem Phases.withstands_pure {a : α} {w : World} {Q : α → World → Prop} {R : FS → Prop} (h : Q a w) :
    (pure a : Phases α).Withstands w Q R := h

/-- Rank 0 works alone. -/
theorem Phases.withstands_alone {m : M α} {w : World} {Q : α → World → Prop} {R : FS → Prop}
    (h : wpc m w Q (fun w' => R w'.fs)) : (Phases.alone m).Withstands w Q R := by
  simp only [Phases.alone, Phases.Withstands]
  unfold wpc at h
  split at h <;> rename_i e <;> rw [e]
  · exact h
  · exact h
  · exact h
  · exact h

/-- All processes work. What is known about the runs of programs `P'` is known about those of `P` if the first `n`
programs are the same. -/
theorem Phases.withstands_together {n : Nat} {P P' : Nat → Prog α} {w : World} {Q : (Nat → α) → World → Prop} {R : FS → Prop}
    (hP : ∀ r, r < n → P r = P' r)
    (h : ∀ F : Nat → Nat → Fault, NoCrash F → ∃ B, ∀ es s, Run F n (startAll P' w.fs.node) es s → es.length ≤ B ∧
      (∀ dom, R ⟨s.nodes, dom⟩) ∧
      (s.Stuck F n → ∃ out : Nat → α, (∀ r, r < n → (s.thr r).prog = .ret (out r)) ∧ ∀ (out' : Nat → α) (dom : List Key),
        (∀ r, r < n → out' r = out r) → Q out' ⟨⟨s.nodes, dom⟩, w.faults, w.clock⟩)) :
    (Phases.together n P).Withstands w Q R := by
  intro F hF
  obtain ⟨B, hB⟩ := h F hF
  have ha : (startAll P w.fs.node).Agree n (startAll P' w.fs.node) := ⟨fun r hr => by unfold startAll; simp only [hP r hr], rfl⟩
  refine ⟨B, fun es s hr => ?_⟩
  obtain ⟨t, ht, hag⟩ := ha.run hr
  obtain ⟨b1, b2, b3⟩ := hB es t ht
  refine ⟨b1, by rw [hag.nodes]; exact b2 _, fun hs => ?_⟩
  obtain ⟨out, h1, h2⟩ := b3 (hag.stuck hs)
  have h1' : ∀ r, r < n → (s.thr r).prog = .ret (out r) := fun r hr => by rw [hag.thr r hr]; exact h1 r hr
  refine ⟨fun r hr => ⟨_, h1' r hr⟩, fun out' ho => ?_⟩
  simp only [Phases.Withstands]
  rw [hag.nodes]
  apply h2
  intro r hr
  have := ho r hr
  rw [h1' r hr] at this
  injection this with this
  exact this.symm

/-! ## What a program returns whatever it meets -/

/-- Whatever the operations and the collective calls of a program give, if it returns, it returns something that satisfies `Q`. -/
def Prog.Always (Q : α → Prop) : Prog α → Prop
  | .ret a => Q a
  | .ub => True
  | .hang => True
  | .file _ k => ∀ r, (k r).Always Q
  | .coll _ _ k => ∀ l, (k l).Always Q

theorem Prog.always_bind' {p : Prog α} {f : α → Prog β} {Q : β → Prop} (h : p.Always fun a => (f a).Always Q) :
    (p.bind f).Always Q := by
  induction p with
  | ret a => exact h
  | ub => trivial
  | hang => trivial
  | file op k ih => exact fun r => ih r (h r)
  | coll c v k ih => exact fun l => ih l (h l)

theorem Prog.always_bind {p : Prog α} {f : α → Prog β} {Q : β → Prop} (h : p.Always fun a => (f a).Always Q) :
    (p >>= f).Always Q := Prog.always_bind' h

theorem Prog.always_true (p : Prog α) : p.Always fun _ => True := by
  induction p with
  | ret a => trivial
  | ub => trivial
  | hang => trivial
  | file op k ih => exact fun r => ih r
  | coll c v k ih => exact fun l => ih l

theorem Prog.always_mono {p : Prog α} {Q Q' : α → Prop} (h : p.Always Q) (hq : ∀ a, Q a → Q' a) : p.Always Q' := by
  induction p with
  | ret a => exact hq _ h
  | ub => trivial
  | hang => trivial
  | file op k ih => exact fun r => ih r (h r)
  | coll c v k ih => exact fun l => ih l (h l)

/-- A step of which only the result is not known. -/
theorem Prog.always_any {p : Prog α} {f : α → Prog β} {Q : β → Prop} (h : ∀ a, (f a).Always Q) : (p >>= f).Always Q :=
  Prog.always_bind (Prog.always_mono (Prog.always_true p) fun a _ => h a)

theorem Prog.always_lift {o : Option α} {f : α → Prog β} {Q : β → Prop} (h : ∀ a, o = some a → (f a).Always Q) :
    (Prog.lift o >>= f).Always Q := by
  cases o with
  | none => trivial
  | some a => exact h a rfl

theorem Prog.always_ite {c : Prop} [Decidable c] {p q : Prog α} {Q : α → Prop} (hp : c → p.Always Q) (hq : ¬ c → q.Always Q) :
    (if c then p else q).Always Q := by
  by_cases h : c
  · rw [if_pos h]; exact hp h
  · rw [if_neg h]; exact hq h

theorem Step.always {F : Nat → Nat → Fault} {n : Nat} {s s' : Conf α} {e : Event} (h : Step F n s e s') {Q : Nat → α → Prop}
    (ha : ∀ r, (s.thr r).prog.Always (Q r)) : ∀ r, (s'.thr r).prog.Always (Q r) := by
  intro q
  cases h with
  | file r op k t a nd hr ht he =>
    by_cases hq : q = r
    · subst hq
      have := ha q
      rw [ht] at this
      simp only [Conf.put, if_true]
      exact this a
    · simp only [Conf.put, if_neg hq]
      exact ha q
  | coll c hne hall =>
    have := ha q
    simp only [Conf.meet]
    split
    · rename_i hq
      have hw := (hall q hq).2
      revert this hw
      generalize (s.thr q).prog = p
      intro this hw
      cases p with
      | coll c' v k => exact this _
      | _ => exact absurd hw (by simp [Prog.WaitsAt])
    · exact this

theorem Run.always {F : Nat → Nat → Fault} {n : Nat} {s s' : Conf α} {es : List Event} (h : Run F n s es s') {Q : Nat → α → Prop}
    (ha : ∀ r, (s.thr r).prog.Always (Q r)) : ∀ r, (s'.thr r).prog.Always (Q r) := by
  induction h with
  | nil s => exact ha
  | cons hs _ ih => exact ih (hs.always ha)

/-! ## Files under a run -/

/-- A file stays a file, and what is not a directory does not become one. -/
theorem exec_kinds {op : FOp} {f : Fault} {nd nd' : Nodes} {a : Resp} (he : op.exec f nd = some (a, nd')) (k : Key) :
    ((∃ d, nd k = some (.file d)) → ∃ d, nd' k = some (.file d)) ∧ (nd k ≠ some .dir → nd' k ≠ some .dir) := by
  have hsame : nd' = nd → ((∃ d, nd k = some (.file d)) → ∃ d, nd' k = some (.file d)) ∧ (nd k ≠ some .dir → nd' k ≠ some .dir) := by
    rintro rfl
    exact ⟨id, id⟩
  cases op with
  | fread path off len =>
    obtain ⟨_, rfl, _⟩ := FOp.Passive.exec (op := .fread path off len) trivial he
    exact hsame rfl
  | fwrite path off bs =>
    obtain ⟨_, rfl, _⟩ := exec_fwrite he
    rw [← putBytes_eq ⟨nd, []⟩]
    unfold FS.writeFile
    split
    · dsimp only
      split
      · exact ⟨fun _ => ⟨_, rfl⟩, fun _ => by simp⟩
      · exact ⟨id, id⟩
    · exact ⟨id, id⟩
  | fopen path mode =>
    cases mode with
    | r =>
      obtain ⟨_, rfl, _⟩ := FOp.Passive.exec (op := .fopen path .r) trivial he
      exact hsame rfl
    | rplus =>
      obtain ⟨_, rfl, _⟩ := FOp.Passive.exec (op := .fopen path .rplus) trivial he
      exact hsame rfl
    | w =>
      have hf : ∀ n, f ≠ .crash n := by
        rintro n rfl
        simp [FOp.exec, FOp.run, Verif.fopen, bind, M.bind, tick, die] at he
      rw [exec_open_w hf] at he
      injection he with he
      injection he with _ he
      subst he
      split
      · unfold emptied
        split
        · exact ⟨fun _ => ⟨_, rfl⟩, fun _ => by simp⟩
        · exact ⟨id, id⟩
      · exact ⟨id, id⟩

theorem run_kinds {F : Nat → Nat → Fault} {n : Nat} {s s' : Conf α} {es : List Event} (h : Run F n s es s') (k : Key) :
    ((∃ d, s.nodes k = some (.file d)) → ∃ d, s'.nodes k = some (.file d)) ∧ (s.nodes k ≠ some .dir → s'.nodes k ≠ some .dir) := by
  induction h with
  | nil s => exact ⟨id, id⟩
  | @cons s s1 s' e es hs _ ih =>
    have h1 : ((∃ d, s.nodes k = some (.file d)) → ∃ d, s1.nodes k = some (.file d)) ∧ (s.nodes k ≠ some .dir → s1.nodes k ≠ some .dir) := by
      cases hs with
      | file r op k t a nd hr ht' he => exact exec_kinds he _
      | coll c hne hall => exact ⟨id, id⟩
    exact ⟨fun h => ih.1 (h1.1 h), fun h => ih.2 (h1.2 h)⟩

end Verif
