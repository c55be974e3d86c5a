import Verif.Proof.Loose
import Verif.Proof.Alike
/-!
# Blind operations when collective calls do not synchronise

As `Proof/Alike.lean`, for the executions of `C/Loose.lean`.
-/

set_option autoImplicit false

namespace Verif

open Spec

variable {α : Type}

/-- The file operation of the event, if any, is blind. -/
def LEvent.Blind : LEvent → Prop
  | .file _ op _ => op.Blind
  | _ => True

/-- The same processes and contributions, and the same files. -/
structure LAlike (s t : LConf α) : Prop where
  thr : t.thr = s.thr
  posts : t.posts = s.posts
  files : SameFiles s.nodes t.nodes

theorem LAlike.refl (s : LConf α) : LAlike s s := ⟨rfl, rfl, SameFiles.refl _⟩

theorem LAlike.trans {s t u : LConf α} (h : LAlike s t) (h' : LAlike t u) : LAlike s u :=
  ⟨h'.thr.trans h.thr, h'.posts.trans h.posts, h.files.trans h'.files⟩

theorem LAlike.finished {s t : LConf α} (h : LAlike s t) {n : Nat} (hf : s.Finished n) : t.Finished n := by
  intro r hr
  rw [h.thr]
  exact hf r hr

variable {F : Nat → Nat → Fault} {n : Nat}

theorem LStep.files {s s' : LConf α} {e : LEvent} (h : LStep F n s e s') (hb : e.Blind) : SameFiles s.nodes s'.nodes := by
  cases h with
  | file r op k t a nd hr ht he => exact FOp.Blind.keeps hb he
  | arrive r c v k t hr hm ht => exact SameFiles.refl _
  | leave r c v k t i p hr ht hl => exact SameFiles.refl _

/-- The same step from a configuration alike. -/
theorem LStep.alike {s s1 t : LConf α} {e : LEvent} (h : LStep F n s e s1) (hb : e.Blind) (ha : LAlike s t) :
    ∃ t1, LStep F n t e t1 ∧ LAlike s1 t1 := by
  obtain ⟨thr, nodes, posts⟩ := s
  obtain ⟨thr', nodes', posts'⟩ := t
  have e0 : thr' = thr := ha.thr
  have e1 : posts' = posts := ha.posts
  subst e0 e1
  cases h with
  | file r op k t a nd hr ht he =>
    obtain ⟨nd', he'⟩ := FOp.Blind.exec (op := op) hb ha.files he
    refine ⟨_, .file _ r op k t a nd' hr ht he', rfl, rfl, ?_⟩
    exact ((FOp.Blind.keeps hb he).symm.trans ha.files).trans (FOp.Blind.keeps hb he')
  | arrive r c v k t hr hm ht => exact ⟨_, .arrive _ r c v k t hr hm ht, rfl, rfl, ha.files⟩
  | leave r c v k t i p hr ht hl => exact ⟨_, .leave _ r c v k t i p hr ht hl, rfl, rfl, ha.files⟩

theorem LRun.alike {s f : LConf α} {es : List LEvent} (h : LRun F n s es f) : (∀ e ∈ es, e.Blind) → ∀ {t : LConf α}, LAlike s t →
    ∃ f', LRun F n t es f' ∧ LAlike f f' := by
  induction h with
  | nil s => intro _ t ha; exact ⟨t, .nil t, ha⟩
  | cons hs _ ih =>
    intro hb t ha
    obtain ⟨t1, h1, ha1⟩ := hs.alike (hb _ (by simp)) ha
    obtain ⟨f', h2, ha2⟩ := ih (fun e he => hb e (by simp [he])) ha1
    exact ⟨f', .cons h1 h2, ha2⟩

/-- Two blind steps of different processes can be exchanged, up to contents. -/
theorem LStep.swap_alike {s s1 s2 d : LConf α} {e1 e : LEvent} (h1 : LStep F n s e1 s1) (h : LStep F n s e s2)
    (hd : e.who ≠ e1.who) (hb1 : e1.Blind) (hb : e.Blind) (hs : LStep F n s1 e d) :
    ∃ d', LStep F n s2 e1 d' ∧ LAlike d d' := by
  cases e1 with
  | arrive r1 => exact ⟨d, h1.swap h hd (by cases e <;> trivial) hs, LAlike.refl d⟩
  | leave r1 => exact ⟨d, h1.swap h hd (by cases e <;> trivial) hs, LAlike.refl d⟩
  | file r1 op1 f1 =>
    cases e with
    | arrive r => exact ⟨d, h1.swap h hd trivial hs, LAlike.refl d⟩
    | leave r => exact ⟨d, h1.swap h hd trivial hs, LAlike.refl d⟩
    | file r op f =>
      have k1 := h1.files hb1
      have k2 := h.files hb
      have k3 := hs.files hb
      have hne : r1 ≠ r := Ne.symm hd
      cases h1 with
      | file _ _ kk1 t1 a1 nd1 hr1 ht1 he1 =>
        cases h with
        | file _ _ kk t a nd hr ht he =>
          obtain ⟨nd2, he2⟩ := FOp.Blind.exec (op := op) hb k1 he
          have hs' : LStep F n (s.put r1 ⟨kk1 a1, t1 + 1, none⟩ nd1 s.posts) (.file r op (F r t))
              ((s.put r1 ⟨kk1 a1, t1 + 1, none⟩ nd1 s.posts).put r ⟨kk a, t + 1, none⟩ nd2 s.posts) :=
            .file _ r op kk t a nd2 hr (by simp [LConf.put, hne.symm]; exact ht) he2
          obtain ⟨_, rfl⟩ := hs.same hs' rfl
          obtain ⟨nd3, he3⟩ := FOp.Blind.exec (op := op1) hb1 k2 he1
          refine ⟨(s.put r ⟨kk a, t + 1, none⟩ nd s.posts).put r1 ⟨kk1 a1, t1 + 1, none⟩ nd3 s.posts,
            .file _ r1 op1 kk1 t1 a1 nd3 hr1 (by simp [LConf.put, hne]; exact ht1) he3, ?_, rfl, ?_⟩
          · have := s.put_comm hne ⟨kk1 a1, t1 + 1, none⟩ ⟨kk a, t + 1, none⟩ nd1 nd nd3 s.posts s.posts s.posts
            exact (congrArg LConf.thr this).symm
          · exact ((k3.symm.trans k1.symm).trans k2).trans (FOp.Blind.keeps hb1 he3)

/-- Whatever step is taken first, the run can be completed with the same events to an end alike. -/
theorem LRun.after_step_alike (hF : NoCrash F) {f : LConf α} (hf : f.Finished n) :
    ∀ {s : LConf α} {es : List LEvent}, LRun F n s es f → (∀ e ∈ es, e.Blind) → ∀ {t t' : LConf α} {e : LEvent}, LAlike s t →
      LStep F n t e t' → ∃ es' f', LRun F n t' es' f' ∧ LAlike f f' ∧ (e :: es').Perm es := by
  intro s es h
  induction h with
  | nil s => intro _ t t' e ha hs; exact absurd hs ((ha.finished hf).stuck e t')
  | cons h1 tl ih =>
    rename_i s s1 f e1 es
    intro hB t t' e ha hs
    have hb1 : e1.Blind := hB e1 (by simp)
    have hB' : ∀ e ∈ es, e.Blind := fun e he => hB e (by simp [he])
    obtain ⟨t1, h1', ha1⟩ := h1.alike hb1 ha
    by_cases hsh : e1.who = e.who
    · obtain ⟨rfl, rfl⟩ := h1'.same hs hsh
      obtain ⟨f', h4, h5⟩ := tl.alike hB' ha1
      exact ⟨es, f', h4, h5, List.Perm.refl _⟩
    · have hd : e.who ≠ e1.who := fun h => hsh h.symm
      obtain ⟨d, hsd⟩ := h1'.still hF hs hd
      obtain ⟨es', f', hrun, haf, hperm⟩ := ih hf hB' ha1 hsd
      have he : e ∈ es := hperm.subset (by simp)
      obtain ⟨d', h4, h5⟩ := h1'.swap_alike hs hd hb1 (hB' e he) hsd
      obtain ⟨f2, h6, h7⟩ := hrun.alike (fun x hx => hB' x (hperm.subset (by simp [hx]))) h5
      exact ⟨e1 :: es', f2, .cons h4 h6, haf.trans h7, (List.Perm.swap e1 e es').trans (List.Perm.cons e1 hperm)⟩

/-- **Every run of blind operations ends alike.** -/
theorem LRun.confluent_alike (hF : NoCrash F) {es2 : List LEvent} {t t2 : LConf α}
    (h2 : LRun F n t es2 t2) : ∀ {s f : LConf α} {es : List LEvent}, f.Finished n → LRun F n s es f → (∀ e ∈ es, e.Blind) →
      LAlike s t → ∃ es' f', LRun F n t2 es' f' ∧ LAlike f f' ∧ (es2 ++ es').Perm es := by
  induction h2 with
  | nil t =>
    intro s f es _ h hB ha
    obtain ⟨f', h1, h2⟩ := h.alike hB ha
    exact ⟨es, f', h1, h2, List.Perm.refl _⟩
  | cons hs _ ih =>
    rename_i e es2 _
    intro s f es hf h hB ha
    obtain ⟨es1, f1, hr, ha1, hp⟩ := h.after_step_alike hF hf hB ha hs
    obtain ⟨es', f', hr', ha', hp'⟩ := ih (ha1.finished hf) hr (fun x hx => hB x (hp.subset (by simp [hx]))) (LAlike.refl _)
    exact ⟨es', f', hr', ha1.trans ha', (List.Perm.cons _ hp').trans hp⟩

/-- If one run with synchronising calls ends with all processes returned and its operations are blind, then all runs
without synchronisation end with the same results. -/
theorem Run.loose_alike (hF : NoCrash F) {s s0 : Conf α} {es0 : List Event} (h : Run F n s es0 s0) (hf : s0.Finished n)
    (hB : ∀ e ∈ es0, e.Blind) :
    ∃ B, ∀ es t, LRun F n s.loose es t → es.length ≤ B ∧ (∀ r op f, .file r op f ∈ es → .file r op f ∈ es0) ∧
      (t.Stuck F n → t.tight.thr = s0.thr) := by
  obtain ⟨t0, les, h1, h2, h3⟩ := h.loosely (tracks_loose s)
  refine ⟨les.length, fun es t hr => ?_⟩
  have hfin : t0.Finished n := by
    intro r hr
    rw [h2.thr r]
    exact hf r hr
  have hfile : ∀ r op f, .file r op f ∈ les → .file r op f ∈ es0 := by
    intro r op f hm
    obtain ⟨e, he, rfl⟩ := h3 _ hm
    exact he
  have hB' : ∀ e ∈ les, e.Blind := fun e he => by
    cases e with
    | file r o f => exact hB _ (hfile _ _ _ he)
    | arrive r => trivial
    | leave r => trivial
  obtain ⟨es', f', hr', ha, hp⟩ := LRun.confluent_alike hF hr hfin h1 hB' (LAlike.refl _)
  refine ⟨?_, fun r op f hm => hfile r op f (hp.subset (by simp [hm])), fun hs => ?_⟩
  · have := hp.length_eq
    rw [List.length_append] at this
    omega
  · cases hr' with
    | nil =>
      rw [← h2.tight]
      show (fun r => (⟨(t.thr r).prog, (t.thr r).clock⟩ : Thread α)) = fun r => ⟨(t0.thr r).prog, (t0.thr r).clock⟩
      rw [ha.thr]
    | cons hs' _ => exact absurd hs' (hs _ _)

end Verif
