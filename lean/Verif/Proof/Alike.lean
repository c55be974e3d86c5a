import Verif.Proof.AggSeg
/-!
# Runs in which processes only write, possibly to the same places: they end alike except for contents

The answers of `fopen "r+"` and `fwrite` depend on which files exist, not on their contents, and neither
changes which files exist. So two runs of the same processes give the same answers.
-/

set_option autoImplicit false

namespace Verif

open Spec

variable {α : Type}

/-- Opening a file for update, and writing. -/
def FOp.Blind : FOp → Prop
  | .fopen _ .rplus => True
  | .fwrite _ _ _ => True
  | _ => False

/-- The file operation of the event, if any, is blind. -/
def Event.Blind : Event → Prop
  | .file _ op _ => op.Blind
  | .coll _ => True

theorem SameFiles.refl (nd : Nodes) : SameFiles nd nd := fun _ => Iff.rfl

theorem SameFiles.symm {a b : Nodes} (h : SameFiles a b) : SameFiles b a := fun k => (h k).symm

theorem SameFiles.trans {a b c : Nodes} (h : SameFiles a b) (h' : SameFiles b c) : SameFiles a c := fun k => (h' k).trans (h k)

theorem FOp.Blind.keeps {op : FOp} (hb : op.Blind) {f : Fault} {nd nd1 : Nodes} {a : Resp} (h : op.exec f nd = some (a, nd1)) :
    SameFiles nd nd1 := by
  cases op with
  | fread path off len => exact hb.elim
  | fopen path mode =>
    cases mode with
    | r => exact hb.elim
    | w => exact hb.elim
    | rplus =>
      obtain ⟨_, rfl, _⟩ := FOp.Passive.exec (op := .fopen path .rplus) trivial h
      exact SameFiles.refl _
  | fwrite path off bs =>
    obtain ⟨_, rfl, _⟩ := exec_fwrite h
    exact fun k => putBytes_file _ _ _ _ _

/-- A blind operation answers alike on trees with the same files. -/
theorem FOp.Blind.exec {op : FOp} (hb : op.Blind) {f : Fault} {nd nd' nd1 : Nodes} {a : Resp} (hs : SameFiles nd nd')
    (h : op.exec f nd = some (a, nd1)) : ∃ nd1', op.exec f nd' = some (a, nd1') := by
  cases op with
  | fread path off len => exact hb.elim
  | fopen path mode =>
    cases mode with
    | r => exact hb.elim
    | w => exact hb.elim
    | rplus =>
      obtain ⟨rfl, rfl, hf⟩ := FOp.Passive.exec (op := .fopen path .rplus) trivial h
      refine ⟨nd', ?_⟩
      rw [FOp.Passive.exec_eq (op := .fopen path .rplus) trivial hf nd']
      have : fileThere nd' (resolve path) = fileThere nd1 (resolve path) := by
        rw [Bool.eq_iff_iff, fileThere_iff, fileThere_iff]
        exact hs _
      simp only [FOp.answer, this]
  | fwrite path off bs =>
    obtain ⟨rfl, rfl, hf⟩ := exec_fwrite h
    exact ⟨_, exec_fwrite_eq hf nd'⟩

/-- The same processes, and the same files. -/
structure Alike (s t : Conf α) : Prop where
  thr : t.thr = s.thr
  files : SameFiles s.nodes t.nodes

theorem Alike.refl (s : Conf α) : Alike s s := ⟨rfl, SameFiles.refl _⟩

theorem Alike.symm {s t : Conf α} (h : Alike s t) : Alike t s := ⟨h.thr.symm, h.files.symm⟩

theorem Alike.trans {s t u : Conf α} (h : Alike s t) (h' : Alike t u) : Alike s u :=
  ⟨h'.thr.trans h.thr, h.files.trans h'.files⟩

theorem Alike.finished {s t : Conf α} (h : Alike s t) {n : Nat} (hf : s.Finished n) : t.Finished n := by
  intro r hr
  rw [h.thr]
  exact hf r hr

variable {F : Nat → Nat → Fault} {n : Nat}

theorem Step.files {s s' : Conf α} {e : Event} (h : Step F n s e s') (hb : e.Blind) : SameFiles s.nodes s'.nodes := by
  cases h with
  | file r op k t a nd hr ht he => exact FOp.Blind.keeps hb he
  | coll c hne hall => exact SameFiles.refl _

/-- The same step from a configuration alike. -/
theorem Step.alike {s s1 t : Conf α} {e : Event} (h : Step F n s e s1) (hb : e.Blind) (ha : Alike s t) :
    ∃ t1, Step F n t e t1 ∧ Alike s1 t1 := by
  obtain ⟨thr, nodes⟩ := s
  obtain ⟨thr', nodes'⟩ := t
  have e0 : thr' = thr := ha.thr
  subst e0
  cases h with
  | file r op k t a nd hr ht he =>
    obtain ⟨nd', he'⟩ := FOp.Blind.exec (op := op) hb ha.files he
    refine ⟨_, .file _ r op k t a nd' hr ht he', rfl, ?_⟩
    exact ((FOp.Blind.keeps hb he).symm.trans ha.files).trans (FOp.Blind.keeps hb he')
  | coll c hne hall => exact ⟨_, .coll _ c hne hall, rfl, ha.files⟩

theorem Run.alike {s f : Conf α} {es : List Event} (h : Run F n s es f) : (∀ e ∈ es, e.Blind) → ∀ {t : Conf α}, Alike s t →
    ∃ f', Run F n t es f' ∧ Alike f f' := by
  induction h with
  | nil s => intro _ t ha; exact ⟨t, .nil t, ha⟩
  | cons hs _ ih =>
    intro hb t ha
    obtain ⟨t1, h1, ha1⟩ := hs.alike (hb _ (by simp)) ha
    obtain ⟨f', h2, ha2⟩ := ih (fun e he => hb e (by simp [he])) ha1
    exact ⟨f', .cons h1 h2, ha2⟩

/-- Two blind steps of different processes can be exchanged, up to contents. -/
theorem Step.swap_alike {s s1 s2 d : Conf α} {e1 e : Event} (h1 : Step F n s e1 s1) (h : Step F n s e s2)
    (hd : ∀ r ∈ e1.who, r ∉ e.who) (hb1 : e1.Blind) (hb : e.Blind) (hs : Step F n s1 e d) :
    ∃ d', Step F n s2 e1 d' ∧ Alike d d' := by
  cases e1 with
  | coll c => exact ⟨d, h1.swap h hd (by cases e <;> trivial) hs, Alike.refl d⟩
  | file r1 op1 f1 =>
    cases e with
    | coll c => exact ⟨d, h1.swap h hd trivial hs, Alike.refl d⟩
    | file r op f =>
      have k1 := h1.files hb1
      have k2 := h.files hb
      have k3 := hs.files hb
      cases h1 with
      | file _ _ kk1 t1 a1 nd1 hr1 ht1 he1 =>
        cases h with
        | file _ _ kk t a nd hr ht he =>
          have hne : r1 ≠ r := by
            have := hd r1 (by simp [Event.who]); simpa [Event.who] using this
          obtain ⟨nd2, he2⟩ := FOp.Blind.exec (op := op) hb k1 he
          have hs' : Step F n (s.put r1 ⟨kk1 a1, t1 + 1⟩ nd1) (.file r op (F r t))
              ((s.put r1 ⟨kk1 a1, t1 + 1⟩ nd1).put r ⟨kk a, t + 1⟩ nd2) :=
            .file _ r op kk t a nd2 hr (by simp [Conf.put, hne.symm]; exact ht) he2
          obtain ⟨_, rfl⟩ := hs.same hs' (r := r) (by simp [Event.who]) (by simp [Event.who])
          obtain ⟨nd3, he3⟩ := FOp.Blind.exec (op := op1) hb1 k2 he1
          refine ⟨(s.put r ⟨kk a, t + 1⟩ nd).put r1 ⟨kk1 a1, t1 + 1⟩ nd3,
            .file _ r1 op1 kk1 t1 a1 nd3 hr1 (by simp [Conf.put, hne]; exact ht1) he3, ?_, ?_⟩
          · have := s.put_comm hne ⟨kk1 a1, t1 + 1⟩ ⟨kk a, t + 1⟩ nd1 nd nd3
            exact (congrArg Conf.thr this).symm
          · exact ((k3.symm.trans k1.symm).trans k2).trans (FOp.Blind.keeps hb1 he3)

/-- Whatever step is taken first, the run can be completed with the same events to an end alike. -/
theorem Run.after_step_alike (hF : NoCrash F) {f : Conf α} (hf : f.Finished n) :
    ∀ {s : Conf α} {es : List Event}, Run F n s es f → (∀ e ∈ es, e.Blind) → ∀ {t t' : Conf α} {e : Event}, Alike s t →
      Step F n t e t' → ∃ es' f', Run F n t' es' f' ∧ Alike f f' ∧ (e :: es').Perm es := by
  intro s es h
  induction h with
  | nil s => intro _ t t' e ha hs; exact absurd hs ((ha.finished hf).stuck e t')
  | cons h1 tl ih =>
    rename_i s s1 f e1 es
    intro hB t t' e ha hs
    have hb1 : e1.Blind := hB e1 (by simp)
    have hB' : ∀ e ∈ es, e.Blind := fun e he => hB e (by simp [he])
    obtain ⟨t1, h1', ha1⟩ := h1.alike hb1 ha
    by_cases hsh : ∃ r, r ∈ e1.who ∧ r ∈ e.who
    · obtain ⟨r, h2, h3⟩ := hsh
      obtain ⟨rfl, rfl⟩ := h1'.same hs h2 h3
      obtain ⟨f', h4, h5⟩ := tl.alike hB' ha1
      exact ⟨es, f', h4, h5, List.Perm.refl _⟩
    · have hd : ∀ r ∈ e1.who, r ∉ e.who := fun r h2 h3 => hsh ⟨r, h2, h3⟩
      obtain ⟨d, hsd⟩ := h1'.still hF hs hd
      obtain ⟨es', f', hrun, haf, hperm⟩ := ih hf hB' ha1 hsd
      have he : e ∈ es := hperm.subset (by simp)
      obtain ⟨d', h4, h5⟩ := h1'.swap_alike hs hd hb1 (hB' e he) hsd
      obtain ⟨f2, h6, h7⟩ := hrun.alike (fun x hx => hB' x (hperm.subset (by simp [hx]))) h5
      exact ⟨e1 :: es', f2, .cons h4 h6, haf.trans h7, (List.Perm.swap e1 e es').trans (List.Perm.cons e1 hperm)⟩

/-- **Every run of blind operations ends alike.** -/
theorem Run.confluent_alike (hF : NoCrash F) {es2 : List Event} {t t2 : Conf α}
    (h2 : Run F n t es2 t2) : ∀ {s f : Conf α} {es : List Event}, f.Finished n → Run F n s es f → (∀ e ∈ es, e.Blind) →
      Alike s t → ∃ es' f', Run F n t2 es' f' ∧ Alike f f' ∧ (es2 ++ es').Perm es := by
  induction h2 with
  | nil t =>
    intro s f es _ h hB ha
    obtain ⟨f', h1, h2⟩ := h.alike hB ha
    exact ⟨es, f', h1, h2, List.Perm.refl _⟩
  | cons hs _ ih =>
    rename_i e es2 _
    intro s f es hf h hB ha
    obtain ⟨es1, f1, hr, ha1, hp⟩ := h.after_step_alike hF hf hB ha hs
    obtain ⟨es', f', hr', ha', hp'⟩ := ih (ha1.finished hf) hr (fun x hx => hB x (hp.subset (by simp [hx]))) (Alike.refl _)
    exact ⟨es', f', hr', ha1.trans ha', (List.Perm.cons _ hp').trans hp⟩

/-- A run that cannot go on has come to an end alike, and did the same operations. -/
theorem Run.unique_alike (hF : NoCrash F) {f s : Conf α} (hf : f.Finished n) {es : List Event} (h : Run F n s es f)
    (hB : ∀ e ∈ es, e.Blind) {es2 : List Event} {s2 : Conf α} (h2 : Run F n s es2 s2) :
    es2.length ≤ es.length ∧ (∀ e ∈ es2, e ∈ es) ∧ (s2.Stuck F n → s2.thr = f.thr) := by
  obtain ⟨es', f', hr, ha, hp⟩ := Run.confluent_alike hF h2 hf h hB (Alike.refl s)
  refine ⟨?_, fun e he => hp.subset (by simp [he]), fun hst => ?_⟩
  · have := hp.length_eq
    rw [List.length_append] at this
    omega
  · cases hr with
    | nil => exact ha.thr
    | cons hs _ => exact absurd hs (hst _ _)

end Verif
