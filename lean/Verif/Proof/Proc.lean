import Verif.C.Proc
/-!
# Runs of several processes: if all operations of different processes commute, every run ends alike
-/

set_option autoImplicit false

namespace Verif

variable {α β : Type}

/-- No process is killed. -/
def NoCrash (F : Nat → Nat → Fault) : Prop := ∀ r t n, F r t ≠ .crash n

/-- Two operations with their faults commute: done in either order they return the same and leave the
same files. -/
def Commute (o : FOp) (f : Fault) (o' : FOp) (f' : Fault) : Prop :=
  ∀ nd a nd1 b nd1', o.exec f nd = some (a, nd1) → o'.exec f' nd = some (b, nd1') →
    ∃ nd2, o'.exec f' nd1 = some (b, nd2) ∧ o.exec f nd1' = some (a, nd2)

/-- Two events do not interfere. -/
def Indep : Event → Event → Prop
  | .file r o f, .file s o' f' => r ≠ s → Commute o f o' f'
  | _, _ => True

/-- The processes that take part in an event. -/
def Event.who : Event → List Nat
  | .file r _ _ => [r]
  | .coll c => c.members

theorem FOp.exec_some (op : FOp) {f : Fault} (hf : ∀ n, f ≠ .crash n) (nd : Nodes) :
    ∃ a nd', op.exec f nd = some (a, nd') := by
  have key : ∀ w : World, (∀ n, w.faults w.clock ≠ .crash n) → ∃ a w', op.run w = .ok a w' := by
    intro w hw
    cases op with
    | fopen path mode =>
      cases hc : w.faults w.clock with
      | crash n => exact absurd hc (hw n)
      | fail => exact ⟨_, _, by simp [FOp.run, Verif.fopen, bind, M.bind, tick, hc, pure, M.pure]; exact ⟨rfl, rfl⟩⟩
      | _ =>
        cases mode with
        | r => exact ⟨_, _, by simp [FOp.run, Verif.fopen, bind, M.bind, tick, hc, pure, M.pure, getFS]; exact ⟨rfl, rfl⟩⟩
        | rplus =>
          rcases hn : w.fs.node (resolve path) with _ | (_ | d) <;>
          exact ⟨_, _, by simp [FOp.run, Verif.fopen, bind, M.bind, tick, hc, pure, M.pure, getFS, hn]; exact ⟨rfl, rfl⟩⟩
        | w =>
          rcases hn : w.fs.node (resolve path) with _ | (_ | d) <;>
          by_cases hp : w.fs.node (resolve path).dropLast = some .dir <;>
          exact ⟨_, _, by simp [FOp.run, Verif.fopen, bind, M.bind, tick, hc, pure, M.pure, getFS, setFS, hn, hp]; exact ⟨rfl, rfl⟩⟩
    | fwrite path off bs =>
      cases hc : w.faults w.clock with
      | crash n => exact absurd hc (hw n)
      | _ => exact ⟨_, _, by simp [FOp.run, fwriteAt, bind, M.bind, tick, hc, pure, M.pure, getFS, setFS]; exact ⟨rfl, rfl⟩⟩
    | fread path off len =>
      cases hc : w.faults w.clock with
      | crash n => exact absurd hc (hw n)
      | _ => exact ⟨_, _, by simp [FOp.run, freadAt, bind, M.bind, tick, hc, pure, M.pure, getFS]; exact ⟨rfl, rfl⟩⟩
  obtain ⟨a, w', h⟩ := key ⟨⟨nd, []⟩, fun _ => f, 0⟩ hf
  exact ⟨a, w'.fs.node, by unfold FOp.exec; rw [h]⟩

/-! ## The step of a process is determined by the process -/

theorem Step.who_lt {F : Nat → Nat → Fault} {n : Nat} {s s' : Conf α} {e : Event} (h : Step F n s e s') :
    ∀ r ∈ e.who, r < n := by
  cases h with
  | file r op k t a nd hr ht he => intro q hq; simp [Event.who] at hq; omega
  | coll c hne hall => intro q hq; exact (hall q hq).1

theorem Step.who_ne {F : Nat → Nat → Fault} {n : Nat} {s s' : Conf α} {e : Event} (h : Step F n s e s') :
    e.who ≠ [] := by
  cases h with
  | file r op k t a nd hr ht he => simp [Event.who]
  | coll c hne hall => exact hne

/-- Two steps in which the same process takes part are the same step. -/
theorem Step.same {F : Nat → Nat → Fault} {n : Nat} {s s1 s2 : Conf α} {e1 e2 : Event} {r : Nat}
    (h1 : Step F n s e1 s1) (h2 : Step F n s e2 s2) (hr1 : r ∈ e1.who) (hr2 : r ∈ e2.who) : e1 = e2 ∧ s1 = s2 := by
  cases h1 with
  | file r1 op k t a nd hr ht he =>
    simp [Event.who] at hr1
    subst hr1
    cases h2 with
    | file r2 op2 k2 t2 a2 nd2 hr' ht' he' =>
      simp [Event.who] at hr2
      subst hr2
      rw [ht] at ht'
      cases ht'
      rw [he] at he'
      cases he'
      exact ⟨rfl, rfl⟩
    | coll c hne hall =>
      have := (hall r hr2).2
      rw [ht] at this
      exact this.elim
  | coll c hne hall =>
    cases h2 with
    | file r2 op2 k2 t2 a2 nd2 hr' ht' he' =>
      simp [Event.who] at hr2
      subst hr2
      have := (hall r hr1).2
      rw [ht'] at this
      exact this.elim
    | coll c2 hne2 hall2 =>
      have h1 := (hall r hr1).2
      have h2 := (hall2 r hr2).2
      cases hp : (s.thr r).prog <;> rw [hp] at h1 h2 <;> simp [Prog.WaitsAt] at h1 h2
      subst h1
      subst h2
      exact ⟨rfl, rfl⟩

/-- A process that does not take part stays as it is. -/
theorem Step.other {F : Nat → Nat → Fault} {n : Nat} {s s' : Conf α} {e : Event} {r : Nat}
    (h : Step F n s e s') (hr : r ∉ e.who) : s'.thr r = s.thr r := by
  cases h with
  | file r1 op k t a nd hr1 ht he =>
    simp [Event.who] at hr
    simp [Conf.put, hr]
  | coll c hne hall =>
    simp [Event.who] at hr
    simp [Conf.meet, hr]

theorem Conf.put_comm (s : Conf α) {r q : Nat} (h : r ≠ q) (t u : Thread α) (nd nd' nd2 : Nodes) :
    (s.put r t nd).put q u nd2 = (s.put q u nd').put r t nd2 := by
  simp only [Conf.put, Conf.mk.injEq, and_true]
  funext x
  by_cases h1 : x = q <;> by_cases h2 : x = r <;> simp [h1, h2]
  · omega
  · intro e; omega
  · intro e; omega

theorem Conf.meet_put (s : Conf α) {r : Nat} {c : Call} (h : r ∉ c.members) (t : Thread α) (nd : Nodes) :
    (s.put r t nd).meet c = (s.meet c).put r t nd := by
  simp only [Conf.put, Conf.meet, Conf.mk.injEq, and_true]
  have e : (c.members.map fun q => (if q = r then t else s.thr q).prog.offer) =
      c.members.map fun q => (s.thr q).prog.offer := by
    apply List.map_congr_left
    intro q hq
    rw [if_neg (fun e => h (by rw [← e]; exact hq))]
  rw [e]
  funext x
  by_cases hx : x = r
  · subst hx; simp [h]
  · simp [hx]

theorem Conf.meet_meet (s : Conf α) {c d : Call} (h : ∀ r ∈ c.members, r ∉ d.members) :
    (s.meet c).meet d = (s.meet d).meet c := by
  have h' : ∀ r ∈ d.members, r ∉ c.members := fun r hr hc => h r hc hr
  simp only [Conf.meet, Conf.mk.injEq, and_true]
  have e1 : (d.members.map fun q => (if q ∈ c.members then
        (⟨(s.thr q).prog.receive (c.members.map fun q => (s.thr q).prog.offer), (s.thr q).clock⟩ : Thread α)
        else s.thr q).prog.offer) = d.members.map fun q => (s.thr q).prog.offer := by
    apply List.map_congr_left
    intro q hq
    rw [if_neg (h' q hq)]
  have e2 : (c.members.map fun q => (if q ∈ d.members then
        (⟨(s.thr q).prog.receive (d.members.map fun q => (s.thr q).prog.offer), (s.thr q).clock⟩ : Thread α)
        else s.thr q).prog.offer) = c.members.map fun q => (s.thr q).prog.offer := by
    apply List.map_congr_left
    intro q hq
    rw [if_neg (h q hq)]
  rw [e1, e2]
  funext x
  by_cases hc : x ∈ c.members
  · have := h x hc; simp [hc, this]
  · by_cases hd : x ∈ d.members <;> simp [hc, hd]

/-- A step of other processes is still possible after a step. -/
theorem Step.still {F : Nat → Nat → Fault} (hF : NoCrash F) {n : Nat} {s s1 s2 : Conf α} {e1 e : Event}
    (h1 : Step F n s e1 s1) (h : Step F n s e s2) (hd : ∀ r ∈ e1.who, r ∉ e.who) : ∃ d, Step F n s1 e d := by
  have hd' : ∀ r ∈ e.who, r ∉ e1.who := fun r hr hc => hd r hc hr
  cases h with
  | file r op k t a nd hr ht he =>
    obtain ⟨a', nd', he'⟩ := op.exec_some (hF r t) s1.nodes
    exact ⟨_, .file s1 r op k t a' nd' hr (by rw [h1.other (hd' r (by simp [Event.who])), ht]) he'⟩
  | coll c hne hall =>
    refine ⟨_, .coll s1 c hne (fun r hr => ⟨(hall r hr).1, ?_⟩)⟩
    rw [h1.other (hd' r hr)]
    exact (hall r hr).2

/-- Two independent steps of different processes can be exchanged. -/
theorem Step.swap {F : Nat → Nat → Fault} {n : Nat} {s s1 s2 d : Conf α} {e1 e : Event}
    (h1 : Step F n s e1 s1) (h : Step F n s e s2) (hd : ∀ r ∈ e1.who, r ∉ e.who) (hi : Indep e1 e)
    (hs : Step F n s1 e d) : Step F n s2 e1 d := by
  have hd' : ∀ r ∈ e.who, r ∉ e1.who := fun r hr hc => hd r hc hr
  cases h1 with
  | file r1 op1 k1 t1 a1 nd1 hr1 ht1 he1 =>
    cases h with
    | file r op k t a nd hr ht he =>
      have hne : r1 ≠ r := by
        have := hd r1 (by simp [Event.who]); simpa [Event.who] using this
      have hi' : Commute op1 (F r1 t1) op (F r t) := hi hne
      obtain ⟨nd2, g1, g2⟩ := hi' _ _ _ _ _ he1 he
      have hs' : Step F n (s.put r1 ⟨k1 a1, t1 + 1⟩ nd1) (.file r op (F r t))
          ((s.put r1 ⟨k1 a1, t1 + 1⟩ nd1).put r ⟨k a, t + 1⟩ nd2) :=
        .file _ r op k t a nd2 hr (by simp [Conf.put, hne.symm]; exact ht) g1
      obtain ⟨_, rfl⟩ := hs.same hs' (r := r) (by simp [Event.who]) (by simp [Event.who])
      rw [s.put_comm hne _ _ nd1 nd nd2]
      exact .file _ r1 op1 k1 t1 a1 nd2 hr1 (by simp [Conf.put, hne]; exact ht1) g2
    | coll c hne hall =>
      have hr1c : r1 ∉ c.members := hd r1 (by simp [Event.who])
      have hs' : Step F n (s.put r1 ⟨k1 a1, t1 + 1⟩ nd1) (.coll c) ((s.put r1 ⟨k1 a1, t1 + 1⟩ nd1).meet c) := by
        refine .coll _ c hne (fun q hq => ⟨(hall q hq).1, ?_⟩)
        simp only [Conf.put]
        rw [if_neg (fun e : q = r1 => hr1c (e ▸ hq))]
        exact (hall q hq).2
      obtain ⟨q, hq⟩ := List.exists_mem_of_ne_nil _ hne
      obtain ⟨_, rfl⟩ := hs.same hs' (r := q) hq hq
      rw [s.meet_put hr1c]
      exact .file _ r1 op1 k1 t1 a1 nd1 hr1 (by simp [Conf.meet, hr1c]; exact ht1) he1
  | coll c hne hall =>
    cases h with
    | file r op k t a nd hr ht he =>
      have hrc : r ∉ c.members := hd' r (by simp [Event.who])
      have hs' : Step F n (s.meet c) (.file r op (F r t)) ((s.meet c).put r ⟨k a, t + 1⟩ nd) :=
        .file _ r op k t a nd hr (by simp [Conf.meet, hrc]; exact ht) he
      obtain ⟨_, rfl⟩ := hs.same hs' (r := r) (by simp [Event.who]) (by simp [Event.who])
      rw [← s.meet_put hrc]
      refine .coll _ c hne (fun q hq => ⟨(hall q hq).1, ?_⟩)
      simp only [Conf.put]
      rw [if_neg (fun e : q = r => hrc (e ▸ hq))]
      exact (hall q hq).2
    | coll c2 hne2 hall2 =>
      have hs' : Step F n (s.meet c) (.coll c2) ((s.meet c).meet c2) := by
        refine .coll _ c2 hne2 (fun q hq => ⟨(hall2 q hq).1, ?_⟩)
        simp only [Conf.meet]
        rw [if_neg (show q ∉ c.members from hd' q hq)]
        exact (hall2 q hq).2
      obtain ⟨q, hq⟩ := List.exists_mem_of_ne_nil _ hne2
      obtain ⟨_, rfl⟩ := hs.same hs' (r := q) hq hq
      rw [s.meet_meet hd]
      refine .coll _ c hne (fun q hq => ⟨(hall q hq).1, ?_⟩)
      simp only [Conf.meet]
      rw [if_neg (show q ∉ c2.members from hd q hq)]
      exact (hall q hq).2

theorem Conf.Finished.stuck {F : Nat → Nat → Fault} {n : Nat} {s : Conf α} (h : s.Finished n) : s.Stuck F n := by
  intro e s' hs
  cases hs with
  | file r op k t a nd hr ht he =>
    obtain ⟨x, hx⟩ := h r hr
    rw [ht] at hx
    cases hx
  | coll c hne hall =>
    obtain ⟨q, hq⟩ := List.exists_mem_of_ne_nil _ hne
    obtain ⟨x, hx⟩ := h q (hall q hq).1
    have := (hall q hq).2
    rw [hx] at this
    exact this

/-- Whatever step is taken first, the run can be completed to the same end with the same events. -/
theorem Run.after_step {F : Nat → Nat → Fault} (hF : NoCrash F) {n : Nat} {f : Conf α} (hf : f.Finished n) :
    ∀ {s : Conf α} {es : List Event}, Run F n s es f → (∀ a ∈ es, ∀ b ∈ es, Indep a b) →
      ∀ {e : Event} {s' : Conf α}, Step F n s e s' → ∃ es', Run F n s' es' f ∧ (e :: es').Perm es := by
  intro s es h
  induction h with
  | nil s => intro _ e s' hs; exact absurd hs (hf.stuck e s')
  | cons h1 t ih =>
    rename_i s s1 f e1 es
    intro hI e s' hs
    by_cases hsh : ∃ r, r ∈ e1.who ∧ r ∈ e.who
    · obtain ⟨r, ha, hb⟩ := hsh
      obtain ⟨rfl, rfl⟩ := h1.same hs ha hb
      exact ⟨es, t, List.Perm.refl _⟩
    · have hd : ∀ r ∈ e1.who, r ∉ e.who := fun r ha hb => hsh ⟨r, ha, hb⟩
      obtain ⟨d, hsd⟩ := h1.still hF hs hd
      obtain ⟨es', hrun, hperm⟩ := ih hf (fun a ha b hb => hI a (by simp [ha]) b (by simp [hb])) hsd
      have he : e ∈ es := hperm.subset (by simp)
      have hi : Indep e1 e := hI e1 (by simp) e (by simp [he])
      exact ⟨e1 :: es', .cons (h1.swap hs hd hi hsd) hrun,
        (List.Perm.swap e1 e es').trans (List.Perm.cons e1 hperm)⟩

/-- **Every run ends alike.** If one run ends with all processes returned, and the operations of
different processes in it commute, then every run from the same start can be continued to the same end;
its events are among those of that run. -/
theorem Run.confluent {F : Nat → Nat → Fault} (hF : NoCrash F) {n : Nat} {f : Conf α} (hf : f.Finished n)
    {s : Conf α} {es : List Event} (h : Run F n s es f) (hI : ∀ a ∈ es, ∀ b ∈ es, Indep a b)
    {es2 : List Event} {s2 : Conf α} (h2 : Run F n s es2 s2) :
    ∃ es', Run F n s2 es' f ∧ (es2 ++ es').Perm es := by
  induction h2 generalizing es with
  | nil s => exact ⟨es, h, List.Perm.refl _⟩
  | cons hs t ih =>
    rename_i e es2
    obtain ⟨es1, hr, hp⟩ := h.after_step hF hf hI hs
    obtain ⟨es', hr', hp'⟩ := ih hr (fun a ha b hb => hI a (hp.subset (by simp [ha])) b (hp.subset (by simp [hb])))
    exact ⟨es', hr', (List.Perm.cons _ hp').trans hp⟩

/-- A run that cannot go on has reached that end. -/
theorem Run.unique {F : Nat → Nat → Fault} (hF : NoCrash F) {n : Nat} {f : Conf α} (hf : f.Finished n)
    {s : Conf α} {es : List Event} (h : Run F n s es f) (hI : ∀ a ∈ es, ∀ b ∈ es, Indep a b)
    {es2 : List Event} {s2 : Conf α} (h2 : Run F n s es2 s2) :
    es2.length ≤ es.length ∧ (s2.Stuck F n → s2 = f) := by
  obtain ⟨es', hr, hp⟩ := h.confluent hF hf hI h2
  refine ⟨?_, fun hst => ?_⟩
  · have := hp.length_eq
    rw [List.length_append] at this
    omega
  · cases hr with
    | nil => rfl
    | cons hs _ => exact absurd hs (hst _ _)

theorem Run.trans {F : Nat → Nat → Fault} {n : Nat} {s s1 s2 : Conf α} {es es' : List Event}
    (h : Run F n s es s1) (h' : Run F n s1 es' s2) : Run F n s (es ++ es') s2 := by
  induction h with
  | nil s => exact h'
  | cons hs _ ih => exact .cons hs (ih h')

end Verif
