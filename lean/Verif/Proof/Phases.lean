import Verif.C.Phases
import Verif.Proof.TreeKept
import Verif.Proof.Trunc
/-!
# Rules for collective computations in phases
-/

set_option autoImplicit false

namespace Verif

open Spec

variable {α β : Type} {F : Nat → Nat → Fault}

theorem Phases.ensures_mono {p : Phases α} {w : World} {Q Q' : α → World → Prop} (h : p.Ensures F w Q)
    (hq : ∀ a w', Q a w' → Q' a w') : p.Ensures F w Q' := by
  induction p generalizing w with
  | ret a => exact hq _ _ h
  | ub => exact h
  | hang => exact h
  | root m k ih =>
    simp only [Phases.Ensures] at h ⊢
    cases e : m w with
    | ok b w' => rw [e] at h; exact ih b h
    | _ => rw [e] at h; exact h
  | all n P k ih =>
    obtain ⟨B, hB⟩ := h
    refine ⟨B, fun es s hr => ⟨(hB es s hr).1, fun hs => ?_⟩⟩
    obtain ⟨h1, h2⟩ := (hB es s hr).2 hs
    exact ⟨h1, fun out ho => ih out (h2 out ho)⟩

theorem Phases.ensures_bind' {p : Phases α} {f : α → Phases β} {w : World} {Q : β → World → Prop}
    (h : p.Ensures F w (fun a w' => (f a).Ensures F w' Q)) : (p.bind f).Ensures F w Q := by
  induction p generalizing w with
  | ret a => exact h
  | ub => exact h
  | hang => exact h
  | root m k ih =>
    simp only [Phases.Ensures, Phases.bind] at h ⊢
    cases e : m w with
    | ok b w' => rw [e] at h; exact ih b h
    | _ => rw [e] at h; exact h
  | all n P k ih =>
    obtain ⟨B, hB⟩ := h
    refine ⟨B, fun es s hr => ⟨(hB es s hr).1, fun hs => ?_⟩⟩
    obtain ⟨h1, h2⟩ := (hB es s hr).2 hs
    exact ⟨h1, fun out ho => ih out (h2 out ho)⟩

theorem Phases.ensures_bind {p : Phases α} {f : α → Phases β} {w : World} {Q : β → World → Prop}
    (h : p.Ensures F w (fun a w' => (f a).Ensures F w' Q)) : (p >>= f).Ensures F w Q := Phases.ensures_bind' h

theorem Phases.ensures_pure {a : α} {w : World} {Q : α → World → Prop} (h : Q a w) : (pure a : Phases α).Ensures F w Q := h

theorem Phases.ensures_alone {m : M α} {w w' : World} {a : α} {Q : α → World → Prop} (h : m w = .ok a w') (hq : Q a w') :
    (Phases.alone m).Ensures F w Q := by
  simp only [Phases.alone, Phases.Ensures]
  rw [h]
  exact hq

/-- Two configurations agree on the first `n` processes and on the files. -/
structure Conf.Agree (n : Nat) (s t : Conf α) : Prop where
  thr : ∀ r, r < n → s.thr r = t.thr r
  nodes : s.nodes = t.nodes

theorem Conf.Agree.symm {n : Nat} {s t : Conf α} (h : s.Agree n t) : t.Agree n s :=
  ⟨fun r hr => (h.thr r hr).symm, h.nodes.symm⟩

theorem Conf.Agree.step {n : Nat} {s t s' : Conf α} {e : Event} (h : s.Agree n t) (hs : Step F n s e s') :
    ∃ t', Step F n t e t' ∧ s'.Agree n t' := by
  cases hs with
  | file r op k tm a nd hr ht he =>
    refine ⟨_, .file t r op k tm a nd hr (by rw [← h.thr r hr]; exact ht) (by rw [← h.nodes]; exact he), ?_, rfl⟩
    intro q hq
    show (if q = r then _ else _) = (if q = r then _ else _)
    rw [h.thr q hq]
  | coll c hne hall =>
    refine ⟨_, .coll t c hne (fun r hr => ⟨(hall r hr).1, by rw [← h.thr r (hall r hr).1]; exact (hall r hr).2⟩), ?_, h.nodes⟩
    intro q hq
    have hm : (c.members.map fun q => (s.thr q).prog.offer) = c.members.map fun q => (t.thr q).prog.offer := by
      apply List.map_congr_left
      intro r hr
      rw [h.thr r (hall r hr).1]
    show (if q ∈ c.members then _ else _) = (if q ∈ c.members then _ else _)
    rw [h.thr q hq, hm]

theorem Conf.Agree.run {n : Nat} {s t s' : Conf α} {es : List Event} (h : s.Agree n t) (hr : Run F n s es s') :
    ∃ t', Run F n t es t' ∧ s'.Agree n t' := by
  induction hr generalizing t with
  | nil s => exact ⟨t, .nil t, h⟩
  | cons hs _ ih =>
    obtain ⟨t1, g1, g2⟩ := h.step hs
    obtain ⟨t2, g3, g4⟩ := ih g2
    exact ⟨t2, .cons g1 g3, g4⟩

theorem Conf.Agree.stuck {n : Nat} {s t : Conf α} (h : s.Agree n t) (hs : s.Stuck F n) : t.Stuck F n := by
  intro e t' ht
  obtain ⟨s', hs', _⟩ := h.symm.step ht
  exact hs e s' hs'

/-! ## The directory tree -/

theorem exec_later {op : FOp} {f : Fault} {nd nd' : Nodes} {a : Resp} {d : List Key} (r : Nat)
    (he : op.exec f nd = some (a, nd')) (ht : TreeOk ⟨nd, d⟩) :
    ∃ d', TreeOk ⟨nd', d'⟩ ∧ NothingLost ⟨nd, d⟩ ⟨nd', d'⟩ ∧
      ∀ k, (nd' k).isSome = true → (nd k).isSome = true ∨ k ∈ opened [.file r op f] := by
  have hsame : ∃ d', TreeOk ⟨nd, d'⟩ ∧ NothingLost ⟨nd, d⟩ ⟨nd, d'⟩ ∧
      ∀ k, (nd k).isSome = true → (nd k).isSome = true ∨ k ∈ opened [.file r op f] :=
    ⟨d, ht, NothingLost.refl _, fun _ h => Or.inl h⟩
  cases op with
  | fread path off len =>
    obtain ⟨_, rfl, _⟩ := FOp.Passive.exec (op := .fread path off len) trivial he
    exact hsame
  | fwrite path off bs =>
    obtain ⟨_, rfl, _⟩ := exec_fwrite he
    have e : putBytes nd (resolve path) off (bs.take (writtenLen f bs.length)) =
        (FS.writeFile ⟨nd, d⟩ (resolve path) off (bs.take (writtenLen f bs.length))).node := (putBytes_eq ⟨nd, d⟩ _ _ _).symm
    have hd : (FS.writeFile ⟨nd, d⟩ (resolve path) off (bs.take (writtenLen f bs.length))).dom = d := by
      unfold FS.writeFile
      split <;> rfl
    have h1 := ht.writeFile (resolve path) off (bs.take (writtenLen f bs.length))
    have h2 := writeFile_lost ⟨nd, d⟩ (resolve path) off (bs.take (writtenLen f bs.length))
    have h3 : FS.writeFile ⟨nd, d⟩ (resolve path) off (bs.take (writtenLen f bs.length)) =
        ⟨putBytes nd (resolve path) off (bs.take (writtenLen f bs.length)), d⟩ := by
      rw [e]
      generalize FS.writeFile ⟨nd, d⟩ (resolve path) off (bs.take (writtenLen f bs.length)) = x at hd
      cases x
      simp only at hd
      rw [hd]
    rw [h3] at h1 h2
    refine ⟨d, h1, h2, fun k hk => Or.inl ?_⟩
    unfold putBytes FS.writeFile at hk
    split at hk
    · rename_i dd hdd
      dsimp only at hk
      split at hk
      · rename_i he'
        rw [he']
        have : nd (resolve path) = some (.file dd) := hdd
        rw [this]
        rfl
      · exact hk
    · exact hk
  | fopen path mode =>
    cases mode with
    | r =>
      obtain ⟨_, rfl, _⟩ := FOp.Passive.exec (op := .fopen path .r) trivial he
      exact hsame
    | rplus =>
      obtain ⟨_, rfl, _⟩ := FOp.Passive.exec (op := .fopen path .rplus) trivial he
      exact hsame
    | w =>
      have hf : ∀ n, f ≠ .crash n := by
        rintro n rfl
        simp [FOp.exec, FOp.run, Verif.fopen, bind, M.bind, tick, die] at he
      rw [exec_open_w hf] at he
      injection he with he
      injection he with _ he
      by_cases ho : openable f nd (resolve path) = true
      · rw [if_pos ho] at he
        subst he
        have ho' : nd (resolve path) ≠ some .dir ∧ nd (resolve path).dropLast = some .dir := by
          unfold openable at ho
          split at ho
          · cases ho
          · simpa using ho
        have hne : resolve path ≠ [] := by
          intro hc
          rw [hc] at ho'
          exact ho'.1 ht.cwd
        have e : FS.set ⟨nd, d⟩ (resolve path) (.file []) =
            ⟨emptied nd [resolve path], if resolve path ∈ d then d else resolve path :: d⟩ := by
          unfold FS.set
          congr 1
          funext k
          simp [emptied]
        have h1 := ht.set (resolve path) (.file []) (isKey_resolve path) hne ho'.2 (Or.inr ho'.1)
        have h2 : NothingLost ⟨nd, d⟩ (FS.set ⟨nd, d⟩ (resolve path) (.file [])) := by
          apply NothingLost.set
          cases hn : nd (resolve path) with
          | none => exact Or.inl hn
          | some x =>
            cases x with
            | dir => exact absurd hn ho'.1
            | file dd => exact Or.inr (Or.inr ⟨[], dd, rfl, hn⟩)
        rw [e] at h1 h2
        refine ⟨_, h1, h2, fun k hk => ?_⟩
        by_cases hkk : k = resolve path
        · exact Or.inr (by simp [opened, hkk])
        · simp only [emptied, List.mem_singleton, if_neg hkk] at hk
          exact Or.inl hk
      · rw [if_neg ho] at he
        subst he
        exact hsame

theorem opened_append (a b : List Event) : opened (a ++ b) = opened a ++ opened b := by
  unfold opened
  exact List.filterMap_append

theorem run_later {n : Nat} {s s' : Conf α} {es : List Event} (h : Run F n s es s') : ∀ {d : List Key}, TreeOk ⟨s.nodes, d⟩ →
    ∃ d', TreeOk ⟨s'.nodes, d'⟩ ∧ NothingLost ⟨s.nodes, d⟩ ⟨s'.nodes, d'⟩ ∧
      ∀ k, (s'.nodes k).isSome = true → (s.nodes k).isSome = true ∨ k ∈ opened es := by
  induction h with
  | nil s => intro d ht; exact ⟨d, ht, NothingLost.refl _, fun _ h => Or.inl h⟩
  | @cons s s1 s' e es hs _ ih =>
    intro d ht
    have h1 : ∃ d', TreeOk ⟨s1.nodes, d'⟩ ∧ NothingLost ⟨s.nodes, d⟩ ⟨s1.nodes, d'⟩ ∧
        ∀ k, (s1.nodes k).isSome = true → (s.nodes k).isSome = true ∨ k ∈ opened [e] := by
      cases hs with
      | file r op k t a nd hr ht' he => exact exec_later r he ht
      | coll c hne hall => exact ⟨d, ht, NothingLost.refl _, fun _ h => Or.inl h⟩
    obtain ⟨d1, t1, l1, k1⟩ := h1
    obtain ⟨d2, t2, l2, k2⟩ := ih t1
    refine ⟨d2, t2, l1.trans l2, fun k hk => ?_⟩
    rw [show e :: es = [e] ++ es from rfl, opened_append]
    rcases k2 k hk with h | h
    · rcases k1 k h with h | h
      · exact Or.inl h
      · exact Or.inr (List.mem_append_left _ h)
    · exact Or.inr (List.mem_append_right _ h)

theorem domAfter_spec (nd : Nodes) (es : List Event) (dom : List Key) : (dom.Nodup → (domAfter nd es dom).Nodup) ∧
    ∀ k, (nd k).isSome = true → (k ∈ dom ∨ k ∈ opened es) → k ∈ domAfter nd es dom := by
  unfold domAfter
  generalize opened es = l
  induction l generalizing dom with
  | nil => exact ⟨id, fun k _ h => by simpa using h⟩
  | cons x l ih =>
    simp only [List.foldl_cons]
    obtain ⟨h1, h2⟩ := ih (if (nd x).isSome = true ∧ x ∉ dom then x :: dom else dom)
    refine ⟨fun hn => h1 ?_, fun k hk hm => h2 k hk ?_⟩
    · split
      · rename_i hx
        exact List.nodup_cons.mpr ⟨hx.2, hn⟩
      · exact hn
    · rcases hm with hm | hm
      · left
        split
        · exact List.mem_cons_of_mem _ hm
        · exact hm
      · rcases List.mem_cons.mp hm with rfl | hm
        · left
          split
          · exact List.mem_cons_self ..
          · rename_i hx
            exact Decidable.byContradiction fun hc => hx ⟨hk, hc⟩
        · exact Or.inr hm

/-- Whatever the processes do, the tree remains a tree and nothing is lost. -/
theorem run_keeps {n : Nat} {s s' : Conf α} {es : List Event} (h : Run F n s es s') {d : List Key} (ht : TreeOk ⟨s.nodes, d⟩) :
    Later ⟨s.nodes, d⟩ ⟨s'.nodes, domAfter s'.nodes es d⟩ := by
  obtain ⟨d', h1, h2, h3⟩ := run_later h ht
  obtain ⟨g1, g2⟩ := domAfter_spec s'.nodes es d
  refine ⟨⟨h1.cwd, h1.root, h1.parent, h1.keys, fun k hk => ?_, g1 ht.nodup⟩, h2⟩
  apply g2 k hk
  rcases h3 k hk with h | h
  · exact Or.inl (ht.dom k h)
  · exact Or.inr h

/-- All processes work. What is known about the runs of programs `P'` is known about those of `P` if the first `n`
programs are the same. -/
theorem Phases.ensures_together {n : Nat} {P P' : Nat → Prog α} {w : World} {Q : (Nat → α) → World → Prop}
    (hP : ∀ r, r < n → P r = P' r)
    (h : ∃ B, ∀ es s, Run F n (startAll P' w.fs.node) es s → es.length ≤ B ∧
      (s.Stuck F n → ∃ out : Nat → α, (∀ r, r < n → (s.thr r).prog = .ret (out r)) ∧ ∀ (out' : Nat → α) (dom : List Key),
        (TreeOk w.fs → Later w.fs ⟨s.nodes, dom⟩) → (∀ r, r < n → out' r = out r) →
        Q out' ⟨⟨s.nodes, dom⟩, w.faults, w.clock⟩)) :
    (Phases.together n P).Ensures F w Q := by
  obtain ⟨B, hB⟩ := h
  have ha : (startAll P w.fs.node).Agree n (startAll P' w.fs.node) := ⟨fun r hr => by unfold startAll; simp only [hP r hr], rfl⟩
  refine ⟨B, fun es s hr => ?_⟩
  obtain ⟨t, ht, hag⟩ := ha.run hr
  refine ⟨(hB es t ht).1, fun hs => ?_⟩
  obtain ⟨out, h1, h2⟩ := (hB es t ht).2 (hag.stuck hs)
  have h1' : ∀ r, r < n → (s.thr r).prog = .ret (out r) := fun r hr => by rw [hag.thr r hr]; exact h1 r hr
  refine ⟨fun r hr => ⟨_, h1' r hr⟩, fun out' ho => ?_⟩
  simp only [Phases.Ensures]
  rw [hag.nodes]
  apply h2
  · intro htree
    exact run_keeps ht htree
  intro r hr
  have := ho r hr
  rw [h1' r hr] at this
  injection this with this
  exact this.symm

end Verif
