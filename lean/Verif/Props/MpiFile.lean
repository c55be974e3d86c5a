import Verif.Props.RecordsAll
/-!
# C73: opening and making a file together
-/

set_option autoImplicit false

namespace Verif

open Spec

/-- The exchange of errors after rank 0 has worked alone. -/
theorem root_exchange {α : Type} {n : Nat} (hn : 0 < n) (rc : Int) (msg : CStr) {w : World} {k : (Nat → Int × Option CStr) → α}
    {Q : α → World → Prop}
    (h : ∀ (out : Nat → Int × Option CStr) (dom : List Key), (TreeOk w.fs → Later w.fs ⟨w.fs.node, dom⟩) →
      (∀ r, r < n → (out r).1 = rc) → Q (k out) ⟨⟨w.fs.node, dom⟩, w.faults, w.clock⟩) :
    (do let out ← Phases.together n fun r =>
          anyerrorP .world (List.range n) r (if r = 0 then rc else 0) (if r = 0 ∧ rc ≠ 0 then some msg else none)
        pure (k out) : Phases α).Ensures faultless w Q := by
  apply Phases.ensures_bind
  apply Phases.ensures_together (P' := fun r => anyerrorP .world (List.range n) r (if r = 0 then rc else 0) (if r = 0 ∧ rc ≠ 0 then some msg else none))
  · intro r _; rfl
  · obtain ⟨B, hB⟩ := C47_exchange n hn (fun r => if r = 0 then rc else 0) (fun r => if r = 0 ∧ rc ≠ 0 then some msg else none) w.fs.node
      (by
        intro r _ h0
        by_cases hr : r = 0
        · subst hr
          rw [if_pos rfl] at h0
          exact ⟨msg, by rw [if_pos ⟨rfl, h0⟩]⟩
        · rw [if_neg hr] at h0
          exact absurd rfl h0)
    refine ⟨B, fun es s hr => ?_⟩
    obtain ⟨h1, h2⟩ := hB es s hr
    refine ⟨h1, fun hs => ?_⟩
    obtain ⟨hnd, h3⟩ := h2 hs
    rcases h3 with ⟨h3, h4⟩ | ⟨r0, hr0, h3, h4⟩
    · refine ⟨_, h4, fun out dom hlat ho => ?_⟩
      rw [hnd] at hlat ⊢
      apply Phases.ensures_pure
      apply h out dom hlat
      intro r hr
      rw [ho r hr]
      have := h3 0 hn
      simp only [if_true] at this
      exact this.symm
    · refine ⟨fun _ => _, fun r hr => h4 r hr, fun out dom hlat ho => ?_⟩
      rw [hnd] at hlat ⊢
      apply Phases.ensures_pure
      apply h out dom hlat
      intro r hr
      rw [ho r hr]
      by_cases hr0' : r0 = 0
      · simp [hr0']
      · simp [hr0'] at h3

/-- **C73** (the same code). Whatever happens to rank 0 when it opens the file, all processes return with the code rank 0 got; if it
is 0, all of them have stored the name. Nothing else happens to the file system. -/
theorem C73_open_agrees (n : Nat) (basename : CStr) (w w1 : World) (rc : Int) (name : CStr) (hn : 0 < n)
    (e : bigFileOpen basename w = .ok (rc, name) w1) :
    (mpiFileOpen n basename).Ensures faultless w fun x w' => (∀ r, r < n → (x r).1 = rc) ∧
      (rc = 0 → ∀ r, r < n → (x r).2 = strdup basename) ∧ w'.fs.node = w1.fs.node ∧ w'.faults = w1.faults := by
  unfold mpiFileOpen
  apply Phases.ensures_bind
  apply Phases.ensures_alone e
  refine root_exchange (k := fun out => fun r => ((out r).1, if r = 0 then name else strdup basename)) hn rc b!"cannot open" ?_
  intro out dom _ ho
  refine ⟨ho, fun h0 r hr => ?_, rfl, rfl⟩
  dsimp only
  split
  · obtain ⟨b, w2, _, e2⟩ := bind_ok_iff.mp e
    subst h0
    cases b with
    | true => exact (congrArg Prod.snd (pure_ok_iff.mp e2).1).symm
    | false => exact absurd (congrArg Prod.fst (pure_ok_iff.mp e2).1) (by simp)
  · rfl

/-- **C73** (the same code). The same for making the file. -/
theorem C73_create_agrees (n : Nat) (basename : CStr) (w w1 : World) (rc : Int) (name : CStr) (hn : 0 < n)
    (e : bigFileCreate basename w = .ok (rc, name) w1) :
    (mpiFileCreate n basename).Ensures faultless w fun x w' => (∀ r, r < n → (x r).1 = rc) ∧
      (∀ r, r < n → (x r).2 = strdup basename) ∧ w'.fs.node = w1.fs.node ∧ w'.faults = w1.faults ∧
      (TreeOk w.fs → TreeOk w'.fs) := by
  unfold mpiFileCreate
  apply Phases.ensures_bind
  apply Phases.ensures_alone e
  refine root_exchange (k := fun out => fun r => ((out r).1, if r = 0 then name else strdup basename)) hn rc b!"cannot create" ?_
  intro out dom hlat ho
  refine ⟨ho, fun r hr => ?_, rfl, rfl, fun ht => (hlat (wlp_ok (bigFileCreate_keeps basename w ht) e).1).1⟩
  dsimp only
  split
  · obtain ⟨b, w2, _, e2⟩ := bind_ok_iff.mp e
    exact (congrArg Prod.snd (pure_ok_iff.mp e2).1).symm
  · rfl

/-- **C73** (an existing file). If nothing fails and the directory is there, all processes get 0 and its name. -/
theorem C73_open (n : Nat) (bf : CStr) (w : World) (hn : 0 < n) (hnf : w.faults = noFaults) (hne : bf ≠ []) (hlen : bf.length ≤ 8192)
    (h : (w.fs.node (resolve bf)).isSome = true) :
    (mpiFileOpen n bf).Ensures faultless w fun x w' => (∀ r, r < n → x r = (0, bf)) ∧ w'.fs.node = w.fs.node ∧ w'.faults = noFaults := by
  obtain ⟨w1, e, f1, nf1⟩ := bigFileOpen_succeeds hnf hne h hlen
  refine Phases.ensures_mono (C73_open_agrees n bf w w1 0 bf hn e) ?_
  rintro x w' ⟨h1, h2, h3, h4⟩
  exact ⟨fun r hr => Prod.ext (h1 r hr) ((h2 rfl r hr).trans (strdup_short hlen)), by rw [h3, f1], h4.trans nf1⟩

/-- **C73** (no such file). If nothing fails and nothing is there, all processes get -1. -/
theorem C73_open_missing (n : Nat) (bf : CStr) (w : World) (hn : 0 < n) (hnf : w.faults = noFaults)
    (h : w.fs.node (resolve bf) = none) :
    (mpiFileOpen n bf).Ensures faultless w fun x w' => (∀ r, r < n → (x r).1 = -1) ∧ w'.fs.node = w.fs.node := by
  have e : bigFileOpen bf w = .ok (-1, []) { w with clock := w.clock + 1 } := by
    simp [bigFileOpen, statOk, bind, M.bind, pure, M.pure, tick, hnf, noFaults, getFS, h]
  refine Phases.ensures_mono (C73_open_agrees n bf w _ (-1) [] hn e) ?_
  rintro x w' ⟨h1, _, h3, _⟩
  exact ⟨h1, h3⟩

/-- **C73** (a new file). If nothing fails and no file is on the way, all processes get 0 and its name; the directories on the way
are there, and nothing else has changed. -/
theorem C73_create (n : Nat) (bf : CStr) (w : World) (hn : 0 < n) (hnf : w.faults = noFaults) (ht : TreeOk w.fs) (hne : bf ≠ [])
    (hlen : bf.length ≤ 8192) (hway : ∀ k, k <+: resolve bf → ¬ IsFile w.fs k) :
    (mpiFileCreate n bf).Ensures faultless w fun x w' => (∀ r, r < n → x r = (0, bf)) ∧ w'.faults = noFaults ∧ TreeOk w'.fs ∧
      w'.fs.node (resolve bf) = some .dir ∧
      ∀ k, w'.fs.node k ≠ w.fs.node k → k <+: resolve bf ∧ w.fs.node k = none ∧ w'.fs.node k = some .dir := by
  obtain ⟨w1, e, nf1, _, h1, h2⟩ := bigFileCreate_makes hnf ht hne hlen hway
  refine Phases.ensures_mono (C73_create_agrees n bf w w1 0 bf hn e) ?_
  rintro x w' ⟨k1, k2, k3, k4, k5⟩
  rw [k3]
  exact ⟨fun r hr => Prod.ext (k1 r hr) ((k2 r hr).trans (strdup_short hlen)), k4.trans nf1, k5 ht, h1, h2⟩

/-! ## Examples -/

example := C73_open 3 b!"d" exTreeWorld (by decide) rfl (by decide) (by decide) (by decide)
example := C73_open_missing 2 b!"e" exTreeWorld (by decide) rfl (by decide)
example := C73_create 4 b!"d" exTreeWorld (by decide) rfl exTree_ok (by decide) (by decide) (by
  intro k hk
  have : k = [] ∨ k = [b!"d"] := by
    have h : k <+: [b!"d"] := hk
    match k, h with
    | [], _ => exact Or.inl rfl
    | [a], h => right; obtain ⟨t, ht⟩ := h; simp at ht; simp [ht.1]
    | a :: b :: c, h => have := h.length_le; simp at this
  rintro ⟨data, hd⟩
  rcases this with rfl | rfl
  · rw [show exTreeWorld.fs.node [] = some .dir by decide] at hd
    simp at hd
  · rw [show exTreeWorld.fs.node [b!"d"] = some .dir by decide] at hd
    simp at hd)

/-- The disk fails when rank 0 looks for the file: all three processes get -1. -/
example : (mpiFileOpen 3 b!"d").Ensures faultless ⟨exTreeWorld.fs, fun _ => .fail, 0⟩ fun x _ => ∀ r, r < 3 → (x r).1 = -1 :=
  Phases.ensures_mono (C73_open_agrees 3 b!"d" _ ⟨exTreeWorld.fs, fun _ => .fail, 1⟩ (-1) [] (by decide) rfl) fun _ _ h => h.1

end Verif
