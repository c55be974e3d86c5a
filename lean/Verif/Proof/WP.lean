import Verif.C.FS
/-!
# Weakest preconditions

`wpc m w Q C`: running `m` in world `w` neither exhibits undefined behaviour nor hangs; if it returns,
`Q` holds of the value and the new world; if the process is killed, `C` holds of the world then.
-/

set_option autoImplicit false

namespace Verif

def wpc {α : Type} (m : M α) (w : World) (Q : α → World → Prop) (C : World → Prop) : Prop :=
  match m w with
  | .ok a w' => Q a w'
  | .crash w' => C w'
  | .ub => False
  | .hang => False

theorem wpc_bind {α β : Type} (m : M α) (f : α → M β) (w : World) (Q : β → World → Prop)
    (C : World → Prop) :
    wpc (m >>= f) w Q C ↔ wpc m w (fun a w' => wpc (f a) w' Q C) C := by
  show wpc (M.bind m f) w Q C ↔ _
  unfold wpc M.bind
  cases m w <;> simp

theorem wpc_pure {α : Type} (a : α) (w : World) (Q : α → World → Prop) (C : World → Prop) :
    wpc (pure a) w Q C ↔ Q a w := Iff.rfl

theorem wpc_lift_some {α : Type} (a : α) (w : World) (Q : α → World → Prop) (C : World → Prop) :
    wpc (M.lift (some a)) w Q C ↔ Q a w := Iff.rfl

theorem M.lift_some_bind {α β : Type} (a : α) (f : α → M β) : (M.lift (some a) >>= f) = f a := rfl

theorem wpc_mono {α : Type} {m : M α} {w : World} {Q Q' : α → World → Prop} {C C' : World → Prop}
    (h : wpc m w Q C) (hq : ∀ a w', Q a w' → Q' a w') (hc : ∀ w', C w' → C' w') :
    wpc m w Q' C' := by
  unfold wpc at *
  split <;> rename_i heq <;> rw [heq] at h
  · exact hq _ _ h
  · exact hc _ h
  · exact h
  · exact h

theorem wpc_and {α : Type} {m : M α} {w : World} {Q Q' : α → World → Prop} {C C' : World → Prop}
    (h : wpc m w Q C) (h' : wpc m w Q' C') :
    wpc m w (fun a w' => Q a w' ∧ Q' a w') (fun w' => C w' ∧ C' w') := by
  unfold wpc at *
  split <;> rename_i heq <;> rw [heq] at h h'
  · exact ⟨h, h'⟩
  · exact ⟨h, h'⟩
  · exact h
  · exact h

/-- From a weakest precondition to the outcome. -/
theorem wpc_ok {α : Type} {m : M α} {w : World} {Q : α → World → Prop} {C : World → Prop}
    (h : wpc m w Q C) {a : α} {w' : World} (he : m w = .ok a w') : Q a w' := by
  unfold wpc at h; rw [he] at h; exact h

theorem wpc_crash {α : Type} {m : M α} {w : World} {Q : α → World → Prop} {C : World → Prop}
    (h : wpc m w Q C) {w' : World} (he : m w = .crash w') : C w' := by
  unfold wpc at h; rw [he] at h; exact h

theorem wpc_not_ub {α : Type} {m : M α} {w : World} {Q : α → World → Prop} {C : World → Prop}
    (h : wpc m w Q C) : m w ≠ .ub := by
  intro he; unfold wpc at h; rw [he] at h; exact h

theorem wpc_not_hang {α : Type} {m : M α} {w : World} {Q : α → World → Prop} {C : World → Prop}
    (h : wpc m w Q C) : m w ≠ .hang := by
  intro he; unfold wpc at h; rw [he] at h; exact h

/-- Without faults nothing crashes. -/
theorem wpc_returns {α : Type} {m : M α} {w : World} {Q : α → World → Prop} {C : World → Prop}
    (h : wpc m w Q C) (hc : ∀ w', ¬ C w') : ∃ a w', m w = .ok a w' ∧ Q a w' := by
  unfold wpc at h
  split at h
  · rename_i a w' heq; exact ⟨a, w', heq, h⟩
  · exact absurd h (hc _)
  · exact h.elim
  · exact h.elim

/-! ## File operations -/

theorem wpc_tick (w : World) (Q : Fault → World → Prop) (C : World → Prop) :
    wpc tick w Q C ↔ Q (w.faults w.clock) { w with clock := w.clock + 1 } := Iff.rfl

theorem wpc_getFS (w : World) (Q : FS → World → Prop) (C : World → Prop) :
    wpc getFS w Q C ↔ Q w.fs w := Iff.rfl

theorem wpc_setFS (fs : FS) (w : World) (Q : Unit → World → Prop) (C : World → Prop) :
    wpc (setFS fs) w Q C ↔ Q () { w with fs := fs } := Iff.rfl

theorem wpc_die {α : Type} (w : World) (Q : α → World → Prop) (C : World → Prop) :
    wpc die w Q C ↔ C w := Iff.rfl

/-- Two worlds with the same fault oracle. -/
def SameFaults (w w' : World) : Prop := w'.faults = w.faults

/-- Opening for update: success only if the file exists; without faults, if it exists. -/
theorem wpc_fopen_rplus (path : CStr) (w : World) (Q : Bool → World → Prop) (C : World → Prop)
    (hok : ∀ b w', w'.fs = w.fs → w'.faults = w.faults →
      (b = true → ∃ d, w.fs.node (resolve path) = some (.file d)) →
      (w.faults = noFaults → (∃ d, w.fs.node (resolve path) = some (.file d)) → b = true) → Q b w')
    (hcr : ∀ w', w'.fs = w.fs → w.faults ≠ noFaults → C w') : wpc (fopen path .rplus) w Q C := by
  unfold fopen
  rw [wpc_bind, wpc_tick]
  cases hf : w.faults w.clock with
  | crash n =>
    apply hcr
    · rfl
    · intro h; rw [h] at hf; simp [noFaults] at hf
  | fail =>
    apply hok
    · rfl
    · rfl
    · simp
    · intro h; rw [h] at hf; simp [noFaults] at hf
  | none | short | silent =>
    simp only
    rw [wpc_bind, wpc_getFS]
    simp only
    split
    · rename_i d hd
      exact hok true _ rfl rfl (fun _ => ⟨d, hd⟩) (fun _ _ => rfl)
    · rename_i hd
      exact hok false _ rfl rfl (by simp) (fun _ ⟨d, h⟩ => absurd h (hd d))

/-- Opening for reading: success only if the path exists. -/
theorem wpc_fopen_r (path : CStr) (w : World) (Q : Bool → World → Prop) (C : World → Prop)
    (hok : ∀ b w', w'.fs = w.fs → w'.faults = w.faults →
      (b = true → (w.fs.node (resolve path)).isSome = true) →
      (w.faults = noFaults → b = (w.fs.node (resolve path)).isSome) → Q b w')
    (hcr : ∀ w', w'.fs = w.fs → w.faults ≠ noFaults → C w') : wpc (fopen path .r) w Q C := by
  unfold fopen
  rw [wpc_bind, wpc_tick]
  cases hf : w.faults w.clock with
  | crash n =>
    apply hcr
    · rfl
    · intro h; rw [h] at hf; simp [noFaults] at hf
  | fail =>
    apply hok
    · rfl
    · rfl
    · simp
    · intro h; rw [h] at hf; simp [noFaults] at hf
  | none | short | silent =>
    simp only
    rw [wpc_bind, wpc_getFS]
    exact hok _ _ rfl rfl (fun h => h) (fun _ => rfl)

theorem writeAt_nil (d : List Byte) (off : Nat) : writeAt d off [] = d := rfl

theorem writeFile_nil (fs : FS) (k : Key) (off : Nat) : fs.writeFile k off [] = fs := by
  unfold FS.writeFile
  split
  · rename_i d hd
    cases fs with
    | mk node dom =>
      simp only [FS.mk.injEq, and_true]
      funext k'
      split
      · rename_i h; subst h; rw [writeAt_nil]; exact hd.symm
      · rfl
  · rfl

/-- An unbuffered write: a prefix reaches the file; its length is returned. -/
theorem wpc_fwriteAt (path : CStr) (off : Nat) (bs : List Byte) (w : World)
    (Q : Nat → World → Prop) (C : World → Prop)
    (hok : ∀ n w', w'.fs = w.fs.writeFile (resolve path) off (bs.take n) → w'.faults = w.faults →
      (w.faults = noFaults → bs.length ≤ n) → Q (min n bs.length) w')
    (hcr : ∀ n w', w'.fs = w.fs.writeFile (resolve path) off (bs.take n) → w.faults ≠ noFaults → C w') :
    wpc (fwriteAt path off bs) w Q C := by
  unfold fwriteAt
  rw [wpc_bind, wpc_tick, wpc_bind, wpc_getFS]
  cases hf : w.faults w.clock with
  | none | silent =>
    simp only
    rw [wpc_bind, wpc_setFS, wpc_pure]
    have := hok bs.length { fs := w.fs.writeFile (resolve path) off bs, faults := w.faults, clock := w.clock + 1 }
      (by simp) rfl (fun _ => Nat.le_refl _)
    simpa using this
  | fail =>
    simp only
    rw [wpc_pure]
    have := hok 0 { w with clock := w.clock + 1 } (by simp [writeFile_nil]) rfl
      (by intro h; rw [h] at hf; simp [noFaults] at hf)
    simpa using this
  | short n =>
    simp only
    rw [wpc_bind, wpc_setFS, wpc_pure]
    exact hok n _ rfl rfl (by intro h; rw [h] at hf; simp [noFaults] at hf)
  | crash n =>
    simp only
    rw [wpc_bind, wpc_setFS, wpc_die]
    exact hcr n _ rfl (by intro h; rw [h] at hf; simp [noFaults] at hf)

/-- A read: a prefix of the requested bytes is returned. -/
theorem wpc_freadAt (path : CStr) (off len : Nat) (w : World)
    (Q : List Byte → World → Prop) (C : World → Prop)
    (hok : ∀ n w', w'.fs = w.fs → w'.faults = w.faults →
      (w.faults = noFaults → len ≤ n) →
      Q ((((w.fs.bytes (resolve path)).drop off).take len).take n) w')
    (hcr : ∀ w', w'.fs = w.fs → w.faults ≠ noFaults → C w') :
    wpc (freadAt path off len) w Q C := by
  unfold freadAt
  rw [wpc_bind, wpc_tick, wpc_bind, wpc_getFS]
  cases hf : w.faults w.clock with
  | none | silent =>
    simp only
    rw [wpc_pure]
    have := hok len { w with clock := w.clock + 1 } rfl rfl (fun _ => Nat.le_refl _)
    rw [List.take_take, Nat.min_self] at this
    exact this
  | fail =>
    simp only
    rw [wpc_pure]
    have := hok 0 { w with clock := w.clock + 1 } rfl rfl
      (by intro h; rw [h] at hf; simp [noFaults] at hf)
    rw [List.take_zero] at this
    exact this
  | short n =>
    simp only
    rw [wpc_pure]
    exact hok n _ rfl rfl (by intro h; rw [h] at hf; simp [noFaults] at hf)
  | crash n =>
    simp only
    exact hcr _ rfl (by intro h; rw [h] at hf; simp [noFaults] at hf)

end Verif
