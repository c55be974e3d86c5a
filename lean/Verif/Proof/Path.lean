import Verif.Model.Path
import Verif.Proof.Digits
/-!
# Path resolution
-/

set_option autoImplicit false

namespace Verif

theorem splitSlash_ne_nil (s : CStr) : splitSlash s ≠ [] := by
  fun_induction splitSlash s <;> simp_all

theorem splitSlash_append (a b : CStr) : splitSlash (a ++ 47 :: b) = splitSlash a ++ splitSlash b := by
  induction a with
  | nil => simp [splitSlash]
  | cons c a ih =>
    by_cases hc : c = 47
    · subst hc
      simp [splitSlash, ih]
    · rw [List.cons_append]
      have h1 : ∀ s, splitSlash (c :: s) = match splitSlash s with
          | x :: xs => (c :: x) :: xs
          | [] => [[c]] := by
        intro s
        conv => lhs; unfold splitSlash
        split
        · rename_i h; simp at h
        · rename_i h; simp only [List.cons.injEq] at h; exact absurd h.1 hc
        · rename_i h; simp only [List.cons.injEq] at h; rw [h.1, h.2]; rfl
      rw [h1, h1, ih]
      match hs : splitSlash a, splitSlash_ne_nil a with
      | x :: xs, _ => simp

theorem splitSlash_noSlash (s : CStr) (h : (47 : Byte) ∉ s) : splitSlash s = [s] := by
  induction s with
  | nil => rfl
  | cons c s ih =>
    simp only [List.mem_cons, not_or] at h
    unfold splitSlash
    split
    · rename_i h'; simp at h'
    · rename_i h'
      simp only [List.cons.injEq] at h'
      exact absurd h'.1.symm h.1
    · rename_i h'
      simp only [List.cons.injEq] at h'
      rw [← h'.2, ih h.2]
      simp [h'.1]

/-- A name that is one path component. -/
structure IsComp (name : CStr) : Prop where
  ne : name ≠ []
  dot : name ≠ [46]
  slash : (47 : Byte) ∉ name

theorem resolve_comp (name : CStr) (h : IsComp name) : resolve name = [name] := by
  unfold resolve
  simp only
  rw [splitSlash_noSlash name h.slash]
  have hf : ([name] : List CStr).filter (fun c => !(c.isEmpty || c == [46])) = [name] := by
    simp [h.ne, h.dot]
  rw [hf]
  split
  · rename_i x h'
    exfalso
    apply h.slash
    simp
  · rfl

/-- An absolute path. -/
def isAbs (p : CStr) : Bool := p.head? == some 47

theorem resolve_eq (p : CStr) : resolve p = (if isAbs p = true then
      [] :: (splitSlash p).filter (fun c => !(c.isEmpty || c == [46]))
    else (splitSlash p).filter (fun c => !(c.isEmpty || c == [46]))) := by
  unfold resolve
  simp only
  split
  · simp [isAbs]
  · rename_i h
    rw [if_neg]
    unfold isAbs
    cases p with
    | nil => simp
    | cons c p =>
      simp only [List.head?_cons, beq_iff_eq, Option.some.injEq]
      intro hc
      subst hc
      exact h p rfl

/-- Joining a one-component name appends one component. -/
theorem resolve_pathJoin (base name : CStr) (h : IsComp name) :
    resolve (pathJoin base name) = resolve base ++ [name] := by
  unfold pathJoin
  split
  · rename_i h0
    have : base = [] := List.eq_nil_of_length_eq_zero h0
    subst this
    rw [resolve_comp name h]
    simp [resolve, splitSlash]
  · rename_i h0
    have hf : ∀ l : List CStr, (l ++ [name]).filter (fun c => !(c.isEmpty || c == [46])) =
        l.filter (fun c => !(c.isEmpty || c == [46])) ++ [name] := by
      intro l
      rw [List.filter_append]
      simp [h.ne, h.dot]
    have hne : base ≠ [] := fun hc => h0 (by rw [hc]; rfl)
    have hhead : ∀ t : CStr, isAbs (base ++ t) = isAbs base := by
      intro t
      cases base with
      | nil => exact absurd rfl hne
      | cons c b => rfl
    split
    · rename_i hl
      obtain ⟨b', hb'⟩ : ∃ b', base = b' ++ [47] := by
        refine ⟨base.dropLast, ?_⟩
        have h1 := List.dropLast_concat_getLast hne
        have h2 : base.getLast hne = 47 := by
          have h3 := List.getLast?_eq_some_getLast hne
          rw [hl] at h3
          simpa using h3.symm
        rw [h2] at h1
        exact h1.symm
      rw [resolve_eq (base ++ name), resolve_eq base, hhead]
      have e : splitSlash (base ++ name) = splitSlash b' ++ [name] := by
        rw [hb', List.append_assoc, List.singleton_append, splitSlash_append,
          splitSlash_noSlash name h.slash]
      have e2 : splitSlash base = splitSlash b' ++ [[]] := by
        rw [hb', splitSlash_append]; rfl
      rw [e, e2, hf, List.filter_append]
      simp only [List.filter_cons, List.filter_nil]
      split <;> simp
    · rw [resolve_eq (base ++ 47 :: name), resolve_eq base, hhead]
      rw [splitSlash_append, splitSlash_noSlash name h.slash, hf]
      split <;> simp

theorem FileId.isComp (id : FileId) : IsComp id.name := by
  cases id with
  | header => exact ⟨by decide, by decide, by decide⟩
  | attr => exact ⟨by decide, by decide, by decide⟩
  | attrV2 => exact ⟨by decide, by decide, by decide⟩
  | data i =>
    refine ⟨hex6Str_ne_nil i, ?_, ?_⟩
    · intro h
      have h46 : (46 : Byte) ∈ hex6Str i := by
        show (46 : Byte) ∈ hex6Str i
        have : hex6Str i = [46] := h
        rw [this]; simp
      have := (hex6Str_digits i 46 h46).range (by omega)
      simp at this
    · intro h
      have := (hex6Str_digits i 47 h).range (by omega)
      simp at this

theorem fileKey_eq (base : CStr) (id : FileId) : fileKey base id = resolve base ++ [id.name] :=
  resolve_pathJoin base id.name id.isComp

/-- Within a block all physical files have different names. -/
theorem FileId.name_inj {a b : FileId} (h : a.name = b.name) : a = b := by
  have hex : ∀ i c, c ∈ hex6Str i → ¬ (c : Byte).toNat > 70 := by
    intro i c hc
    have := (hex6Str_digits i c hc).range (by omega)
    omega
  cases a <;> cases b <;> simp only [FileId.name] at h <;>
    first
    | rfl
    | (exfalso; revert h; decide)
    | (rename_i i
       exfalso
       have h114 : (114 : Byte) ∈ hex6Str i := by
         first
         | (rw [h]; decide)
         | (rw [← h]; decide)
       exact hex i 114 h114 (by decide))
    | (rw [hex6Str_inj h])

theorem fileKey_inj {base : CStr} {a b : FileId} (h : fileKey base a = fileKey base b) : a = b := by
  rw [fileKey_eq, fileKey_eq] at h
  have := List.append_cancel_left h
  simp only [List.cons.injEq, and_true] at this
  exact FileId.name_inj this

end Verif
