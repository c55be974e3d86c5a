import Verif.Proof.Dtype
/-!
# C20: making an array
-/

set_option autoImplicit false

namespace Verif

open Spec

theorem foldl_u64_zero (dims : List Nat) : dims.foldl (fun s d => u64 ((s * d : Nat) : Int)) 0 = 0 := by
  induction dims with
  | nil => rfl
  | cons d ds ih => rw [List.foldl_cons, Nat.zero_mul]; exact ih

theorem foldl_u64 (dims : List Nat) : ∀ s : Nat, s * prodN dims < 18446744073709551616 → s < 18446744073709551616 →
    (∀ d ∈ dims, 0 < d) → dims.foldl (fun s d => u64 ((s * d : Nat) : Int)) s = s * prodN dims := by
  induction dims with
  | nil => intro s _ _ _; simp [prodN]
  | cons d ds ih =>
    intro s h hs hp
    have hpos : 0 < prodN ds := by
      have : ∀ l : List Nat, (∀ d ∈ l, 0 < d) → 0 < prodN l := by
        intro l
        induction l with
        | nil => intro _; simp [prodN]
        | cons a l ih => intro h; exact Nat.mul_pos (h a (by simp)) (ih fun d hd => h d (by simp [hd]))
      exact this ds fun d hd => hp d (by simp [hd])
    rw [prodN, ← Nat.mul_assoc] at h
    have h1 : s * d ≤ s * d * prodN ds := Nat.le_mul_of_pos_right _ hpos
    rw [List.foldl_cons, u64_of_nat (by omega), ih _ h (by omega) (fun d hd => hp d (by simp [hd])), prodN, Nat.mul_assoc]

theorem prodN_zero (dims : List Nat) (h : 0 ∈ dims) : prodN dims = 0 := by
  induction dims with
  | nil => cases h
  | cons d ds ih =>
    rcases List.mem_cons.mp h with h | h
    · rw [prodN, ← h, Nat.zero_mul]
    · rw [prodN, ih h, Nat.mul_zero]

theorem foldl_u64_has_zero (dims : List Nat) (h : 0 ∈ dims) : ∀ s, dims.foldl (fun s d => u64 ((s * d : Nat) : Int)) s = 0 := by
  induction dims with
  | nil => cases h
  | cons d ds ih =>
    intro s
    rw [List.foldl_cons]
    rcases List.mem_cons.mp h with h | h
    · rw [← h, Nat.mul_zero]
      exact foldl_u64_zero ds
    · exact ih h _

/-- The number of elements that is recorded is the product of the dimensions. -/
theorem dimsProd_eq (dims : List Nat) (h : prodN dims < 18446744073709551616) : dimsProd dims = prodN dims := by
  unfold dimsProd
  by_cases h0 : 0 ∈ dims
  · rw [prodN_zero dims h0, foldl_u64_has_zero dims h0]
  · rw [foldl_u64 dims 1 (by rw [Nat.one_mul]; exact h) (by decide) (fun d hd => Nat.pos_of_ne_zero fun e => h0 (e ▸ hd)), Nat.one_mul]

/-- **C20**, making an array: `big_array_init` is defined exactly for at most 32 dimensions, with at least one if no strides are given. The array
has the dimensions, the memory and the strides that were given and records the number of its elements. -/
theorem C20_init (m : Machine) (buf : Int) (dt : CStr) (dims : List Nat) (strides : Option (List Int)) :
    ((arrayInit m buf dt dims strides).isSome = true ↔ dims.length ≤ 32 ∧ (dims ≠ [] ∨ strides ≠ none)) ∧
    ∀ a, arrayInit m buf dt dims strides = some a → a.data = buf ∧ a.dims = dims ∧ a.dtype = dtypeNormalize m dt ∧
      (∀ ss, strides = some ss → a.strides = ss) ∧ (prodN dims < 18446744073709551616 → a.size = prodN dims) := by
  unfold arrayInit
  by_cases h : 32 < dims.length
  · rw [if_pos h]
    exact ⟨⟨fun h => absurd h (by simp), fun h' => absurd h'.1 (by omega)⟩, fun a ha => by simp at ha⟩
  · rw [if_neg h]
    cases strides with
    | some ss =>
      refine ⟨⟨fun _ => ⟨by omega, Or.inr (by simp)⟩, fun _ => rfl⟩, fun a ha => ?_⟩
      obtain rfl := Option.some.inj ha
      exact ⟨rfl, rfl, rfl, fun _ h => Option.some.inj h, dimsProd_eq dims⟩
    | none =>
      cases dims with
      | nil => exact ⟨⟨fun h => by simp at h, fun ⟨_, h⟩ => by simp at h⟩, fun a ha => by simp at ha⟩
      | cons d ds =>
        refine ⟨⟨fun _ => ⟨by omega, Or.inl (by simp)⟩, fun _ => rfl⟩, fun a ha => ?_⟩
        obtain rfl := Option.some.inj ha
        exact ⟨rfl, rfl, rfl, fun _ h => (by cases h), dimsProd_eq (d :: ds)⟩

/-- **C20**, an array without strides: its elements are one after the other, in row-major order. -/
theorem C20_default (m : Machine) (buf : Int) (dt : CStr) (dims : List Nat) (a : Arr) (h : arrayInit m buf dt dims none = some a)
    (hs : prodN dims < 18446744073709551616) (k : Nat) (hk : k < prodN dims) : elemAddr a k = buf + (k : Int) * itemsize m dt := by
  obtain ⟨h1, h2, _, _, h5⟩ := (C20_init m buf dt dims none).2 a h
  have hst : a.strides = defaultStrides (itemsize m dt) a.dims := by
    unfold arrayInit at h
    split at h
    · cases h
    · split at h
      · exact absurd ‹none = some _› (by simp)
      · split at h
        · cases h
        · obtain rfl := Option.some.inj h
          rfl
  rw [elemAddr_default a _ hst (by rw [h5 hs, h2]) k (by rw [h5 hs]; exact hk), h1]

/-- An array of 2 x 3 numbers of four bytes: element 4 is 16 bytes behind the first. An array of 32 dimensions can be made, one of 33
cannot. -/
example : ((arrayInit ⟨true, true⟩ 100 b!"f4" [2, 3] none).map fun a => (a.size, a.strides, elemAddr a 4)) = some (6, [12, 4], 116) ∧
    (arrayInit ⟨true, true⟩ 100 b!"f4" (List.replicate 32 1) none).isSome = true ∧
    arrayInit ⟨true, true⟩ 100 b!"f4" (List.replicate 33 1) none = none := by decide

end Verif
