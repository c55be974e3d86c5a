import Verif.C.Basic
/-!
# Memory

User memory is a total map from addresses to bytes. What a function touches is expressed by
frame theorems about this map.
-/

set_option autoImplicit false

namespace Verif

/-- Memory: one byte per address. -/
abbrev Mem := Int → Byte

/-- The `n` bytes at address `a`. -/
def peek (m : Mem) (a : Int) : Nat → List Byte
  | 0 => []
  | n + 1 => m a :: peek m (a + 1) n

/-- Store bytes at address `a`. -/
def poke (m : Mem) (a : Int) : List Byte → Mem
  | [] => m
  | b :: bs => fun x => if x = a then b else poke m (a + 1) bs x

theorem peek_length (m : Mem) (a : Int) (n : Nat) : (peek m a n).length = n := by
  induction n generalizing a with
  | zero => rfl
  | succ n ih => simp [peek, ih]

theorem poke_before (m : Mem) (a : Int) (bs : List Byte) (x : Int) (h : x < a) :
    poke m a bs x = m x := by
  induction bs generalizing a with
  | nil => rfl
  | cons b bs ih =>
    unfold poke
    have : x ≠ a := by omega
    simp only [this, if_false]
    exact ih (a + 1) (by omega)

theorem poke_outside (m : Mem) (a : Int) (bs : List Byte) (x : Int)
    (h : x < a ∨ a + bs.length ≤ x) : poke m a bs x = m x := by
  induction bs generalizing a with
  | nil => rfl
  | cons b bs ih =>
    unfold poke
    simp only [List.length_cons] at h
    have : x ≠ a := by omega
    simp only [this, if_false]
    exact ih (a + 1) (by omega)

theorem poke_inside (m : Mem) (a : Int) (bs : List Byte) (i : Nat) (h : i < bs.length) :
    poke m a bs (a + i) = bs[i] := by
  induction bs generalizing a i with
  | nil => simp at h
  | cons b bs ih =>
    unfold poke
    cases i with
    | zero => simp
    | succ i =>
      have : a + ((i + 1 : Nat) : Int) ≠ a := by omega
      simp only [this, if_false, List.getElem_cons_succ]
      have e : a + ((i + 1 : Nat) : Int) = a + 1 + (i : Int) := by omega
      rw [e]
      exact ih (a + 1) i (by simpa using h)

theorem peek_getElem (m : Mem) (a : Int) (n i : Nat) (h : i < (peek m a n).length) :
    (peek m a n)[i] = m (a + i) := by
  induction n generalizing a i with
  | zero => simp [peek] at h
  | succ n ih =>
    cases i with
    | zero => simp [peek]
    | succ i =>
      simp only [peek, List.getElem_cons_succ]
      rw [ih (a + 1) i (by simpa [peek] using h)]
      congr 1
      omega

theorem peek_ext {m m' : Mem} {a a' : Int} {n : Nat}
    (h : ∀ i : Nat, i < n → m (a + i) = m' (a' + i)) : peek m a n = peek m' a' n := by
  apply List.ext_getElem (by simp [peek_length])
  intro i h1 h2
  rw [peek_getElem, peek_getElem]
  exact h i (by simpa [peek_length] using h1)

theorem peek_poke_same (m : Mem) (a : Int) (bs : List Byte) : peek (poke m a bs) a bs.length = bs := by
  apply List.ext_getElem (by simp [peek_length])
  intro i h1 h2
  rw [peek_getElem, poke_inside]

theorem peek_poke_disjoint (m : Mem) (a : Int) (bs : List Byte) (x : Int) (n : Nat)
    (h : x + n ≤ a ∨ a + bs.length ≤ x) : peek (poke m a bs) x n = peek m x n := by
  apply peek_ext
  intro i hi
  apply poke_outside
  omega

theorem poke_peek (m : Mem) (a : Int) (n : Nat) : poke m a (peek m a n) = m := by
  funext x
  by_cases h : a ≤ x ∧ x < a + n
  · obtain ⟨h1, h2⟩ := h
    have e : x = a + ((x - a).toNat : Int) := by omega
    have hl : (x - a).toNat < (peek m a n).length := by rw [peek_length]; omega
    rw [e, poke_inside _ _ _ _ hl, peek_getElem]
  · rw [poke_outside]
    rw [peek_length]; omega

theorem peek_add (m : Mem) (a : Int) (n k : Nat) : peek m a (n + k) = peek m a n ++ peek m (a + n) k := by
  induction n generalizing a with
  | zero => simp [peek]
  | succ n ih =>
    have : n + 1 + k = (n + k) + 1 := by omega
    rw [this]
    simp only [peek, List.cons_append]
    rw [ih]
    congr 3
    omega

theorem poke_append (m : Mem) (a : Int) (xs ys : List Byte) :
    poke m a (xs ++ ys) = poke (poke m (a + xs.length) ys) a xs := by
  induction xs generalizing a with
  | nil => simp [poke]
  | cons b bs ih =>
    simp only [List.cons_append, poke]
    funext x
    rw [ih]
    simp only [List.length_cons]
    have : a + 1 + (bs.length : Int) = a + ((bs.length + 1 : Nat) : Int) := by omega
    rw [this]

theorem poke_poke_same (m : Mem) (a : Int) (xs ys : List Byte) (h : xs.length = ys.length) :
    poke (poke m a xs) a ys = poke m a ys := by
  funext x
  by_cases hx : a ≤ x ∧ x < a + ys.length
  · obtain ⟨h1, h2⟩ := hx
    have e : x = a + ((x - a).toNat : Int) := by omega
    have hl : (x - a).toNat < ys.length := by omega
    rw [e, poke_inside _ _ _ _ hl, poke_inside _ _ _ _ hl]
  · rw [poke_outside _ _ ys _ (by omega), poke_outside _ _ xs _ (by omega),
      poke_outside _ _ ys _ (by omega)]

theorem poke_comm (m : Mem) (a b : Int) (xs ys : List Byte)
    (h : a + xs.length ≤ b ∨ b + ys.length ≤ a) :
    poke (poke m a xs) b ys = poke (poke m b ys) a xs := by
  funext x
  by_cases hx : a ≤ x ∧ x < a + xs.length
  · obtain ⟨h1, h2⟩ := hx
    rw [poke_outside _ b ys _ (by omega)]
    have e : x = a + ((x - a).toNat : Int) := by omega
    have hl : (x - a).toNat < xs.length := by omega
    rw [e, poke_inside _ _ _ _ hl, poke_inside _ _ _ _ hl]
  · rw [poke_outside _ a xs _ (by omega)]
    by_cases hy : b ≤ x ∧ x < b + ys.length
    · obtain ⟨h1, h2⟩ := hy
      have e : x = b + ((x - b).toNat : Int) := by omega
      have hl : (x - b).toNat < ys.length := by omega
      rw [e, poke_inside _ _ _ _ hl, poke_inside _ _ _ _ hl]
    · rw [poke_outside _ b ys _ (by omega), poke_outside _ b ys _ (by omega),
        poke_outside _ a xs _ (by omega)]

end Verif
