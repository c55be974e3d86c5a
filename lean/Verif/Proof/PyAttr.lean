import Verif.Spec.PyAttr
import Verif.Proof.AttrSet
import Verif.Proof.AttrText
import Verif.Proof.Cut
import Verif.Proof.Python
/-!
# Lemmas for attributes in Python
-/

set_option autoImplicit false

namespace Verif

open Spec

theorem decStr_len5 (n : Nat) (h : n < 100000) : (decStr n).length ≤ 5 := by
  have one : ∀ n, n < 10 → (decStr n).length ≤ 1 := by decide
  have up : ∀ (b d : Nat), (∀ n, n < b → (decStr n).length ≤ d) → 0 < d → ∀ n, n < b * 10 → (decStr n).length ≤ d + 1 := by
    intro b d hb hd n hn
    by_cases h10 : 10 ≤ n
    · rw [decStr_step n h10, List.length_append]
      have := hb (n / 10) (by omega)
      simp only [List.length_singleton]
      omega
    · have := one n (by omega)
      omega
  exact up 10000 4 (up 1000 3 (up 100 2 (up 10 1 one (by omega)) (by omega)) (by omega)) (by omega) n h

theorem npStrip_pad {s : List Byte} (k : Nat) (h : s.getLast? ≠ some 0) :
    npStrip (s ++ List.replicate k 0) = s := by
  unfold npStrip
  rw [List.reverse_append, List.reverse_replicate]
  have h1 : ∀ (t : List Byte), t.head? ≠ some 0 → (List.replicate k (0 : Byte) ++ t).dropWhile (· == 0) = t := by
    intro t ht
    induction k with
    | zero =>
      cases t with
      | nil => rfl
      | cons a t =>
        simp only [List.replicate_zero, List.nil_append]
        rw [List.dropWhile_cons_of_neg]
        simpa using ht
    | succ k ih =>
      rw [List.replicate_succ, List.cons_append, List.dropWhile_cons_of_pos (by decide)]
      exact ih
  rw [h1 _ (by rw [List.head?_reverse]; exact h), List.reverse_reverse]

theorem npWidth_ge {l : List (List Byte)} {s : List Byte} (h : s ∈ l) : s.length ≤ npWidth l := by
  induction l with
  | nil => cases h
  | cons a l ih =>
    unfold npWidth
    rcases List.mem_cons.mp h with rfl | h
    · exact Nat.le_max_left _ _
    · exact Nat.le_trans (ih h) (Nat.le_max_right _ _)

theorem npWidth_pos (l : List (List Byte)) : 0 < npWidth l := by
  induction l with
  | nil => decide
  | cons a l ih => unfold npWidth; omega

theorem npWidth_lt {l : List (List Byte)} {k : Nat} (hk : 1 < k) (h : ∀ s ∈ l, s.length < k) : npWidth l < k := by
  induction l with
  | nil => exact hk
  | cons a l ih =>
    unfold npWidth
    have := ih fun s hs => h s (List.mem_cons_of_mem _ hs)
    have := h a List.mem_cons_self
    omega

theorem npPad_length {w : Nat} {s : List Byte} (h : s.length ≤ w) : (npPad w s).length = w := by
  unfold npPad
  rw [List.length_append, List.length_replicate]
  omega

theorem flatMap_pad_length {w : Nat} {l : List (List Byte)} (h : ∀ s ∈ l, s.length ≤ w) :
    (l.flatMap (npPad w)).length = w * l.length := by
  induction l with
  | nil => rfl
  | cons a l ih =>
    rw [List.flatMap_cons, List.length_append, ih (fun s hs => h s (List.mem_cons_of_mem _ hs)),
      npPad_length (h a List.mem_cons_self), List.length_cons, Nat.mul_succ]
    omega

theorem elems_pad {w : Nat} {l : List (List Byte)} (h : ∀ s ∈ l, s.length ≤ w ∧ s ≠ [] ∧ s.getLast? ≠ some 0) :
    (List.range l.length).map (fun i => npStrip (elemBytes w (l.flatMap (npPad w)) i)) = l := by
  induction l with
  | nil => rfl
  | cons a l ih =>
    obtain ⟨h1, h2, h3⟩ := h a List.mem_cons_self
    have hl := npPad_length h1
    rw [List.length_cons, List.range_succ_eq_map, List.map_cons, List.map_map, List.flatMap_cons]
    congr 1
    · unfold elemBytes
      rw [Nat.zero_mul, List.drop_zero, List.take_append_of_le_length (by omega), List.take_of_length_le (by omega)]
      exact npStrip_pad _ h3
    · refine Eq.trans ?_ (ih fun s hs => h s (List.mem_cons_of_mem _ hs))
      apply List.map_congr_left
      intro i _
      simp only [Function.comp]
      unfold elemBytes
      have e : (i + 1) * w = (npPad w a).length + i * w := by rw [hl, Nat.add_mul]; omega
      rw [Nat.succ_eq_add_one, e, List.drop_append]
      congr 3
      rw [List.drop_of_length_le (by omega)]
      simp

/-- What a legal value is handed over as, and what it looks like when it comes back. -/
theorem put_ok {m : Machine} {v : PyValue} (h : PutLegal m v) :
    0 < itemsize m v.buffer.1 ∧ itemsize m v.buffer.1 * v.buffer.2.1 < 2147483648 ∧
    v.buffer.2.2.length = widthOf m v.buffer.1 * v.buffer.2.1 ∧
    foreign m (dtypeNormalize m v.buffer.1) = false ∧
    pyItem m ⟨dtypeNormalize m v.buffer.1, v.buffer.2.1, v.buffer.2.2⟩ = kept m v := by
  cases v with
  | str s =>
    have e1 : dtypeNormalize m b!"a1" = m.endian :: b!"a1" := by
      rw [show (b!"a1" : CStr) = [97, 49] from rfl]; rfl
    have e2 : itemsize m b!"a1" = 1 := by unfold itemsize; rw [e1]; exact (by decide : atoi [49] = 1)
    have hf : foreign m (m.endian :: b!"a1") = false := by unfold foreign charAt; simp
    simp only [PyValue.buffer, PutLegal] at h ⊢
    refine ⟨by rw [e2]; decide, ?_, ?_, by rw [e1]; exact hf, ?_⟩
    · rw [e2]
      split
      · decide
      · omega
    · unfold widthOf
      rw [e2]
      simp
    · rw [e1]
      unfold pyItem
      simp only
      rw [if_neg (by unfold charAt; simp), if_pos (by unfold charAt; rfl)]
      rfl
  | texts l =>
    obtain ⟨h0, h1, h2⟩ := h
    have hw := npWidth_lt (by omega : 1 < 100000) fun s hs => (h1 s hs).2.2
    have h5 := decStr_len5 _ hw
    have e1 : dtypeNormalize m (b!"|S" ++ decStr (npWidth l)) = m.endian :: 83 :: decStr (npWidth l) := by
      have e0 : (b!"|S" : CStr) ++ decStr (npWidth l) = 124 :: 83 :: decStr (npWidth l) := rfl
      rw [e0]
      unfold dtypeNormalize
      simp only [List.take_succ_cons]
      rw [List.take_of_length_le h5]
    have e2 : itemsize m (b!"|S" ++ decStr (npWidth l)) = npWidth l := by
      unfold itemsize
      rw [e1]
      have := atoi_intStr (npWidth l) (by omega)
      unfold intStr at this
      rw [if_neg (by omega)] at this
      exact this
    simp only [PyValue.buffer]
    refine ⟨by rw [e2]; have := npWidth_pos l; omega, ?_, ?_, ?_, ?_⟩
    · rw [e2, ← Int.natCast_mul]; omega
    · unfold widthOf
      rw [e2]
      exact flatMap_pad_length fun s hs => npWidth_ge hs
    · rw [e1]; unfold foreign charAt; simp
    · unfold pyItem
      simp only
      rw [if_pos (by rw [e1]; rfl)]
      unfold widthOf
      rw [itemsize_normalize, e2]
      simp only [kept, Int.toNat_natCast]
      rw [elems_pad fun s hs => ⟨npWidth_ge hs, (h1 s hs).1, (h1 s hs).2.1⟩]
  | array dt n data =>
    obtain ⟨h0, h1, h2, h3, h4, h5, h6⟩ := h
    have e : ∃ t, dt = charAt dt 0 :: t := by
      cases dt with
      | nil => simp [charAt] at h0; rcases endian_cases m with e | e <;> rw [e] at h0 <;> cases h0
      | cons a t => exact ⟨t, rfl⟩
    have e1 : dtypeNormalize m dt = m.endian :: dt.drop 1 := by
      obtain ⟨t, e⟩ := e
      have ht : t.length ≤ 6 := by rw [e] at h1; simpa using h1
      rw [e]
      rcases h0 with h0 | h0
      · rw [h0, normalize_fix m _ t (endian_cases m) ht]; rfl
      · rw [h0]
        unfold dtypeNormalize
        simp only [List.take_succ_cons, List.drop_succ_cons, List.drop_zero]
        rw [List.take_of_length_le ht]
    have e2 : charAt (dtypeNormalize m dt) 1 = charAt dt 1 := by
      rw [e1]
      obtain ⟨t, e⟩ := e
      rw [e]
      rfl
    simp only [PyValue.buffer]
    refine ⟨h4, by omega, ?_, by rw [e1]; unfold foreign charAt; simp, ?_⟩
    · unfold widthOf
      have : ((itemsize m dt).toNat : Int) = itemsize m dt := Int.toNat_of_nonneg (by omega)
      have h : (data.length : Int) = (((itemsize m dt).toNat * n : Nat) : Int) := by
        rw [Int.natCast_mul, this]; exact h5
      exact_mod_cast h
    · unfold pyItem
      simp only
      rw [e2, if_neg h2, if_neg h3]
      rfl

/-! ## Sorting -/

theorem insertName_sorted {a : CStr} {l : List CStr} (h : (a :: l).Pairwise fun x y => strcmp x y = .lt) :
    insertName a l = a :: l := by
  cases l with
  | nil => rfl
  | cons b l =>
    unfold insertName
    rw [List.pairwise_cons] at h
    rw [if_neg (by rw [h.1 b List.mem_cons_self]; simp)]

theorem sortNames_sorted {l : List CStr} (h : l.Pairwise fun x y => strcmp x y = .lt) : sortNames l = l := by
  induction l with
  | nil => rfl
  | cons a l ih =>
    unfold sortNames
    rw [ih (List.pairwise_cons.mp h).2, insertName_sorted h]

end Verif
