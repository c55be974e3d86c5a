import Verif.Spec.Record
import Verif.Proof.Header
/-!
# Layout of records
-/

set_option autoImplicit false

namespace Verif

open Spec

theorem fieldSize_int {m : Machine} {f : RField} (h : FieldSet m f) :
    (fieldSize m f : Int) = itemsize m f.dtype * f.nmemb := by
  unfold fieldSize
  rw [Int.natCast_mul, Int.toNat_of_nonneg h.width, Int.toNat_of_nonneg h.memb]

/-- The field as `big_record_type_complete` leaves it. -/
def placed (m : Machine) (off : Nat) (f : RField) : RField := { f with offset := off, elsize := itemsize m f.dtype }

/-- All fields from byte `off` on. -/
def placeAll (m : Machine) : Nat → List RField → List RField
  | _, [] => []
  | off, f :: fs => placed m off f :: placeAll m (off + fieldSize m f) fs

theorem fitsInt_nat {n : Nat} : fitsInt (n : Int) = decide (n < 2147483648) := by
  unfold fitsInt
  by_cases h : n < 2147483648
  · simp [h]; omega
  · simp [h]; omega

theorem completeLoop_ok (m : Machine) (fs done : List RField) (off : Nat)
    (hs : ∀ f ∈ fs, FieldSet m f) (hoff : off < 2147483648) :
    completeLoop m fs done off =
      if off + recordSize m fs < 2147483648 then
        .ok ⟨done.reverse ++ placeAll m off fs, off + recordSize m fs⟩
      else .ub := by
  induction fs generalizing done off with
  | nil => simp [completeLoop, placeAll, recordSize, u64_of_nat (show off < 18446744073709551616 by omega), hoff]
  | cons f fs ih =>
    have hf := hs f (by simp)
    obtain ⟨nm, hn⟩ := Option.isSome_iff_exists.mp hf.name
    have hsz := fieldSize_int hf
    have hsh := hf.short
    have hrs : recordSize m (f :: fs) = fieldSize m f + recordSize m fs := by simp [recordSize]
    rw [completeLoop, hn]
    simp only
    rw [if_neg (by omega), ← hsz, show (off : Int) + (fieldSize m f : Int) = ((off + fieldSize m f : Nat) : Int) by omega,
      fitsInt_nat, fitsInt_nat]
    by_cases hb : off + fieldSize m f < 2147483648
    · rw [if_neg (by simp; omega), ih _ _ (fun g hg => hs g (by simp [hg])) hb, hrs]
      simp only [List.reverse_cons, List.append_assoc, List.singleton_append, placeAll, Nat.add_assoc]
      rw [← hn]
      rfl
    · rw [if_pos (by simp; omega), if_neg (by omega)]

theorem placeAll_length (m : Machine) (off : Nat) (fs : List RField) : (placeAll m off fs).length = fs.length := by
  induction fs generalizing off with
  | nil => rfl
  | cons f fs ih => simp [placeAll, ih]

theorem placeAll_chosen (m : Machine) (off : Nat) (fs : List RField) :
    (placeAll m off fs).map chosen = fs.map chosen := by
  induction fs generalizing off with
  | nil => rfl
  | cons f fs ih => simp [placeAll, ih, chosen, placed]

theorem placeAll_sizes (m : Machine) (off : Nat) (fs : List RField) :
    (placeAll m off fs).map (fieldSize m) = fs.map (fieldSize m) := by
  induction fs generalizing off with
  | nil => rfl
  | cons f fs ih => simp [placeAll, ih, fieldSize, placed]

theorem placeAll_mem {m : Machine} {off : Nat} {fs : List RField} {g : RField} (h : g ∈ placeAll m off fs) :
    ∃ f ∈ fs, ∃ o, g = placed m o f := by
  induction fs generalizing off with
  | nil => simp [placeAll] at h
  | cons f fs ih =>
    simp only [placeAll, List.mem_cons] at h
    rcases h with h | h
    · exact ⟨f, by simp, off, h⟩
    · obtain ⟨f', h1, h2⟩ := ih h
      exact ⟨f', by simp [h1], h2⟩

theorem placeAll_offset (m : Machine) (off : Nat) (fs : List RField) (c : Nat)
    (h : c < (placeAll m off fs).length) :
    ((placeAll m off fs)[c]).offset = ((off + fieldStart m fs c : Nat) : Int) := by
  induction fs generalizing off c with
  | nil => simp [placeAll] at h
  | cons f fs ih =>
    cases c with
    | zero => simp [placeAll, placed, fieldStart]
    | succ c =>
      simp only [placeAll, List.getElem_cons_succ]
      rw [ih]
      simp [fieldStart]
      omega

theorem fieldStart_congr {m : Machine} {a b : List RField} (h : a.map (fieldSize m) = b.map (fieldSize m)) (c : Nat) :
    fieldStart m a c = fieldStart m b c := by
  unfold fieldStart
  rw [List.map_take, List.map_take, h]

theorem fieldStart_succ (m : Machine) (fs : List RField) (c : Nat) (h : c < fs.length) :
    fieldStart m fs (c + 1) = fieldStart m fs c + fieldSize m (fs[c]) := by
  unfold fieldStart
  have : fs.take (c + 1) = fs.take c ++ [fs[c]] := by
    rw [List.take_add_one, List.getElem?_eq_getElem h]; rfl
  rw [this, List.map_append, List.sum_append]
  simp

theorem fieldStart_all (m : Machine) (fs : List RField) : fieldStart m fs fs.length = recordSize m fs := by
  unfold fieldStart recordSize
  rw [List.take_length]

theorem fieldStart_mono (m : Machine) (fs : List RField) {c d : Nat} (h : c ≤ d) (hd : d ≤ fs.length) :
    fieldStart m fs c ≤ fieldStart m fs d := by
  induction d with
  | zero => rw [Nat.le_zero.mp h]; exact Nat.le_refl _
  | succ d ih =>
    rcases Nat.lt_or_eq_of_le h with h | h
    · have := ih (by omega) (by omega)
      rw [fieldStart_succ m fs d (by omega)]; omega
    · rw [h]; exact Nat.le_refl _

theorem fieldStart_le (m : Machine) (fs : List RField) {c : Nat} (h : c < fs.length) :
    fieldStart m fs c + fieldSize m (fs[c]) ≤ recordSize m fs := by
  rw [← fieldStart_succ m fs c h, ← fieldStart_all]
  exact fieldStart_mono m fs (by omega) (Nat.le_refl _)

/-- Two fields of one record do not overlap. -/
theorem fieldStart_disjoint (m : Machine) (fs : List RField) {c d : Nat} (hc : c < fs.length) (hd : d < fs.length)
    (hne : c ≠ d) : fieldStart m fs c + fieldSize m (fs[c]) ≤ fieldStart m fs d ∨
      fieldStart m fs d + fieldSize m (fs[d]) ≤ fieldStart m fs c := by
  rcases Nat.lt_or_gt_of_ne hne with h | h
  · left
    rw [← fieldStart_succ m fs c hc]
    exact fieldStart_mono m fs h (by omega)
  · right
    rw [← fieldStart_succ m fs d hd]
    exact fieldStart_mono m fs h (by omega)

/-- Every byte of the record is in some field. -/
theorem fieldStart_cover (m : Machine) (fs : List RField) (x : Nat) (h : x < recordSize m fs) :
    ∃ c, ∃ hc : c < fs.length, fieldStart m fs c ≤ x ∧ x < fieldStart m fs c + fieldSize m (fs[c]) := by
  have key : ∀ n, n ≤ fs.length → x < fieldStart m fs n →
      ∃ c, ∃ hc : c < fs.length, fieldStart m fs c ≤ x ∧ x < fieldStart m fs c + fieldSize m (fs[c]) := by
    intro n
    induction n with
    | zero => intro _ h; simp [fieldStart] at h
    | succ n ih =>
      intro hn hx
      by_cases hlt : x < fieldStart m fs n
      · exact ih (by omega) hlt
      · exact ⟨n, by omega, by omega, by rw [← fieldStart_succ m fs n (by omega)]; exact hx⟩
  exact key fs.length (Nat.le_refl _) (by rw [fieldStart_all]; exact h)

end Verif
