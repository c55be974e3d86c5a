import Verif.Props.Mpiu
/-!
# C66: how many segments there are and how many rows one process collects
-/

set_option autoImplicit false

namespace Verif

open Spec

theorem segTotal_append (P Q : List (Nat × Int)) (c : Int) : segTotal (P ++ Q) c = segTotal P c + segTotal Q c := by
  induction P with
  | nil => simp [segTotal]
  | cons x P ih =>
    obtain ⟨s, d⟩ := x
    simp only [List.cons_append, segTotal, ih]
    omega

/-- A segment exceeds the target by at most its last member. -/
theorem segTotal_le {target M : Nat} (n : Nat) : ∀ (P : List (Nat × Int)), P.length = n →
    (∀ pre x post, P = pre ++ x :: post → 0 < x.1 → segTotal pre x.2 ≤ target) → (∀ x ∈ P, x.1 ≤ M) → ∀ c,
    segTotal P c ≤ target + M := by
  induction n with
  | zero =>
    intro P hl _ _ c
    have := List.eq_nil_of_length_eq_zero hl
    subst this
    simp [segTotal]
  | succ n ih =>
    intro P hl hb hM c
    obtain ⟨pre, x, rfl⟩ : ∃ pre x, P = pre ++ [x] := by
      have hne : P ≠ [] := by rintro rfl; simp at hl
      exact ⟨P.dropLast, P.getLast hne, (List.dropLast_concat_getLast hne).symm⟩
    rw [segTotal_append]
    obtain ⟨s, d⟩ := x
    simp only [segTotal, Nat.add_zero]
    have hs : s ≤ M := hM (s, d) (by simp)
    have hpre := ih pre (by simpa using hl) (fun p y q he => hb p y (q ++ [(s, d)]) (by rw [he]; simp))
      (fun y hy => hM y (by simp [hy])) c
    by_cases hd : d = c
    · subst hd
      by_cases h0 : 0 < s
      · have := hb pre (s, d) [] rfl h0
        simp only [if_true]
        simp only at this
        omega
      · simp only [if_true]; omega
    · rw [if_neg hd]; omega

theorem segTotals_le (n : Nat) (P : List (Nat × Int)) :
    ((List.range n).map (fun c => segTotal P (c : Nat))).sum ≤ (P.map (·.1)).sum := by
  have hone : ∀ (s : Nat) (d : Int) (n : Nat), ((List.range n).map (fun c => if d = (c : Nat) then s else 0)).sum ≤ s ∧
      (¬ (0 ≤ d ∧ d < n) → ((List.range n).map (fun c => if d = (c : Nat) then s else 0)).sum = 0) := by
    intro s d n
    induction n with
    | zero => simp
    | succ n ih =>
      rw [List.range_succ, List.map_append, List.sum_append]
      simp only [List.map_cons, List.map_nil, List.sum_cons, List.sum_nil, Nat.add_zero]
      by_cases hd : d = (n : Nat)
      · rw [if_pos hd, ih.2 (by omega)]
        exact ⟨by omega, fun h => by omega⟩
      · rw [if_neg hd]
        exact ⟨by have := ih.1; omega, fun h => by rw [ih.2 (by omega)]⟩
  induction P with
  | nil =>
    simp only [segTotal, List.map_nil, List.sum_nil]
    induction n with
    | zero => simp
    | succ n ih => rw [List.range_succ, List.map_append, List.sum_append]; simp; simpa using ih
  | cons x P ih =>
    obtain ⟨s, d⟩ := x
    have hsplit : ∀ n : Nat, ((List.range n).map (fun c => segTotal ((s, d) :: P) (c : Nat))).sum =
        ((List.range n).map (fun c => if d = (c : Nat) then s else 0)).sum +
          ((List.range n).map (fun c => segTotal P (c : Nat))).sum := by
      intro n
      induction n with
      | zero => simp
      | succ n ih2 =>
        simp only [List.range_succ, List.map_append, List.sum_append, List.map_cons, List.map_nil, List.sum_cons,
          List.sum_nil, Nat.add_zero] at ih2 ⊢
        rw [ih2]
        have : segTotal ((s, d) :: P) (n : Nat) = (if d = (n : Nat) then s else 0) + segTotal P (n : Nat) := rfl
        rw [this]
        omega
    rw [hsplit]
    have := (hone s d n).1
    simp only [List.map_cons, List.sum_cons]
    omega

theorem sum_ge_mul {f : Nat → Nat} {t : Nat} : ∀ n : Nat, (∀ c, c < n → t ≤ f c) → n * t ≤ ((List.range n).map f).sum := by
  intro n
  induction n with
  | zero => simp
  | succ n ih =>
    intro h
    rw [List.range_succ, List.map_append, List.sum_append]
    have h1 := ih (fun c hc => h c (by omega))
    have h2 := h n (by omega)
    simp only [List.map_cons, List.map_nil, List.sum_cons, List.sum_nil, Nat.add_zero]
    rw [Nat.add_mul, Nat.one_mul]
    omega

/-- **C66** (partial: the bound on one segment is the threshold plus the rows of one process, see `C66_exceeds`). Of
the segments a collective read or write of `sizes` rows per process makes: none holds more rows than the aggregation
threshold and the largest contribution of a single process together; if the average does not exceed the threshold there
are at most as many segments as concurrent writers asked for; all segments but the last hold more than
one row, and more than their share of the rows or more than the threshold. -/
theorem C66_bounds_partial (sizes : List Nat) (conc threshold M : Nat) (hs : sizes.sum < 18446744073709551616) (hc : 0 < conc)
    (hM : ∀ s ∈ sizes, s ≤ M) :
    let seg := assignColors (segTarget sizes.sum conc threshold) sizes none
    let rows := fun c : Nat => segTotal (sizes.zip seg.1) c
    (∀ c, rows c ≤ threshold + M) ∧
    (sizes.sum / conc ≤ threshold → 0 < threshold → seg.2 ≤ conc) ∧
    (∀ c, c + 1 < seg.2 → (0 < threshold → 1 < rows c) ∧ (sizes.sum < rows c * conc ∨ threshold < rows c)) := by
  dsimp only
  obtain ⟨hlen, hgood⟩ := C44_segments (segTarget sizes.sum conc threshold) sizes hs
  have htgt : segTarget sizes.sum conc threshold = min threshold (max 1 (sizes.sum / conc)) := by
    unfold segTarget
    simp only
    split <;> split <;> omega
  have hdm := Nat.div_add_mod sizes.sum conc
  have hlt : sizes.sum < (sizes.sum / conc + 1) * conc := by
    have := Nat.mod_lt sizes.sum hc
    rw [Nat.add_mul, Nat.one_mul, Nat.mul_comm]
    omega
  refine ⟨?_, ?_, ?_⟩
  · intro c
    have := segTotal_le (M := M) _ _ rfl hgood.bounded (fun x hx => hM _ (List.of_mem_zip hx).1) c
    omega
  · intro h1 h2
    have hsum := segTotals_le ((assignColors (segTarget sizes.sum conc threshold) sizes none).2 - 1)
      (sizes.zip (assignColors (segTarget sizes.sum conc threshold) sizes none).1)
    rw [List.map_fst_zip (by omega)] at hsum
    have hge := sum_ge_mul (f := fun c => segTotal (sizes.zip (assignColors (segTarget sizes.sum conc threshold) sizes none).1) (c : Nat))
      (t := sizes.sum / conc + 1) ((assignColors (segTarget sizes.sum conc threshold) sizes none).2 - 1)
      (fun c hc => by have := hgood.full c (by omega); omega)
    generalize (assignColors (segTarget sizes.sum conc threshold) sizes none).2 = k at *
    by_cases hk : k ≤ conc
    · exact hk
    · exfalso
      have h3 : conc * (sizes.sum / conc + 1) ≤ (k - 1) * (sizes.sum / conc + 1) := Nat.mul_le_mul_right _ (by omega)
      rw [Nat.mul_comm conc] at h3
      omega
  · intro c hcn
    have hf := hgood.full c hcn
    refine ⟨fun h => by omega, ?_⟩
    by_cases h : threshold < segTotal (sizes.zip (assignColors (segTarget sizes.sum conc threshold) sizes none).1) c
    · exact Or.inr h
    · left
      have h4 : sizes.sum / conc + 1 ≤ segTotal (sizes.zip (assignColors (segTarget sizes.sum conc threshold) sizes none).1) c := by
        omega
      exact Nat.lt_of_lt_of_le hlt (Nat.mul_le_mul_right conc h4)

/-- Five processes with rows, four writers: segments of 5, 5 and 4 rows (and an empty one, since the last process has
nothing). -/
example : assignColors (segTarget 14 4 100) [3, 0, 2, 5, 1, 3, 0] none = ([0, -1, 0, 1, 2, 2, -1], 4) := by decide

example := C66_bounds_partial [3, 0, 2, 5, 1, 3, 0] 4 100 5 (by decide) (by decide) (by decide)

/-- **C66 is false** as the comment in the code has it ("no segment shall exceed the memory bound"): with a threshold of 4
rows, one process collects 9. -/
theorem C66_exceeds : ∃ sizes conc threshold c, 0 < conc ∧ (∀ s ∈ sizes, s ≤ threshold + 1) ∧
    let seg := assignColors (segTarget sizes.sum conc threshold) sizes none
    threshold < segTotal (sizes.zip seg.1) (c : Nat) ∧ segTotal (sizes.zip seg.1) (c : Nat) = 2 * threshold + 1 :=
  ⟨[4, 5], 1, 4, 0, by decide, by decide, by decide⟩

end Verif
