import Verif.Proof.AttrText
/-!
# C13: which dtypes are valid
-/

set_option autoImplicit false

namespace Verif

open Spec

/-- A dtype is valid exactly if it is one of `<`, `>`, `|`, `=`, one of `S`, `b`, `i`, `f`, `u`, `c`, and a width from 1 to 16. -/
theorem C13_dtype (o k : Byte) (n : Nat) (hn : n < 2147483648) :
    dtypeIsValid (o :: k :: decStr n) = true ↔ o ∈ b!"<>|=" ∧ k ∈ b!"Sbifuc" ∧ 1 ≤ n ∧ n ≤ 16 := by
  have h1 : atoi (decStr n) = n := by
    have := atoi_intStr n hn
    unfold intStr at this
    rw [if_neg (by omega)] at this
    exact this
  unfold dtypeIsValid
  simp only [charAt, List.getD_cons_zero, List.getD_cons_succ, List.drop_succ_cons, List.drop_zero, h1, Bool.and_eq_true,
    Bool.or_eq_true, beq_iff_eq, Bool.not_eq_true', Bool.or_eq_false_iff, decide_eq_false_iff_not, List.mem_cons,
    List.not_mem_nil, or_false]
  constructor
  · rintro ⟨⟨h2, h3⟩, h4, h5⟩
    exact ⟨by rcases h2 with ((h | h) | h) | h <;> simp [h], by rcases h3 with ((((h | h) | h) | h) | h) | h <;> simp [h],
      by omega, by omega⟩
  · rintro ⟨h2, h3, h4, h5⟩
    exact ⟨⟨by rcases h2 with h | h | h | h <;> simp [h], by rcases h3 with h | h | h | h | h | h <;> simp [h]⟩, by omega, by omega⟩

/-- Double complex numbers are the widest elements. -/
example : dtypeIsValid b!"<c16" = true ∧ dtypeIsValid b!"<c17" = false ∧ dtypeIsValid b!"S1" = false := by decide

end Verif
