import Verif.Spec.IoSim
import Verif.Proof.Shared
import Verif.Proof.Dtype
import Verif.Proof.Value
import Verif.Proof.AggSeg
/-!
# bigfile-iosim: the shares of the processes and the data
-/

set_option autoImplicit false

namespace Verif

open Spec

/-! ## Shares -/

section
variable {size n : Nat}

theorem simStart_even (h : size * n < 18446744073709551616) {r : Nat} (hr : r < n) (he : r % 2 = 0) : simStart size n r = size * r / n := by
  unfold simStart
  rw [if_pos he, u64_of_nat (Nat.lt_of_le_of_lt (Nat.mul_le_mul_left size (Nat.le_of_lt hr)) h)]

theorem simLocal_even (h : size * n < 18446744073709551616) {r : Nat} (hr : r < n) (he : r % 2 = 0) :
    simLocal size n r = size * (min (r + 2) n) / n - size * r / n := by
  unfold simLocal
  rw [if_pos he, simStart_even h hr he]
  have hm : (if r + 2 > n then n else r + 2) = min (r + 2) n := by split <;> omega
  rw [hm]
  have hle : size * min (r + 2) n ≤ size * n := Nat.mul_le_mul_left size (by omega)
  rw [u64_of_nat (by omega)]
  have h1 : size * r / n ≤ size * min (r + 2) n / n := Nat.div_le_div_right (Nat.mul_le_mul_left size (by omega))
  have h2 : size * min (r + 2) n / n ≤ size * n := Nat.le_trans (Nat.div_le_self _ _) hle
  generalize size * min (r + 2) n / n = a at h1 h2 ⊢
  generalize size * r / n = b at h1 ⊢
  rw [show ((a : Nat) : Int) - (b : Nat) = ((a - b : Nat) : Int) by omega, u64_of_nat (by omega)]

theorem simLocal_odd {r : Nat} (ho : r % 2 ≠ 0) : simLocal size n r = 0 := if_neg ho

/-- The processes before number `k` have so many rows. -/
theorem simLocal_before (h : size * n < 18446744073709551616) : ∀ {k : Nat}, k ≤ n →
    rowsBefore (simLocal size n) k = size * min (k + k % 2) n / n := by
  intro k
  induction k with
  | zero => intro _; simp [rowsBefore]
  | succ k ih =>
    intro hk
    rw [rowsBefore_succ, ih (by omega)]
    by_cases he : k % 2 = 0
    · rw [simLocal_even h (by omega) he]
      have h1 : min (k + k % 2) n = k := by omega
      have h2 : min (k + 1 + (k + 1) % 2) n = min (k + 2) n := by omega
      rw [h1, h2]
      have h3 : size * k / n ≤ size * min (k + 2) n / n := Nat.div_le_div_right (Nat.mul_le_mul_left size (by omega))
      omega
    · rw [simLocal_odd he, show min (k + 1 + (k + 1) % 2) n = min (k + k % 2) n by omega]
      rfl

theorem simLocal_total (h : size * n < 18446744073709551616) (hn : 0 < n) : rowsBefore (simLocal size n) n = size := by
  rw [simLocal_before h (Nat.le_refl n), show min (n + n % 2) n = n by omega]
  exact Nat.mul_div_cancel _ hn

/-- A process that has rows begins after those of the processes before it. -/
theorem simStart_eq (h : size * n < 18446744073709551616) {r : Nat} (hr : r < n) (h0 : 0 < simLocal size n r) :
    simStart size n r = rowsBefore (simLocal size n) r := by
  have he : r % 2 = 0 := by
    by_cases he : r % 2 = 0
    · exact he
    · rw [simLocal_odd he] at h0; omega
  rw [simStart_even h hr he, simLocal_before h (Nat.le_of_lt hr), show min (r + r % 2) n = r by omega]

theorem simLocal_le (h : size * n < 18446744073709551616) (hn : 0 < n) {r : Nat} (hr : r < n) :
    rowsBefore (simLocal size n) r + simLocal size n r ≤ size := by
  have := rows_le (simLocal size n) hr
  rw [simLocal_total h hn] at this
  exact this

end

/-! ## The data -/

theorem slot_poke (mem : Mem) (buf : Int) (a b : Nat) (v : List Byte) (hv : v.length = 8) :
    peek (poke mem (buf + 8 * a) v) (buf + 8 * b) 8 = if a = b then v else peek mem (buf + 8 * b) 8 := by
  split
  · rename_i h
    subst h
    rw [← hv]
    exact peek_poke_same _ _ _
  · apply peek_poke_disjoint
    rw [hv]
    omega

theorem simFillRow_slot (m : Machine) (buf : Int) (start nm i : Nat) (mem : Mem) (b : Nat) :
    peek (simFillRow m buf start nm i mem) (buf + 8 * b) 8 =
      if i * nm ≤ b ∧ b < i * nm + nm then natEnc m 8 (u64 ((start + i : Nat) : Int)) else peek mem (buf + 8 * b) 8 := by
  unfold simFillRow
  rw [show ((nm : Nat) : Int).toNat = nm from rfl]
  have : ∀ J, peek ((List.range J).foldl (fun mem (j : Nat) => poke mem (buf + 8 * ((i : Int) * nm + j))
      (natEnc m 8 (u64 ((start + i : Nat) : Int)))) mem) (buf + 8 * b) 8 =
      if i * nm ≤ b ∧ b < i * nm + J then natEnc m 8 (u64 ((start + i : Nat) : Int)) else peek mem (buf + 8 * b) 8 := by
    intro J
    induction J with
    | zero => rw [if_neg (by omega)]; rfl
    | succ J ih =>
      rw [List.range_succ, List.foldl_append]
      simp only [List.foldl_cons, List.foldl_nil]
      have hs := slot_poke ((List.range J).foldl (fun mem (j : Nat) => poke mem (buf + 8 * ((i : Int) * nm + j))
        (natEnc m 8 (u64 ((start + i : Nat) : Int)))) mem) buf (i * nm + J) b _ (natEnc_length m 8 (u64 ((start + i : Nat) : Int)))
      rw [show ((i * nm + J : Nat) : Int) = (i : Int) * nm + J by rw [Int.natCast_add, Int.natCast_mul]] at hs
      rw [hs, ih]
      by_cases h1 : i * nm + J = b
      · rw [if_pos h1, if_pos (by omega)]
      · rw [if_neg h1]
        by_cases h2 : i * nm ≤ b ∧ b < i * nm + J
        · rw [if_pos h2, if_pos (by omega)]
        · rw [if_neg h2, if_neg (by omega)]
  exact this nm

/-- What the loops have made. -/
theorem simFill_slot (m : Machine) (buf : Int) (start nm : Nat) (mem : Mem) (hnm : 0 < nm) : ∀ (rows : Nat) (b : Nat), b < rows * nm →
    peek (simFill m buf start rows nm mem) (buf + 8 * b) 8 = natEnc m 8 (u64 ((start + b / nm : Nat) : Int)) := by
  intro rows
  induction rows with
  | zero => intro b hb; omega
  | succ k ih =>
    intro b hb
    have hs : simFill m buf start (k + 1) nm mem = simFillRow m buf start nm k (simFill m buf start k nm mem) := by
      unfold simFill
      rw [List.range_succ, List.foldl_append]
      rfl
    rw [hs, simFillRow_slot]
    by_cases h : k * nm ≤ b
    · rw [Nat.succ_mul] at hb
      rw [if_pos ⟨h, hb⟩]
      have : b / nm = k := by
        rw [Nat.div_eq_of_lt_le (by omega) (by rw [Nat.succ_mul]; omega)]
      rw [this]
    · rw [if_neg (by omega)]
      exact ih b (by omega)

/-- What the check says. -/
theorem simRight_iff (m : Machine) (buf : Int) (start rows nm : Nat) (mem : Mem) (h : start + rows < 18446744073709551616) :
    simRight m buf start rows nm mem = true ↔ ∀ i, i < rows → ∀ j, j < nm →
      peek mem (buf + 8 * ((i * nm + j : Nat) : Int)) 8 = natEnc m 8 (start + i) := by
  unfold simRight
  rw [show ((nm : Nat) : Int).toNat = nm from rfl]
  simp only [List.all_eq_true, List.mem_range, beq_iff_eq]
  have key : ∀ i, i < rows → ∀ j : Nat, (natDec m (peek mem (buf + 8 * ((i : Int) * nm + j)) 8) = u64 ((start + i : Nat) : Int) ↔
      peek mem (buf + 8 * ((i * nm + j : Nat) : Int)) 8 = natEnc m 8 (start + i)) := by
    intro i hi j
    rw [u64_of_nat (by omega), Int.natCast_add, Int.natCast_mul]
    generalize hp : peek mem (buf + 8 * ((i : Int) * nm + j)) 8 = bs
    have hl : bs.length = 8 := by rw [← hp]; exact peek_length _ _ _
    constructor
    · intro e
      rw [← e]
      unfold natEnc natDec
      split
      · rw [← hl, leEnc_leDec]
      · have hl' : bs.reverse.length = 8 := by simpa using hl
        rw [← hl', leEnc_leDec, List.reverse_reverse]
    · intro e
      rw [e, natDec_natEnc]
      exact Nat.mod_eq_of_lt (by omega)
  constructor
  · intro h1 i hi j hj
    exact (key i hi j).mp (h1 i hi j hj)
  · intro h1 i hi j hj
    exact (key i hi j).mpr (h1 i hi j hj)

end Verif
