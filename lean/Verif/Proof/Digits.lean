import Verif.C.Text
/-!
# Printing and scanning digits
-/

set_option autoImplicit false

namespace Verif

theorem digitChar_toNat (d : Nat) (h : d < 16) :
    (digitChar d).toNat = if d < 10 then 48 + d else 55 + d := by
  unfold digitChar
  split
  · rw [UInt8.toNat_ofNat']; omega
  · rw [UInt8.toNat_ofNat']; omega

/-- The digit of a digit character. -/
theorem digitVal_digitChar (d : Nat) (h : d < 16) : digitVal (digitChar d) = some d := by
  have : ∀ d : Fin 16, digitVal (digitChar d.val) = some d.val := by decide
  exact this ⟨d, h⟩

/-- `c` is a digit of base `b`. -/
def IsDigit (b : Nat) (c : Byte) : Prop := ∃ d, d < b ∧ c = digitChar d

theorem digitsAux_ne_nil (b fuel n : Nat) : digitsAux b fuel n ≠ [] := by
  cases fuel with
  | zero => simp [digitsAux]
  | succ f => simp only [digitsAux]; split <;> simp

theorem digitsAux_digits (b fuel n : Nat) (hb : 0 < b) : ∀ c ∈ digitsAux b fuel n, IsDigit b c := by
  induction fuel generalizing n with
  | zero =>
    intro c hc
    simp only [digitsAux, List.mem_singleton] at hc
    exact ⟨n % b, Nat.mod_lt _ hb, hc⟩
  | succ f ih =>
    intro c hc
    simp only [digitsAux] at hc
    split at hc
    · rename_i h
      simp only [List.mem_singleton] at hc
      exact ⟨n, h, hc⟩
    · simp only [List.mem_append, List.mem_singleton] at hc
      rcases hc with hc | hc
      · exact ih _ c hc
      · exact ⟨n % b, Nat.mod_lt _ hb, hc⟩

/-- Value of a string of digits, after `acc`. -/
def digitsVal (b : Nat) : Nat → CStr → Nat
  | acc, [] => acc
  | acc, c :: s => digitsVal b (acc * b + (digitVal c).getD 0) s

theorem digitsVal_append (b acc : Nat) (s t : CStr) :
    digitsVal b acc (s ++ t) = digitsVal b (digitsVal b acc s) t := by
  induction s generalizing acc with
  | nil => rfl
  | cons c s ih => simp only [List.cons_append, digitsVal, ih]

theorem digitsVal_digitsAux (b fuel n : Nat) (hb : 2 ≤ b) (hb16 : b ≤ 16) (hf : n ≤ fuel) :
    digitsVal b 0 (digitsAux b fuel n) = n := by
  induction fuel generalizing n with
  | zero =>
    have : n = 0 := by omega
    subst this
    simp only [digitsAux, digitsVal, Nat.zero_mod]
    rw [digitVal_digitChar 0 (by omega)]
    simp
  | succ f ih =>
    simp only [digitsAux]
    split
    · rename_i h
      simp only [digitsVal]
      rw [digitVal_digitChar n (by omega)]
      simp
    · rename_i h
      have hm := Nat.mod_lt n (show 0 < b by omega)
      rw [digitsVal_append, ih (n / b) (by
        have : n / b < n := Nat.div_lt_self (by omega) (by omega)
        omega)]
      simp only [digitsVal]
      rw [digitVal_digitChar _ (by omega)]
      simp only [Option.getD_some]
      have := Nat.div_add_mod n b
      rw [Nat.mul_comm]
      omega

theorem digitsVal_zeros (b k : Nat) (s : CStr) :
    digitsVal b 0 (List.replicate k 48 ++ s) = digitsVal b 0 s := by
  induction k with
  | zero => simp
  | succ k ih =>
    rw [List.replicate_succ, List.cons_append]
    simp only [digitsVal]
    have : digitVal 48 = some 0 := by decide
    rw [this]
    simpa using ih

/-- Digits are taken up to the first other character. -/
theorem takeDigits_spec (b : Nat) (hb16 : b ≤ 16) (s rest : CStr) (hs : ∀ c ∈ s, IsDigit b c)
    (hrest : startsDigit b rest = false) : ∀ (w acc : Nat), s.length ≤ w →
    takeDigits b w acc (s ++ rest) = (digitsVal b acc s, rest) := by
  induction s with
  | nil =>
    intro w acc _
    simp only [List.nil_append, digitsVal]
    cases w with
    | zero => rfl
    | succ w =>
      cases rest with
      | nil => rfl
      | cons c r =>
        simp only [takeDigits]
        simp only [startsDigit] at hrest
        split
        · rename_i d hd
          rw [hd] at hrest
          simp only [decide_eq_false_iff_not] at hrest
          rw [if_neg hrest]
        · rfl
  | cons c s ih =>
    intro w acc hw
    cases w with
    | zero => simp at hw
    | succ w =>
      obtain ⟨d, hd, hc⟩ := hs c (by simp)
      have hv : digitVal c = some d := by rw [hc]; exact digitVal_digitChar d (by omega)
      simp only [List.cons_append, takeDigits, hv]
      rw [if_pos hd, ih (fun x hx => hs x (by simp [hx])) w _ (by simpa using hw)]
      simp only [digitsVal, hv, Option.getD_some]

/-- Exactly `w` digits are taken when that many are there. -/
theorem takeDigits_exact (b : Nat) (hb16 : b ≤ 16) (s rest : CStr) (hs : ∀ c ∈ s, IsDigit b c) :
    ∀ (acc : Nat), takeDigits b s.length acc (s ++ rest) = (digitsVal b acc s, rest) := by
  induction s with
  | nil => intro acc; rfl
  | cons c s ih =>
    intro acc
    obtain ⟨d, hd, hc⟩ := hs c (by simp)
    have hv : digitVal c = some d := by rw [hc]; exact digitVal_digitChar d (by omega)
    simp only [List.length_cons, List.cons_append, takeDigits, hv]
    rw [if_pos hd, ih (fun x hx => hs x (by simp [hx]))]
    simp only [digitsVal, hv, Option.getD_some]

theorem decStr_val (n : Nat) : digitsVal 10 0 (decStr n) = n :=
  digitsVal_digitsAux 10 n n (by omega) (by omega) (Nat.le_refl _)

theorem decStr_digits (n : Nat) : ∀ c ∈ decStr n, IsDigit 10 c :=
  digitsAux_digits 10 n n (by omega)

theorem decStr_ne_nil (n : Nat) : decStr n ≠ [] := digitsAux_ne_nil _ _ _

theorem hex6Str_val (n : Nat) : digitsVal 16 0 (hex6Str n) = n := by
  unfold hex6Str
  simp only
  rw [digitsVal_zeros]
  exact digitsVal_digitsAux 16 n n (by omega) (by omega) (Nat.le_refl _)

theorem hex6Str_digits (n : Nat) : ∀ c ∈ hex6Str n, IsDigit 16 c := by
  intro c hc
  unfold hex6Str at hc
  simp only [List.mem_append, List.mem_replicate] at hc
  rcases hc with ⟨_, hc⟩ | hc
  · exact ⟨0, by omega, by rw [hc]; decide⟩
  · exact digitsAux_digits 16 n n (by omega) c hc

theorem hex6Str_ne_nil (n : Nat) : hex6Str n ≠ [] := by
  unfold hex6Str
  simp only
  intro h
  have := (List.append_eq_nil_iff.mp h).2
  exact digitsAux_ne_nil _ _ _ this

/-- File names of different data files differ. -/
theorem hex6Str_inj {i j : Nat} (h : hex6Str i = hex6Str j) : i = j := by
  rw [← hex6Str_val i, ← hex6Str_val j, h]

/-- A hexadecimal digit is `0`-`9` or `A`-`F`. -/
theorem IsDigit.range {b : Nat} (hb : b ≤ 16) {c : Byte} (h : IsDigit b c) :
    (48 ≤ c.toNat ∧ c.toNat ≤ 57) ∨ (65 ≤ c.toNat ∧ c.toNat ≤ 70) := by
  obtain ⟨d, hd, hc⟩ := h
  rw [hc, digitChar_toNat d (by omega)]
  split <;> omega

end Verif
