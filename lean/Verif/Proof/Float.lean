import Verif.Spec.Float
import Verif.Proof.Value
/-!
# Floating point conversions on values
-/

set_option autoImplicit false

namespace Verif

open Spec

/-- Bits beyond the format do not matter. -/
theorem ieeeValue_mod (p x bits : Nat) : ieeeValue p x (bits % 2 ^ (p + x + 1)) = ieeeValue p x bits := by
  have e1 : bits % 2 ^ (p + x + 1) % 2 ^ p = bits % 2 ^ p := by
    rw [Nat.mod_mod_of_dvd]
    exact Nat.pow_dvd_pow 2 (by omega)
  have e2 : bits % 2 ^ (p + x + 1) / 2 ^ p % 2 ^ x = bits / 2 ^ p % 2 ^ x := by
    rw [show p + x + 1 = p + (x + 1) by omega, Nat.pow_add, Nat.mod_mul_right_div_self, Nat.mod_mod_of_dvd]
    exact Nat.pow_dvd_pow 2 (by omega)
  have e3 : bits % 2 ^ (p + x + 1) / 2 ^ (p + x) % 2 = bits / 2 ^ (p + x) % 2 := by
    rw [show 2 ^ (p + x + 1) = 2 ^ (p + x) * 2 from Nat.pow_succ 2 (p + x), Nat.mod_mul_right_div_self]
    omega
  unfold ieeeValue
  rw [e1, e2, e3]

theorem pow2_step (n : Int) (e : Int) : ((2 * n : Int) : Rat) * (2 : Rat) ^ (e - 1) = (n : Rat) * (2 : Rat) ^ e := by
  have h : (2 : Rat) ^ e = (2 : Rat) ^ (e - 1) * 2 := by
    have := Rat.zpow_add_one (q := 2) (by decide) (e - 1)
    rw [show e - 1 + 1 = e by omega] at this
    exact this
  rw [h, Rat.intCast_mul, ← Rat.mul_assoc, Rat.mul_comm ((n : Rat) * _) 2, ← Rat.mul_assoc 2]
  rfl

/-- Every number `± m * 2^e` with few enough digits and an exponent in range is representable. -/
theorem ieeeValue_represents (p x : Nat) (hx : 2 ≤ x) (neg : Bool) (k : Nat) : ∀ (n : Nat) (e : Int), n < 2 ^ (p + 1) →
    e = 1 - ((2 ^ (x - 1) - 1 : Nat) : Int) - p + k → e + p ≤ ((2 ^ (x - 1) - 1 : Nat) : Int) →
    ∃ bits, bits < 2 ^ (p + x + 1) ∧ ieeeValue p x bits = some (((if neg then -1 else 1 : Int) * (n : Int) : Int) * (2 : Rat) ^ e) := by
  have hpx : 2 ^ x = 2 * 2 ^ (x - 1) := by
    rw [← Nat.pow_succ']
    congr 1
    omega
  have hge : 2 ≤ 2 ^ (x - 1) := by
    calc 2 = 2 ^ 1 := rfl
      _ ≤ _ := Nat.pow_le_pow_right (by omega) (by omega)
  have hpp : 0 < 2 ^ p := Nat.pos_of_ne_zero (by simp)
  have hbias : ((2 : Int) ^ (x - 1) - 1) = ((2 ^ (x - 1) - 1 : Nat) : Int) := by
    rw [Int.natCast_sub (by omega)]
    simp
  -- a pattern with given fields
  have field : ∀ f ex, f < 2 ^ p → ex < 2 ^ x → ∃ bits, bits < 2 ^ (p + x + 1) ∧ bits % 2 ^ p = f ∧ bits / 2 ^ p % 2 ^ x = ex ∧
      (if bits / 2 ^ (p + x) % 2 = 1 then -1 else 1 : Int) = if neg then -1 else 1 := by
    intro f ex hf hex
    have hlow : ex * 2 ^ p + f < 2 ^ (p + x) := by
      rw [Nat.pow_add, Nat.mul_comm (2 ^ p)]
      calc ex * 2 ^ p + f < ex * 2 ^ p + 2 ^ p := by omega
        _ = (ex + 1) * 2 ^ p := by rw [Nat.add_mul, Nat.one_mul]
        _ ≤ 2 ^ x * 2 ^ p := Nat.mul_le_mul_right _ hex
    have htop : 2 ^ (p + x + 1) = 2 * 2 ^ (p + x) := by rw [Nat.pow_succ, Nat.mul_comm]
    have hcut : 2 ^ (p + x) = 2 ^ x * 2 ^ p := by rw [Nat.pow_add, Nat.mul_comm]
    cases neg
    · refine ⟨ex * 2 ^ p + f, by omega, ?_, ?_, ?_⟩
      · rw [Nat.mul_comm, Nat.mul_add_mod, Nat.mod_eq_of_lt hf]
      · rw [Nat.mul_comm, Nat.mul_add_div hpp, Nat.div_eq_of_lt hf, Nat.add_zero, Nat.mod_eq_of_lt hex]
      · rw [Nat.div_eq_of_lt hlow]; simp
    · refine ⟨2 ^ (p + x) + (ex * 2 ^ p + f), by omega, ?_, ?_, ?_⟩
      · rw [hcut, ← Nat.add_assoc, ← Nat.add_mul, Nat.mul_comm, Nat.mul_add_mod, Nat.mod_eq_of_lt hf]
      · rw [hcut, ← Nat.add_assoc, ← Nat.add_mul, Nat.mul_comm, Nat.mul_add_div hpp, Nat.div_eq_of_lt hf, Nat.add_zero,
          Nat.add_mod_left, Nat.mod_eq_of_lt hex]
      · rw [Nat.add_div_left _ (by omega), Nat.div_eq_of_lt hlow]; simp
  induction k with
  | zero =>
    intro n e hn he hmax
    by_cases hs : n < 2 ^ p
    · obtain ⟨bits, h1, h2, h3, h4⟩ := field n 0 hs (by omega)
      refine ⟨bits, h1, ?_⟩
      unfold ieeeValue
      simp only [h2, h3, h4]
      rw [if_neg (by omega), if_pos trivial, hbias, he]
      simp
    · obtain ⟨bits, h1, h2, h3, h4⟩ := field (n - 2 ^ p) 1 (by rw [Nat.pow_succ] at hn; omega) (by omega)
      refine ⟨bits, h1, ?_⟩
      unfold ieeeValue
      simp only [h2, h3, h4]
      rw [if_neg (by omega), if_neg (by omega), hbias, he, show 2 ^ p + (n - 2 ^ p) = n by omega]
      simp
  | succ k ih =>
    intro n e hn he hmax
    by_cases hs : n < 2 ^ p
    · obtain ⟨bits, h1, h2⟩ := ih (2 * n) (e - 1) (by rw [Nat.pow_succ]; omega) (by omega) (by omega)
      refine ⟨bits, h1, ?_⟩
      have e2 := pow2_step ((if neg then -1 else 1 : Int) * (n : Int)) e
      rw [h2, Int.natCast_mul, Int.mul_left_comm]
      exact congrArg some e2
    · obtain ⟨bits, h1, h2, h3, h4⟩ := field (n - 2 ^ p) (k + 2) (by rw [Nat.pow_succ] at hn; omega) (by omega)
      refine ⟨bits, h1, ?_⟩
      unfold ieeeValue
      simp only [h2, h3, h4]
      rw [if_neg (by omega), if_neg (by omega), hbias, he, show 2 ^ p + (n - 2 ^ p) = n by omega]
      congr 3
      omega

/-- Every finite number of a format is `± n * 2^e` with few digits and an exponent in range. -/
theorem ieeeValue_shape (p x bits : Nat) (hx : 2 ≤ x) (v : Rat) (h : ieeeValue p x bits = some v) :
    ∃ (neg : Bool) (n k : Nat), n < 2 ^ (p + 1) ∧ k ≤ 2 ^ x - 3 ∧
      v = (((if neg then -1 else 1 : Int) * (n : Int) : Int) : Rat) *
        (2 : Rat) ^ (1 - ((2 ^ (x - 1) - 1 : Nat) : Int) - p + k) := by
  have hge : 2 ≤ 2 ^ (x - 1) := by
    calc 2 = 2 ^ 1 := rfl
      _ ≤ _ := Nat.pow_le_pow_right (by omega) (by omega)
  have hpx : 2 ^ x = 2 * 2 ^ (x - 1) := by
    rw [← Nat.pow_succ']
    congr 1
    omega
  have hbias : ((2 : Int) ^ (x - 1) - 1) = ((2 ^ (x - 1) - 1 : Nat) : Int) := by
    rw [Int.natCast_sub (by omega)]
    simp
  have hf := Nat.mod_lt bits (show 0 < 2 ^ p from Nat.pos_of_ne_zero (by simp))
  have he := Nat.mod_lt (bits / 2 ^ p) (show 0 < 2 ^ x from Nat.pos_of_ne_zero (by simp))
  unfold ieeeValue at h
  simp only [hbias] at h
  generalize bits % 2 ^ p = f at h hf
  generalize bits / 2 ^ p % 2 ^ x = ex at h he
  have hs : ∃ neg : Bool, (if bits / 2 ^ (p + x) % 2 = 1 then -1 else 1 : Int) = if neg then -1 else 1 := by
    by_cases hb : bits / 2 ^ (p + x) % 2 = 1
    · exact ⟨true, by rw [if_pos hb]; rfl⟩
    · exact ⟨false, by rw [if_neg hb]; rfl⟩
  obtain ⟨neg, hs⟩ := hs
  rw [hs] at h
  split at h
  · exact absurd h (by simp)
  · split at h
    · refine ⟨neg, f, 0, by rw [Nat.pow_succ]; omega, by omega, ?_⟩
      rw [← Option.some.inj h]
      simp
    · refine ⟨neg, 2 ^ p + f, ex - 1, by rw [Nat.pow_succ]; omega, by omega, ?_⟩
      rw [← Option.some.inj h]
      congr 2
      omega

/-- Every `float` is a `double`. -/
theorem f4_is_f8 (b : Nat) (v : Rat) (h : f4Value b = some v) : ∃ c, c < 2 ^ 64 ∧ f8Value c = some v := by
  obtain ⟨neg, n, k, hn, hk, rfl⟩ := ieeeValue_shape 23 8 b (by omega) v h
  obtain ⟨c, hc, hv⟩ := ieeeValue_represents 52 11 (by omega) neg (k + 925) n
    (1 - ((2 ^ (8 - 1) - 1 : Nat) : Int) - (23 : Nat) + k) (by omega) (by omega) (by omega)
  exact ⟨c, hc, hv⟩

/-- The sign of an integer. -/
theorem int_signed (x : Int) : x = (if decide (x < 0) then -1 else 1 : Int) * (x.natAbs : Int) := by
  by_cases h : x < 0 <;> simp [h] <;> omega

/-- Integers with few enough digits are representable. -/
theorem int_is_ieee (p x : Nat) (hx : 2 ≤ x) (hp : p + 1 ≤ 2 ^ (x - 1) - 1) (y : Int) (hy : y.natAbs ≤ 2 ^ (p + 1)) :
    ∃ c, c < 2 ^ (p + x + 1) ∧ ieeeValue p x c = some (y : Rat) := by
  by_cases h : y.natAbs < 2 ^ (p + 1)
  · obtain ⟨c, hc, hv⟩ := ieeeValue_represents p x hx (decide (y < 0)) (p + (2 ^ (x - 1) - 1) - 1) y.natAbs 0 h
      (by omega) (by omega)
    refine ⟨c, hc, ?_⟩
    rw [hv, ← int_signed, Rat.zpow_zero, Rat.mul_one]
  · have he : y.natAbs = 2 * 2 ^ p := by rw [Nat.pow_succ] at h hy; omega
    obtain ⟨c, hc, hv⟩ := ieeeValue_represents p x hx (decide (y < 0)) (p + (2 ^ (x - 1) - 1)) (2 ^ p) 1
      (by rw [Nat.pow_succ]; have : 0 < 2 ^ p := Nat.pos_of_ne_zero (by simp)
          omega) (by omega) (by omega)
    refine ⟨c, hc, ?_⟩
    rw [hv, ← pow2_step, Int.mul_left_comm, show (1 : Int) - 1 = 0 from rfl, Rat.zpow_zero, Rat.mul_one]
    congr 2
    have := int_signed y
    rw [he] at this
    push_cast at this ⊢
    exact this.symm

/-- The number of a pattern of a numeric type. -/
def patVal : NumTy → Nat → Option Rat
  | .int t, n => some ((if t.signed ∧ 2 ^ (8 * t.width - 1) ≤ (n : Int) then (n : Int) - 2 ^ (8 * t.width) else n : Int) : Rat)
  | .f4, n => f4Value n
  | .f8, n => f8Value n

theorem numVal_pat (o : Order) (t : NumTy) (bs : List Byte) : numVal o t bs = patVal t (orderVal o bs) := by
  cases t <;> rfl

theorem intVal_holds (o : Order) (t : IntTy) (bs : List Byte) (hl : bs.length = t.width) : t.holds (intVal o t bs) := by
  have h2 := orderVal_lt o bs
  rw [hl] at h2
  unfold intVal
  generalize orderVal o bs = n at h2
  cases t <;> simp [IntTy.holds, IntTy.signed, IntTy.width] at * <;> (try split) <;> omega

/-- Bytes of a pattern. -/
theorem leEnc_orderVal (w n : Nat) (h : n < 256 ^ w) : (leEnc w n).length = w ∧ orderVal .little (leEnc w n) = n := by
  refine ⟨?_, ?_⟩
  · have := natEnc_length ⟨true, true⟩ w n
    simpa [natEnc] using this
  · show posVal _ = _
    rw [← leDec_posVal, leDec_leEnc, Nat.mod_eq_of_lt h]

theorem holds_pat (t : NumTy) (v : Rat) : t.holds v ↔ ∃ n, n < 256 ^ t.width ∧ patVal t n = some v := by
  constructor
  · rintro ⟨bs, hl, hv⟩
    refine ⟨_, ?_, by rw [← numVal_pat]; exact hv⟩
    rw [← hl]
    exact orderVal_lt _ _
  · rintro ⟨n, hn, hv⟩
    obtain ⟨h1, h2⟩ := leEnc_orderVal t.width n hn
    exact ⟨_, h1, by rw [numVal_pat, h2]; exact hv⟩

theorem holds_int (t : IntTy) (x : Int) : (NumTy.int t).holds (x : Rat) ↔ t.holds x := by
  constructor
  · rintro ⟨bs, hl, hv⟩
    have := Rat.intCast_inj.mp (Option.some.inj hv)
    rw [← this]
    exact intVal_holds _ _ _ hl
  · intro h
    rw [holds_pat]
    refine ⟨(if 0 ≤ x then x else x + 2 ^ (8 * t.width) : Int).toNat, ?_, ?_⟩
    · cases t <;> simp [IntTy.holds, IntTy.signed, IntTy.width, NumTy.width] at * <;> split <;> omega
    · simp only [patVal]
      congr 2
      cases t <;> simp [IntTy.holds, IntTy.signed, IntTy.width] at * <;> (repeat' split) <;> omega

theorem holds_int_iff (t : IntTy) (v : Rat) (h : (NumTy.int t).holds v) : ∃ x : Int, v = x ∧ t.holds x := by
  obtain ⟨bs, hl, hv⟩ := h
  exact ⟨intVal .little t bs, (Option.some.inj hv).symm, intVal_holds _ _ _ hl⟩

/-- The entry of the model's table. -/
def Spec.NumTy.num : NumTy → Num
  | .int t => t.num
  | .f4 => .f4
  | .f8 => .f8

theorem ofName_numTy (t : NumTy) : Num.ofName t.name = some t.num := by
  cases t with
  | int t => exact ofName_intTy t
  | f4 => rfl
  | f8 => rfl

theorem numTy_name_inj (s t : NumTy) (h : s.name = t.name) : s = t := by
  cases s <;> cases t <;> first | rfl | (rename_i a b; rw [intTy_name_inj a b h]) | (rename_i a; cases a <;> exact absurd h (by decide)) |
    exact absurd h (by decide)

/-- The number of a value. -/
def valOf : Val → Option Rat
  | .int x => some (x : Rat)
  | .f4 b => f4Value b
  | .f8 b => f8Value b

theorem load_numVal (m : Machine) (t : NumTy) (o : Order) (bs : List Byte) (hl : bs.length = t.width) :
    valOf (t.num.load m (toNative m (t.dtype o) bs)) = numVal o t bs := by
  cases t with
  | int t => rw [show (NumTy.int t).num = t.num from rfl, show (NumTy.int t).dtype o = t.dtype o from rfl,
      load_intVal m t o bs hl]; rfl
  | f4 => exact congrArg f4Value (natDec_toNative m o b!"f4" bs)
  | f8 => exact congrArg f8Value (natDec_toNative m o b!"f8" bs)

theorem toward0_int (x : Int) : toward0 (x : Rat) = x := by
  unfold toward0
  split
  · exact Rat.floor_intCast x
  · exact Rat.ceil_intCast x

/-- The integer part of a value, if it is in range. -/
theorem toInt_toward0 (fo : FloatOps) (hfo : CFloat fo) (lo hi : Int) (v0 : Val) (v : Rat) (hv : valOf v0 = some v)
    (h1 : lo ≤ toward0 v) (h2 : toward0 v < hi) : v0.toInt fo lo hi = some (toward0 v) := by
  cases v0 with
  | int x =>
    rw [← Option.some.inj hv, toward0_int]
    rfl
  | f4 b =>
    simp only [Val.toInt, hfo.intOfF4 b v hv, Option.bind_some]
    exact if_pos ⟨h1, h2⟩
  | f8 b =>
    simp only [Val.toInt, hfo.intOfF8 b v hv, Option.bind_some]
    exact if_pos ⟨h1, h2⟩

/-- Storing in an integer type. -/
theorem store_int (m : Machine) (fo : FloatOps) (hfo : CFloat fo) (t : IntTy) (v0 : Val) (v : Rat) (hv : valOf v0 = some v)
    (h : t.holds (toward0 v)) : ∃ n, n < 256 ^ t.width ∧ t.num.store m fo v0 = some (natEnc m t.width n) ∧
      patVal (.int t) n = some (toward0 v : Rat) := by
  have key : ∀ lo hi, lo ≤ toward0 v → toward0 v < hi → v0.toInt fo lo hi = some (toward0 v) :=
    fun lo hi => toInt_toward0 fo hfo lo hi v0 v hv
  generalize toward0 v = x at *
  cases t <;> simp [IntTy.holds, IntTy.signed, IntTy.width] at h <;>
    simp only [IntTy.num, Num.store] <;> rw [key _ _ (by omega) (by omega)] <;>
    refine ⟨_, ?_, rfl, ?_⟩ <;> simp only [u32, u64, IntTy.width, patVal, IntTy.signed] <;> (try omega) <;>
    (apply congrArg some; apply congrArg; simp) <;> (try split) <;> omega

/-- Storing in any type. -/
theorem store_exact (m : Machine) (fo : FloatOps) (hfo : CFloat fo) (t : NumTy) (v0 : Val) (v : Rat) (hv : valOf v0 = some v)
    (h : t.holds v) : ∃ n, t.num.store m fo v0 = some (natEnc m t.width n) ∧
      patVal t (n % 256 ^ t.width) = some v := by
  cases t with
  | int t =>
    obtain ⟨x, rfl, hx⟩ := holds_int_iff t v h
    rw [← toward0_int x] at hx
    obtain ⟨n, h1, h2, h3⟩ := store_int m fo hfo t v0 _ hv hx
    refine ⟨n, h2, ?_⟩
    rw [show (NumTy.int t).width = t.width from rfl, Nat.mod_eq_of_lt h1, h3, toward0_int]
  | f4 =>
    obtain ⟨c, _, hc⟩ := (holds_pat .f4 v).mp h
    refine ⟨_, rfl, ?_⟩
    rw [show patVal .f4 = f4Value from rfl, show (256 : Nat) ^ NumTy.f4.width = 2 ^ (23 + 8 + 1) from rfl]
    unfold f4Value
    rw [ieeeValue_mod]
    cases v0 with
    | int x => rw [← Option.some.inj hv] at hc ⊢; exact hfo.f4OfInt x c hc
    | f4 b => exact hv
    | f8 b => exact hfo.f4OfF8 b c v hv hc
  | f8 =>
    obtain ⟨c, _, hc⟩ := (holds_pat .f8 v).mp h
    refine ⟨_, rfl, ?_⟩
    rw [show patVal .f8 = f8Value from rfl, show (256 : Nat) ^ NumTy.f8.width = 2 ^ (52 + 11 + 1) from rfl]
    unfold f8Value
    rw [ieeeValue_mod]
    cases v0 with
    | int x => rw [← Option.some.inj hv] at hc ⊢; exact hfo.f8OfInt x c hc
    | f4 b => exact hfo.f8OfF4 b c v hv hc
    | f8 b => exact hv

/-- Converting one element between different types. -/
theorem convElem_num (m : Machine) (fo : FloatOps) (d s : NumTy) (od os : Order) (bs : List Byte) (hds : d ≠ s) :
    convElem m fo (d.dtype od) (s.dtype os) bs =
      (d.num.store m fo (s.num.load m (toNative m (s.dtype os) bs))).map (toNative m (d.dtype od)) := by
  unfold convElem
  dsimp only
  have hn : ¬ (d.dtype od).drop 1 = (s.dtype os).drop 1 := fun h => hds (numTy_name_inj d s h)
  rw [if_neg hn]
  have htab : castTable m fo ((d.dtype od).drop 1) ((s.dtype os).drop 1) =
      some ⟨s.num.width, d.num.width, fun bs => d.num.store m fo (s.num.load m bs)⟩ := by
    show castTable m fo d.name s.name = _
    unfold castTable
    rw [ofName_numTy, ofName_numTy]
    cases d with
    | int t => cases t <;> rfl
    | f4 => rfl
    | f8 => rfl
  rw [htab]
  rfl

theorem numVal_toNative (m : Machine) (o : Order) (t : NumTy) (n : Nat) :
    numVal o t (toNative m (t.dtype o) (natEnc m t.width n)) = patVal t (n % 256 ^ t.width) := by
  rw [numVal_pat, show t.dtype o = o.char :: t.name from rfl, orderVal_toNative, natDec_natEnc]

theorem convElem_exact (m : Machine) (fo : FloatOps) (hfo : CFloat fo) (d s : NumTy) (od os : Order) (bs : List Byte) (v : Rat)
    (hl : bs.length = s.width) (hv : numVal os s bs = some v) (h : d.holds v) :
    ∃ out, convElem m fo (d.dtype od) (s.dtype os) bs = some out ∧ out.length = d.width ∧ numVal od d out = some v := by
  by_cases hds : d = s
  · subst hds
    have e : convElem m fo (d.dtype od) (d.dtype os) bs =
        some (toNative m (d.dtype od) (toNative m (d.dtype os) bs)) := by
      unfold convElem
      dsimp only
      rw [if_pos (show (d.dtype od).drop 1 = (d.dtype os).drop 1 from rfl)]
      rfl
    refine ⟨_, e, by rw [toNative_length, toNative_length, hl], ?_⟩
    rw [numVal_pat] at hv ⊢
    rw [show d.dtype od = od.char :: d.name from rfl, orderVal_toNative,
      show d.dtype os = os.char :: d.name from rfl, natDec_toNative]
    exact hv
  · rw [convElem_num m fo d s od os bs hds]
    obtain ⟨n, h1, h2⟩ := store_exact m fo hfo d _ v ((load_numVal m s os bs hl).trans hv) h
    rw [h1]
    refine ⟨_, rfl, by rw [toNative_length, natEnc_length], ?_⟩
    rw [numVal_toNative, h2]

theorem convElem_toward0 (m : Machine) (fo : FloatOps) (hfo : CFloat fo) (d : IntTy) (s : NumTy) (od os : Order) (bs : List Byte)
    (v : Rat) (hl : bs.length = s.width) (hv : numVal os s bs = some v) (h : d.holds (toward0 v)) :
    ∃ out, convElem m fo (d.dtype od) (s.dtype os) bs = some out ∧ out.length = d.width ∧ intVal od d out = toward0 v := by
  by_cases hds : NumTy.int d = s
  · subst hds
    have e := Option.some.inj hv
    rw [← e] at h
    rw [toward0_int] at h
    obtain ⟨out, h1, h2, h3⟩ := convElem_exact m fo hfo (.int d) (.int d) od os bs v hl hv (by rw [← e, holds_int]; exact h)
    refine ⟨out, h1, h2, ?_⟩
    have := Option.some.inj h3
    rw [← this]
    exact (toward0_int _).symm
  · rw [show d.dtype od = (NumTy.int d).dtype od from rfl, convElem_num m fo _ s od os bs hds]
    obtain ⟨n, h0, h1, h2⟩ := store_int m fo hfo d _ v ((load_numVal m s os bs hl).trans hv) h
    rw [show (NumTy.int d).num = d.num from rfl, h1]
    refine ⟨_, rfl, by rw [toNative_length, natEnc_length], ?_⟩
    have := numVal_toNative m od (.int d) n
    rw [show (NumTy.int d).width = d.width from rfl, Nat.mod_eq_of_lt h0, h2] at this
    exact Rat.intCast_inj.mp (Option.some.inj this)

/-- Converting a byte of type `b1`. -/
theorem convElem_bool (m : Machine) (fo : FloatOps) (hfo : CFloat fo) (d : NumTy) (od os : Order) (c : Byte)
    (h : d.holds (charVal m.charSigned c : Rat)) :
    ∃ out, convElem m fo (d.dtype od) (os.char :: b!"b1") [c] = some out ∧ out.length = d.width ∧
      numVal od d out = some (charVal m.charSigned c : Rat) := by
  have hn : ¬ (d.dtype od).drop 1 = (os.char :: b!"b1").drop 1 := by
    show ¬ d.name = b!"b1"
    cases d with
    | int t => cases t <;> decide
    | f4 => decide
    | f8 => decide
  have htab : castTable m fo ((d.dtype od).drop 1) ((os.char :: b!"b1").drop 1) =
      some ⟨1, d.num.width, fun bs => d.num.store m fo (Num.b1.load m bs)⟩ := by
    show castTable m fo d.name b!"b1" = _
    unfold castTable
    rw [ofName_numTy, show Num.ofName b!"b1" = some Num.b1 from rfl]
    cases d with
    | int t => cases t <;> rfl
    | f4 => rfl
    | f8 => rfl
  have hld : Num.b1.load m (toNative m (os.char :: b!"b1") [c]) = .int (charVal m.charSigned c) := by
    have h1 : toNative m (os.char :: b!"b1") [c] = [c] := by
      unfold toNative
      split <;> rfl
    have h2 : natDec m [c] = c.toNat := by
      unfold natDec
      split <;> simp [leDec]
    rw [h1]
    unfold Num.load charVal
    simp only [h2]
    congr 1
    by_cases hs : m.charSigned = true <;> simp [hs]
  unfold convElem
  dsimp only
  rw [if_neg hn, htab, Option.bind_some]
  dsimp only
  rw [hld]
  obtain ⟨n, h1, h2⟩ := store_exact m fo hfo d (.int (charVal m.charSigned c)) _ rfl h
  rw [h1]
  refine ⟨_, rfl, by rw [toNative_length, natEnc_length], ?_⟩
  rw [numVal_toNative, h2]

end Verif
