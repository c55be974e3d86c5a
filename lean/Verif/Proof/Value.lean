import Verif.Spec.Value
import Verif.Spec.Convert
import Verif.Proof.Dtype
/-!
# Integer conversions on values
-/

set_option autoImplicit false

namespace Verif

open Spec

theorem leDec_posVal (bs : List Byte) : leDec bs = posVal bs := by
  induction bs with
  | nil => rfl
  | cons b bs ih => simp [leDec, posVal, ih]

theorem posVal_lt (bs : List Byte) : posVal bs < 256 ^ bs.length := by
  induction bs with
  | nil => simp [posVal]
  | cons b bs ih =>
    have := b.toNat_lt
    simp only [posVal, List.length_cons, Nat.pow_succ]
    have h2 : 256 ^ bs.length * 256 = 256 * 256 ^ bs.length := Nat.mul_comm _ _
    omega

theorem leDec_leEnc (w n : Nat) : leDec (leEnc w n) = n % 256 ^ w := by
  induction w generalizing n with
  | zero => simp [leEnc, leDec, Nat.mod_one]
  | succ w ih =>
    simp only [leEnc, leDec, ih]
    have h : (UInt8.ofNat (n % 256)).toNat = n % 256 := by simp
    rw [h, Nat.pow_succ, Nat.mul_comm (256 ^ w) 256, Nat.mod_mul]

theorem leEnc_leDec (bs : List Byte) : leEnc bs.length (leDec bs) = bs := by
  induction bs with
  | nil => rfl
  | cons b bs ih =>
    simp only [List.length_cons, leEnc, leDec]
    have := b.toNat_lt
    have h1 : (b.toNat + 256 * leDec bs) % 256 = b.toNat := by omega
    have h2 : (b.toNat + 256 * leDec bs) / 256 = leDec bs := by omega
    rw [h1, h2, ih]
    simp

/-- The machine's byte order as an `Order`. -/
def Machine.order (m : Machine) : Order := if m.le then .little else .big

theorem natDec_eq (m : Machine) (bs : List Byte) : natDec m bs = orderVal m.order bs := by
  unfold natDec Machine.order
  cases m.le <;> simp [orderVal, leDec_posVal]

theorem natDec_natEnc (m : Machine) (w n : Nat) : natDec m (natEnc m w n) = n % 256 ^ w := by
  unfold natDec natEnc
  cases m.le <;> simp [leDec_leEnc]

/-- Bytes in the declared order, turned to native order, have the same positional value. -/
theorem natDec_toNative (m : Machine) (o : Order) (t : CStr) (bs : List Byte) :
    natDec m (toNative m (o.char :: t) bs) = orderVal o bs := by
  rw [natDec_eq]
  unfold toNative foreign Machine.order Machine.endian charAt
  cases o <;> cases m.le <;> simp [orderVal, Order.char]

theorem orderVal_toNative (m : Machine) (o : Order) (t : CStr) (bs : List Byte) :
    orderVal o (toNative m (o.char :: t) bs) = natDec m bs := by
  rw [← natDec_toNative m o t, toNative_toNative]

/-- The entry of the model's table for an integer type. -/
def Spec.IntTy.num : IntTy → Num
  | .i4 => .i4 | .u4 => .u4 | .i8 => .i8 | .u8 => .u8

theorem ofName_intTy (t : IntTy) : Num.ofName t.name = some t.num := by cases t <;> rfl

theorem intTy_name_inj (s t : IntTy) (h : s.name = t.name) : s = t := by
  cases s <;> cases t <;> first | rfl | (exact absurd h (by decide))

theorem orderVal_lt (o : Order) (bs : List Byte) : orderVal o bs < 256 ^ bs.length := by
  cases o
  · exact posVal_lt bs
  · have := posVal_lt bs.reverse
    rw [List.length_reverse] at this
    exact this

theorem load_intVal (m : Machine) (t : IntTy) (o : Order) (bs : List Byte) (hl : bs.length = t.width) :
    t.num.load m (toNative m (t.dtype o) bs) = .int (intVal o t bs) := by
  have h1 : natDec m (toNative m (t.dtype o) bs) = orderVal o bs := natDec_toNative m o t.name bs
  have h2 := orderVal_lt o bs
  rw [hl] at h2
  unfold intVal
  generalize orderVal o bs = n at h1 h2
  cases t <;> simp only [IntTy.num, Num.load, h1, IntTy.signed, IntTy.width, Val.int.injEq,
    true_and, false_and, if_false, Bool.false_eq_true] <;>
    simp only [IntTy.width] at h2
  · unfold i32; simp only; split <;> split <;> omega
  · unfold i64; simp only; split <;> split <;> omega

/-- Conversion between two integer types always succeeds; the stored value is the source value
modulo the width, in the range of the type. -/
theorem convElem_int (m : Machine) (fo : FloatOps) (d s : IntTy) (od os : Order) (bs : List Byte)
    (hl : bs.length = s.width) :
    ∃ out, convElem m fo (d.dtype od) (s.dtype os) bs = some out ∧ out.length = d.width ∧
      d.holds (intVal od d out) ∧
      (intVal od d out - intVal os s bs) % (2 ^ (8 * d.width)) = 0 := by
  have holds : ∀ (o : Order) (t : IntTy) (bs : List Byte), bs.length = t.width →
      t.holds (intVal o t bs) := by
    intro o t bs hl
    have h2 := orderVal_lt o bs
    rw [hl] at h2
    unfold intVal
    generalize orderVal o bs = n at h2
    cases t <;> simp [IntTy.holds, IntTy.signed, IntTy.width] at * <;> (try split) <;> omega
  unfold convElem
  dsimp only
  by_cases hn : (d.dtype od).drop 1 = (s.dtype os).drop 1
  · rw [if_pos hn]
    have : d = s := intTy_name_inj d s hn
    subst this
    refine ⟨_, rfl, ?_, ?_, ?_⟩
    · rw [toNative_length, toNative_length, hl]
    · exact holds _ _ _ (by rw [toNative_length, toNative_length, hl])
    · have e : orderVal od (toNative m (d.dtype od) (toNative m (d.dtype os) bs)) = orderVal os bs := by
        rw [show d.dtype od = od.char :: d.name from rfl, orderVal_toNative]
        exact natDec_toNative m os d.name bs
      unfold intVal
      rw [e]
      simp
  · rw [if_neg hn]
    have htab : castTable m fo ((d.dtype od).drop 1) ((s.dtype os).drop 1) =
        some ⟨s.num.width, d.num.width, fun bs => d.num.store m fo (s.num.load m bs)⟩ := by
      show castTable m fo d.name s.name = _
      unfold castTable
      rw [ofName_intTy, ofName_intTy]
      cases d <;> rfl
    rw [htab]
    simp only [Option.bind_some, load_intVal m s os bs hl]
    have hst : ∃ w', d.num.store m fo (.int (intVal os s bs)) = some (natEnc m d.width w') ∧
        ((w' : Int) - intVal os s bs) % (2 ^ (8 * d.width)) = 0 := by
      cases d <;> refine ⟨_, rfl, ?_⟩ <;> simp only [IntTy.width, u32, u64] <;> omega
    obtain ⟨w', h1, h2⟩ := hst
    rw [h1]
    refine ⟨_, rfl, ?_, ?_, ?_⟩
    · rw [toNative_length, natEnc_length]
    · exact holds _ _ _ (by rw [toNative_length, natEnc_length])
    · have e : orderVal od (toNative m (d.dtype od) (natEnc m d.width w')) = w' % 256 ^ d.width := by
        rw [show d.dtype od = od.char :: d.name from rfl, orderVal_toNative, natDec_natEnc]
      generalize intVal os s bs = v at h2
      unfold intVal
      rw [e]
      simp only
      revert h2
      cases d <;> simp only [IntTy.signed, IntTy.width] <;> intro h2 <;> (try split) <;> omega

/-- Values in the range of the type that agree modulo the width are equal. -/
theorem holds_unique (t : IntTy) (x y : Int) (hx : t.holds x) (hy : t.holds y)
    (h : (x - y) % (2 ^ (8 * t.width)) = 0) : x = y := by
  cases t <;> simp [IntTy.holds, IntTy.signed, IntTy.width] at * <;> omega

theorem posVal_inj (a b : List Byte) (hl : a.length = b.length) (h : posVal a = posVal b) : a = b := by
  rw [← leEnc_leDec a, ← leEnc_leDec b, leDec_posVal, leDec_posVal, h, hl]

/-- Bytes of an integer type are determined by their value. -/
theorem intVal_inj (o : Order) (t : IntTy) (a b : List Byte) (ha : a.length = t.width)
    (hb : b.length = t.width) (h : intVal o t a = intVal o t b) : a = b := by
  have h1 := orderVal_lt o a
  have h2 := orderVal_lt o b
  rw [ha] at h1
  rw [hb] at h2
  have e : orderVal o a = orderVal o b := by
    unfold intVal at h
    revert h h1 h2
    generalize orderVal o a = x
    generalize orderVal o b = y
    intro h1 h2 h
    cases t <;> simp [IntTy.signed, IntTy.width] at * <;> (try split at h) <;> (try split at h) <;> omega
  cases o
  · exact posVal_inj a b (by omega) e
  · have := posVal_inj a.reverse b.reverse (by simp; omega) e
    simpa using this

end Verif
