import Verif.Proof.Value
import Verif.Props.Transfer
/-!
# C23, C24, C26: conversion of values, byte order, dtype strings
-/

set_option autoImplicit false

namespace Verif

open Spec

/-! ## C23 -/

/-- **C23**, one element: between any two integer types in any byte orders the conversion exists; the
result holds the source value if that is representable in the target type, and otherwise the
representable value that agrees with it modulo 2^width. -/
theorem C23_value (m : Machine) (fo : FloatOps) (d s : IntTy) (od os : Order) (bs : List Byte)
    (hl : bs.length = s.width) :
    ∃ out, convElem m fo (d.dtype od) (s.dtype os) bs = some out ∧ out.length = d.width ∧
      (d.holds (intVal os s bs) → intVal od d out = intVal os s bs) ∧
      d.holds (intVal od d out) ∧
      (intVal od d out - intVal os s bs) % (2 ^ (8 * d.width)) = 0 := by
  obtain ⟨out, h1, h2, h3, h4⟩ := convElem_int m fo d s od os bs hl
  exact ⟨out, h1, h2, fun h => holds_unique d _ _ h3 h h4, h3, h4⟩

/-- C23: `i4 -> i8 -> i4` and `u4 -> u8 -> u4` give back the very bytes, in any byte orders. -/
theorem C23_round_trip (m : Machine) (fo : FloatOps) (s d : IntTy) (os od : Order) (bs : List Byte)
    (hl : bs.length = s.width) (hsd : (s = .i4 ∧ d = .i8) ∨ (s = .u4 ∧ d = .u8)) :
    ∃ mid, convElem m fo (d.dtype od) (s.dtype os) bs = some mid ∧
      convElem m fo (s.dtype os) (d.dtype od) mid = some bs := by
  obtain ⟨mid, h1, h2, h3, h4, h5⟩ := C23_value m fo d s od os bs hl
  obtain ⟨out, k1, k2, k3, k4, k5⟩ := C23_value m fo s d os od mid h2
  obtain ⟨_, _, _, hs, _⟩ := C23_value m fo s s os os bs hl
  have hin : ∀ (t : IntTy) (o : Order) (b : List Byte), b.length = t.width → t.holds (intVal o t b) := by
    intro t o b hb
    have h2 := orderVal_lt o b
    rw [hb] at h2
    unfold intVal
    generalize orderVal o b = n at h2
    cases t <;> simp [IntTy.holds, IntTy.signed, IntTy.width] at * <;> (try split) <;> omega
  have hv := hin s os bs hl
  have e1 : intVal od d mid = intVal os s bs := by
    apply h3
    rcases hsd with ⟨rfl, rfl⟩ | ⟨rfl, rfl⟩ <;>
      simp [IntTy.holds, IntTy.signed, IntTy.width] at * <;> omega
  have e2 : intVal os s out = intVal os s bs := by
    rw [k3 (by rw [e1]; exact hv), e1]
  refine ⟨mid, h1, ?_⟩
  rw [k1, intVal_inj os s out bs k2 hl e2]

/-- **C23**, through the API: after a write of an integer array (type `s`) into an integer block
(type `d`) that returned 0, each stored element holds the value of the array's element, reduced
modulo 2^width if it is not representable. The conversion is never refused. -/
theorem C23_stored (env : Env) (bb : Block) (ptr : Ptr) (a : Arr) (mem : Mem) (p nm : Nat)
    (s d : IntTy) (os od : Order) (wd w1 : World) (x : Xfer)
    (hbd : dtypeNormalize env.m bb.dtype = d.dtype od) (had : a.dtype = s.dtype os)
    (hok : XferOk env bb a d.width s.width nm)
    (hdis : foreign env.m a.dtype = true → Disjoint a s.width)
    (hp : PointsTo bb ptr p) (hrange : p + a.size / nm ≤ bb.size)
    (hwrite : blockWrite env bb ptr a mem wd = .ok x w1) (hrc : x.rc = 0)
    (e : Nat) (he : e < a.size / nm * nm) :
    let src := intVal os s (peek mem (elemAddr a e) s.width)
    let dst := intVal od d (elemOfRows env.m w1.fs bb p d.width nm e)
    (d.holds src → dst = src) ∧ d.holds dst ∧ (dst - src) % (2 ^ (8 * d.width)) = 0 := by
  have hc : ∀ e, ∃ out, convElem env.m env.fo (dtypeNormalize env.m bb.dtype) a.dtype
      (peek mem (elemAddr a e) s.width) = some out ∧ out.length = d.width ∧
      (d.holds (intVal os s (peek mem (elemAddr a e) s.width)) →
        intVal od d out = intVal os s (peek mem (elemAddr a e) s.width)) ∧
      d.holds (intVal od d out) ∧
      (intVal od d out - intVal os s (peek mem (elemAddr a e) s.width)) % (2 ^ (8 * d.width)) = 0 := by
    intro e
    rw [hbd, had]
    exact C23_value env.m env.fo d s od os _ (peek_length _ _ _)
  have hw : LegalWrite env bb ptr a mem p d.width s.width nm (fun e => (hc e).choose) :=
    { ok := hok, dis := hdis, points := hp, range := hrange,
      conv := fun e _ => (hc e).choose_spec.1 }
  have hx := wpc_ok (hw.spec wd) hwrite
  obtain ⟨hd1, hd2, _⟩ := hx.done hrc
  have hel : elemOfRows env.m w1.fs bb p d.width nm e = (hc e).choose := by
    rw [hd1]
    exact elemOfRows_putRows env.m bb wd.fs p _ d.width nm _ hw.ok.rowSize hw.ok.memb0
      (fun e he => hw.stored_length e he) hd2 e he
  intro src dst
  have h := (hc e).choose_spec.2.2
  rw [← hel] at h
  exact h

-- the hypotheses are met by the example write (`<i8` into `<i4`)
example : dtypeNormalize exEnv.m exBlock.dtype = IntTy.i4.dtype .little ∧
    exSrc.dtype = IntTy.i8.dtype .little := by decide
-- 2^32 + 5 does not fit an i4 and is reduced to 5; -1 as i8 big-endian stays -1
example : convElem exEnv.m exEnv.fo b!"<i4" b!"<i8" [5, 0, 0, 0, 1, 0, 0, 0] = some [5, 0, 0, 0] ∧
    intVal .little .i8 [5, 0, 0, 0, 1, 0, 0, 0] = 4294967301 ∧
    convElem exEnv.m exEnv.fo b!">i8" b!"<i4" [255, 255, 255, 255] =
      some [255, 255, 255, 255, 255, 255, 255, 255] ∧
    intVal .big .i8 [255, 255, 255, 255, 255, 255, 255, 255] = -1 := by decide

/-! ## C24 -/

/-- **C24**, one element of one type in two byte orders: the bytes are reversed iff the byte orders
differ. On any machine. -/
theorem C24_bytes (m : Machine) (fo : FloatOps) (t : CStr) (od os : Order) (bs : List Byte) :
    convElem m fo (od.char :: t) (os.char :: t) bs =
      some (if od = os then bs else bs.reverse) := by
  unfold convElem toNative foreign charAt Machine.endian
  cases od <;> cases os <;> cases m.le <;> simp [Order.char]

/-- C24: the positional value of the stored bytes, read in the declared byte order, is that of the
source bytes in their order (integers and floating point bit patterns). -/
theorem C24_value (m : Machine) (fo : FloatOps) (t : CStr) (od os : Order) (bs : List Byte) :
    ∃ out, convElem m fo (od.char :: t) (os.char :: t) bs = some out ∧
      orderVal od out = orderVal os bs := by
  refine ⟨_, C24_bytes m fo t od os bs, ?_⟩
  cases od <;> cases os <;> simp [orderVal]

/-- C24: storing in the other byte order and reading back, possibly on a machine with another byte
order, gives back the same bytes in the original dtype. -/
theorem C24_round_trip (m m2 : Machine) (fo fo2 : FloatOps) (t : CStr) (od os : Order)
    (bs : List Byte) :
    ∃ mid, convElem m fo (od.char :: t) (os.char :: t) bs = some mid ∧
      convElem m2 fo2 (os.char :: t) (od.char :: t) mid = some bs := by
  refine ⟨_, C24_bytes m fo t od os bs, ?_⟩
  rw [C24_bytes]
  cases od <;> cases os <;> simp

/-- **C24**, through the API: a block whose dtype is `t` in one byte order, an array whose dtype is
`t` in another, a reader whose dtype is `t` in a third: what is read has the value that was
written. -/
theorem C24_read_back (env : Env) (bb bb2 : Block) (ptr ptr2 : Ptr) (a a2 : Arr) (mem mem2 : Mem)
    (p w nm : Nat) (t : CStr) (ob oa oa2 : Order) (wd w1 wd2 : World) (x : Xfer)
    (hbd : dtypeNormalize env.m bb.dtype = ob.char :: t) (had : a.dtype = oa.char :: t)
    (had2 : a2.dtype = oa2.char :: t)
    (hok : XferOk env bb a w w nm)
    (hdis : foreign env.m a.dtype = true → Disjoint a w)
    (hp : PointsTo bb ptr p) (hrange : p + a.size / nm ≤ bb.size)
    (hwrite : blockWrite env bb ptr a mem wd = .ok x w1) (hrc : x.rc = 0)
    (hshape : SameShape bb bb2) (hr : XferOk env bb2 a2 w w nm) (hdis2 : Disjoint a2 w)
    (hrows : a2.size / nm = a.size / nm) (hp2 : PointsTo bb2 ptr2 p)
    (hfs : wd2.fs = w1.fs) (hnf : wd2.faults = noFaults) :
    (∀ e, e < a.size / nm * nm → orderVal ob (elemOfRows env.m w1.fs bb p w nm e) =
      orderVal oa (peek mem (elemAddr a e) w)) ∧
    ∃ x2 w2, blockRead env bb2 ptr2 a2 mem2 wd2 = .ok x2 w2 ∧ x2.rc = 0 ∧
      ∀ e, e < a.size / nm * nm →
        orderVal oa2 (peek x2.mem (elemAddr a2 e) w) = orderVal oa (peek mem (elemAddr a e) w) := by
  have hw : LegalWrite env bb ptr a mem p w w nm
      (fun e => if ob = oa then peek mem (elemAddr a e) w else (peek mem (elemAddr a e) w).reverse) :=
    { ok := hok, dis := hdis, points := hp, range := hrange,
      conv := fun e _ => by rw [hbd, had]; exact C24_bytes _ _ _ _ _ _ }
  constructor
  · intro e he
    have hx := wpc_ok (hw.spec wd) hwrite
    obtain ⟨hd1, hd2, _⟩ := hx.done hrc
    rw [hd1, elemOfRows_putRows env.m bb wd.fs p _ w nm _ hw.ok.rowSize hw.ok.memb0
      (fun e he => hw.stored_length e he) hd2 e he]
    cases ob <;> cases oa <;> simp [orderVal]
  · obtain ⟨x2, w2, h1, h2, h3⟩ := C03_read_back env bb bb2 ptr ptr2 a a2 mem mem2 p w w w nm _
      (fun e => if oa2 = oa then peek mem (elemAddr a e) w else (peek mem (elemAddr a e) w).reverse)
      wd w1 wd2 x hw hwrite hrc hshape hr hdis2 hrows hp2 hfs hnf
      (by
        intro e _
        rw [hbd, had2, C24_bytes]
        cases ob <;> cases oa <;> cases oa2 <;> simp)
    refine ⟨x2, w2, h1, h2, ?_⟩
    intro e he
    rw [h3 e he]
    cases oa <;> cases oa2 <;> simp [orderVal]

-- a big-endian reader of a little-endian block
example : dtypeNormalize exEnv.m exBlock.dtype = Order.little.char :: b!"i4" ∧
    exDst.dtype = Order.big.char :: b!"i4" := by decide

/-- C24 does not extend to complex numbers: converting `<c8` to `>c8` exchanges the real and the
imaginary part, because all eight bytes are reversed (the value read back is nevertheless right).
Here the pair (1, 2) of little-endian words becomes the pair (2, 1) of big-endian words. -/
theorem C24_complex (fo : FloatOps) :
    convElem ⟨true, true⟩ fo b!">c8" b!"<c8" [1, 0, 0, 0, 2, 0, 0, 0] =
      some [0, 0, 0, 2, 0, 0, 0, 1] :=
  C24_bytes ⟨true, true⟩ fo b!"c8" .big .little _

/-! ## C26 -/

/-- The name of a dtype without a leading byte order. -/
def Spec.bare : CStr → CStr
  | 60 :: t => t
  | 62 :: t => t
  | 61 :: t => t
  | 124 :: t => t
  | t => t

/-- The explicit byte order of a dtype string, if it has one. -/
def Spec.explicitOrder : CStr → Option Byte
  | 60 :: _ => some 60
  | 62 :: _ => some 62
  | _ => none

/-- **C26.** The normal form of a dtype string is its explicit byte order, or the machine's if it has
none, followed by its name (cut to the six characters that fit the buffer). -/
theorem C26_normal_form (m : Machine) (s : CStr) :
    dtypeNormalize m s = (explicitOrder s).getD m.endian :: (bare s).take 6 := by
  by_cases h1 : s.head? = some 60
  · obtain ⟨t, rfl⟩ : ∃ t, s = 60 :: t := by cases s <;> simp_all
    rfl
  by_cases h2 : s.head? = some 62
  · obtain ⟨t, rfl⟩ : ∃ t, s = 62 :: t := by cases s <;> simp_all
    rfl
  by_cases h3 : s.head? = some 61
  · obtain ⟨t, rfl⟩ : ∃ t, s = 61 :: t := by cases s <;> simp_all
    rfl
  by_cases h4 : s.head? = some 124
  · obtain ⟨t, rfl⟩ : ∃ t, s = 124 :: t := by cases s <;> simp_all
    rfl
  rw [normalize_none m s ⟨h1, h2, h3, h4⟩]
  have e1 : explicitOrder s = none := by
    unfold explicitOrder; split <;> simp_all
  have e2 : bare s = s := by
    unfold bare; split <;> simp_all
  rw [e1, e2]
  rfl

/-- C26: normalising twice is normalising once; kind and item size of a dtype are those of its normal
form; the normal form starts with a byte order. -/
theorem C26_canonical (m : Machine) (s : CStr) :
    dtypeNormalize m (dtypeNormalize m s) = dtypeNormalize m s ∧
    dtypeKind m (dtypeNormalize m s) = dtypeKind m s ∧
    itemsize m (dtypeNormalize m s) = itemsize m s ∧
    ((dtypeNormalize m s).head? = some 60 ∨ (dtypeNormalize m s).head? = some 62) := by
  refine ⟨normalize_idem m s, ?_, itemsize_normalize m s, ?_⟩
  · unfold dtypeKind; rw [normalize_idem]
  · obtain ⟨c, t, h, hc, _⟩ := normalize_form m s
    rw [h]
    simpa using hc

/-- C26: kind and item size do not depend on the byte order written in front of the name, nor on
the machine: they are the first character and the number after it. -/
theorem C26_kind_width (m : Machine) (s : CStr) (hlen : (bare s).length ≤ 6) :
    dtypeKind m s = charAt (bare s) 0 ∧ itemsize m s = atoi ((bare s).drop 1) := by
  unfold dtypeKind itemsize
  rw [C26_normal_form, List.take_of_length_le hlen]
  exact ⟨by unfold charAt; simp, by simp⟩

-- six equivalent spellings on a little-endian machine
example : dtypeNormalize ⟨true, true⟩ b!"f8" = b!"<f8" ∧ dtypeNormalize ⟨true, true⟩ b!"=f8" = b!"<f8" ∧
    dtypeNormalize ⟨true, true⟩ b!"|f8" = b!"<f8" ∧ dtypeNormalize ⟨true, true⟩ b!"<f8" = b!"<f8" ∧
    dtypeNormalize ⟨true, true⟩ b!">f8" = b!">f8" ∧ itemsize ⟨false, true⟩ b!"|S16" = 16 ∧
    dtypeKind ⟨false, true⟩ b!"c16" = 99 := by decide

end Verif
