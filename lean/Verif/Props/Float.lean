import Verif.Proof.Float
import Verif.Props.Convert
/-!
# C69: floating point conversions
-/

set_option autoImplicit false

namespace Verif

open Spec

/-- **C69**, one element: between any two numeric types in any byte orders, a number that the new type can represent is
stored as that number. -/
theorem C69_exact (m : Machine) (fo : FloatOps) (hfo : CFloat fo) (d s : NumTy) (od os : Order) (bs : List Byte) (v : Rat)
    (hl : bs.length = s.width) (hv : numVal os s bs = some v) (h : d.holds v) :
    ∃ out, convElem m fo (d.dtype od) (s.dtype os) bs = some out ∧ out.length = d.width ∧ numVal od d out = some v :=
  convElem_exact m fo hfo d s od os bs v hl hv h

/-- **C69**, to integers: the fractional part is discarded. -/
theorem C69_toward0 (m : Machine) (fo : FloatOps) (hfo : CFloat fo) (d : IntTy) (s : NumTy) (od os : Order) (bs : List Byte)
    (v : Rat) (hl : bs.length = s.width) (hv : numVal os s bs = some v) (h : d.holds (toward0 v)) :
    ∃ out, convElem m fo (d.dtype od) (s.dtype os) bs = some out ∧ out.length = d.width ∧ intVal od d out = toward0 v :=
  convElem_toward0 m fo hfo d s od os bs v hl hv h

/-- **C69**, truth values: an element of type `b1` becomes, in any numeric type that can represent it, the number its byte stands for; in
particular the truth values become 0 and 1 in every numeric type. -/
theorem C69_bool (m : Machine) (fo : FloatOps) (hfo : CFloat fo) (d : NumTy) (od os : Order) :
    (∀ c : Byte, d.holds (charVal m.charSigned c : Rat) →
      ∃ out, convElem m fo (d.dtype od) (os.char :: b!"b1") [c] = some out ∧ out.length = d.width ∧
        numVal od d out = some (charVal m.charSigned c : Rat)) ∧
    ∀ b : Bool, ∃ out, convElem m fo (d.dtype od) (os.char :: b!"b1") [if b then 1 else 0] = some out ∧ out.length = d.width ∧
      numVal od d out = some (if b then 1 else 0) := by
  refine ⟨fun c h => convElem_bool m fo hfo d od os c h, fun b => ?_⟩
  have hv : charVal m.charSigned (if b then 1 else 0) = if b then 1 else 0 := by
    unfold charVal
    cases b <;> cases m.charSigned <;> decide
  obtain ⟨out, h1, h2, h3⟩ := convElem_bool m fo hfo d od os (if b then 1 else 0) (by
    rw [hv]
    cases d with
    | int t =>
      rw [holds_int]
      cases t <;> cases b <;> (unfold IntTy.holds; decide)
    | f4 => rw [holds_pat]; exact int_is_ieee 23 8 (by omega) (by omega) _ (by cases b <;> decide)
    | f8 => rw [holds_pat]; exact int_is_ieee 52 11 (by omega) (by omega) _ (by cases b <;> decide))
  refine ⟨out, h1, h2, ?_⟩
  rw [h3, hv]
  cases b <;> rfl

/-- A `double` can represent every `float`, every 32 bit integer and every integer of at most 53 bits; a `float` can represent
every integer of at most 24 bits. -/
theorem C69_representable :
    (∀ v, NumTy.f4.holds v → NumTy.f8.holds v) ∧
    (∀ x, IntTy.i4.holds x ∨ IntTy.u4.holds x → NumTy.f8.holds (x : Rat)) ∧
    (∀ x : Int, x.natAbs ≤ 2 ^ 53 → NumTy.f8.holds (x : Rat)) ∧
    (∀ x : Int, x.natAbs ≤ 2 ^ 24 → NumTy.f4.holds (x : Rat)) := by
  have h53 : ∀ x : Int, x.natAbs ≤ 2 ^ 53 → NumTy.f8.holds (x : Rat) := by
    intro x hx
    rw [holds_pat]
    exact int_is_ieee 52 11 (by omega) (by omega) x hx
  refine ⟨?_, ?_, h53, ?_⟩
  · intro v h
    rw [holds_pat] at h ⊢
    obtain ⟨n, _, hn⟩ := h
    exact f4_is_f8 n v hn
  · intro x hx
    apply h53
    simp [IntTy.holds, IntTy.signed, IntTy.width] at hx
    omega
  · intro x hx
    rw [holds_pat]
    exact int_is_ieee 23 8 (by omega) (by omega) x hx

/-- Not every integer of 64 bits is a `double`: the least that is not is 2^53 + 1. -/
theorem C69_not_representable : ¬ NumTy.f8.holds ((2 ^ 53 + 1 : Int) : Rat) := by
  intro h
  rw [holds_pat] at h
  obtain ⟨b, _, hb⟩ := h
  obtain ⟨neg, n, k, hn, hk, hv⟩ := ieeeValue_shape 52 11 b (by omega) _ hb
  have hint : ∀ (a : Int) (j : Nat), ((2 ^ 53 + 1 : Int) : Rat) = (a : Rat) * (2 : Rat) ^ ((j : Int) + 1) → False := by
    intro a j hv
    have e : (2 : Rat) ^ ((j : Int) + 1) = ((2 ^ (j + 1) : Int) : Rat) := by
      rw [show (j : Int) + 1 = ((j + 1 : Nat) : Int) from rfl, Rat.zpow_natCast, Rat.intCast_pow]
      rfl
    rw [e, ← Rat.intCast_mul] at hv
    have := Rat.intCast_inj.mp hv
    rw [Int.pow_succ 2 j] at this
    generalize (2 : Int) ^ j = q at this
    rw [← Int.mul_assoc] at this
    omega
  by_cases hk' : 1075 ≤ k
  · apply hint ((if neg then -1 else 1 : Int) * (n : Int)) (k - 1075)
    rw [hv, show (1 - ((2 ^ (11 - 1) - 1 : Nat) : Int) - (52 : Nat) + k) = ((k - 1075 : Nat) : Int) + 1 by omega]
  · have e : (1 - ((2 ^ (11 - 1) - 1 : Nat) : Int) - (52 : Nat) + k) = -((1074 - k : Nat) : Int) := by omega
    rw [e, Rat.zpow_neg, Rat.zpow_natCast] at hv
    generalize 1074 - k = j at hv
    have hq : (2 : Rat) ^ j ≠ 0 := Rat.ne_of_gt (Rat.pow_pos (by decide))
    have h2 : ((2 ^ 53 + 1 : Int) : Rat) * (2 : Rat) ^ j = (((if neg then -1 else 1 : Int) * (n : Int) : Int) : Rat) := by
      rw [hv, Rat.mul_assoc, Rat.inv_mul_cancel _ hq, Rat.mul_one]
    have e3 : (2 : Rat) ^ j = ((2 ^ j : Int) : Rat) := by
      rw [Rat.intCast_pow]
      rfl
    rw [e3, ← Rat.intCast_mul] at h2
    have h4 := Rat.intCast_inj.mp h2
    have hpos : (1 : Int) ≤ 2 ^ j := Int.pow_pos (by decide)
    have : (2 ^ 53 + 1 : Int) * 1 ≤ (2 ^ 53 + 1 : Int) * 2 ^ j := Int.mul_le_mul_of_nonneg_left hpos (by decide)
    rw [h4] at this
    cases neg <;> simp at this <;> omega

/-- C69: `i4 -> f8 -> i4`, `u4 -> f8 -> u4` and, up to 53 bits, `i8 -> f8 -> i8` and `u8 -> f8 -> u8`, as well as, up to 24 bits,
any integer type through `f4`, give back the very bytes. -/
theorem C69_round_trip (m : Machine) (fo : FloatOps) (hfo : CFloat fo) (s : IntTy) (d : NumTy) (os od : Order) (bs : List Byte)
    (hl : bs.length = s.width)
    (hsd : (d = .f8 ∧ (s.width = 4 ∨ (intVal os s bs).natAbs ≤ 2 ^ 53)) ∨ (d = .f4 ∧ (intVal os s bs).natAbs ≤ 2 ^ 24)) :
    ∃ mid, convElem m fo (d.dtype od) (s.dtype os) bs = some mid ∧
      convElem m fo (s.dtype os) (d.dtype od) mid = some bs := by
  obtain ⟨_, r2, r3, r4⟩ := C69_representable
  have hs := intVal_holds os s bs hl
  have hd : d.holds (intVal os s bs : Rat) := by
    rcases hsd with ⟨rfl, h | h⟩ | ⟨rfl, h⟩
    · apply r2
      cases s
      · exact .inl hs
      · exact .inr hs
      · exact absurd h (by decide)
      · exact absurd h (by decide)
    · exact r3 _ h
    · exact r4 _ h
  obtain ⟨mid, h1, h2, h3⟩ := C69_exact m fo hfo d (.int s) od os bs _ hl rfl hd
  obtain ⟨out, k1, k2, k3⟩ := C69_exact m fo hfo (.int s) d os od mid _ h2 h3 ((holds_int _ _).mpr hs)
  refine ⟨mid, h1, ?_⟩
  have e : intVal os s out = intVal os s bs := Rat.intCast_inj.mp (Option.some.inj k3)
  rw [show s.dtype os = (NumTy.int s).dtype os from rfl, k1, intVal_inj os s out bs k2 hl e]

/-- **C69**, through the API: after a write of a numeric array into a numeric block that returned 0, every element of the
array that the block's type can represent is stored as that number; the fractional part of an element may be discarded when the
block has an integer type, and nothing else happens to it. The write is not defined if some element is out of the range of
the integer type, so that must not happen (`hfit`). -/
theorem C69_stored (env : Env) (bb : Block) (ptr : Ptr) (a : Arr) (mem : Mem) (p nm : Nat)
    (s d : NumTy) (os od : Order) (wd w1 : World) (x : Xfer) (hfo : CFloat env.fo)
    (hbd : dtypeNormalize env.m bb.dtype = d.dtype od) (had : a.dtype = s.dtype os)
    (hok : XferOk env bb a d.width s.width nm)
    (hdis : foreign env.m a.dtype = true → Disjoint a s.width)
    (hp : PointsTo bb ptr p) (hrange : p + a.size / nm ≤ bb.size)
    (hfit : ∀ t, d = .int t → ∀ e, e < a.size / nm * nm →
      ∃ v, numVal os s (peek mem (elemAddr a e) s.width) = some v ∧ t.holds (toward0 v))
    (hwrite : blockWrite env bb ptr a mem wd = .ok x w1) (hrc : x.rc = 0)
    (e : Nat) (he : e < a.size / nm * nm) (v : Rat)
    (hv : numVal os s (peek mem (elemAddr a e) s.width) = some v) :
    let dst := numVal od d (elemOfRows env.m w1.fs bb p d.width nm e)
    (d.holds v → dst = some v) ∧ (∀ t, d = .int t → dst = some (toward0 v : Rat)) := by
  have hc : ∀ e, e < a.size / nm * nm → ∃ out, convElem env.m env.fo (dtypeNormalize env.m bb.dtype) a.dtype
      (peek mem (elemAddr a e) s.width) = some out ∧
      ∀ v, numVal os s (peek mem (elemAddr a e) s.width) = some v →
        (d.holds v → numVal od d out = some v) ∧ (∀ t, d = .int t → numVal od d out = some (toward0 v : Rat)) := by
    intro e he
    rw [hbd, had]
    by_cases hex : ∃ v, numVal os s (peek mem (elemAddr a e) s.width) = some v ∧ d.holds v
    · obtain ⟨v, hv, hd⟩ := hex
      obtain ⟨out, h1, h2, h3⟩ := C69_exact env.m env.fo hfo d s od os _ v (peek_length _ _ _) hv hd
      refine ⟨out, h1, ?_⟩
      intro v' hv'
      have : v' = v := Option.some.inj (hv'.symm.trans hv)
      subst this
      refine ⟨fun _ => h3, ?_⟩
      rintro t rfl
      obtain ⟨y, rfl, _⟩ := holds_int_iff t _ hd
      rw [toward0_int]
      exact h3
    · cases d with
      | int t =>
        obtain ⟨v, hv, ht⟩ := hfit t rfl e he
        obtain ⟨out, h1, h2, h3⟩ := C69_toward0 env.m env.fo hfo t s od os _ v (peek_length _ _ _) hv ht
        refine ⟨out, h1, ?_⟩
        intro v' hv'
        have : v' = v := Option.some.inj (hv'.symm.trans hv)
        subst this
        refine ⟨fun h => absurd ⟨v', hv', h⟩ hex, ?_⟩
        rintro t' ht'
        cases ht'
        simp only [numVal, h3]
      | f4 =>
        by_cases hds : s = .f4
        · subst hds
          refine ⟨_, C24_bytes _ _ _ _ _ _, ?_⟩
          intro v' hv'
          exact ⟨fun h => absurd ⟨v', hv', h⟩ hex, fun t ht => absurd ht (by simp)⟩
        · rw [convElem_num _ _ _ _ _ _ _ (Ne.symm hds)]
          exact ⟨_, rfl, fun v' hv' => ⟨fun h => absurd ⟨v', hv', h⟩ hex, fun t ht => absurd ht (by simp)⟩⟩
      | f8 =>
        by_cases hds : s = .f8
        · subst hds
          refine ⟨_, C24_bytes _ _ _ _ _ _, ?_⟩
          intro v' hv'
          exact ⟨fun h => absurd ⟨v', hv', h⟩ hex, fun t ht => absurd ht (by simp)⟩
        · rw [convElem_num _ _ _ _ _ _ _ (Ne.symm hds)]
          exact ⟨_, rfl, fun v' hv' => ⟨fun h => absurd ⟨v', hv', h⟩ hex, fun t ht => absurd ht (by simp)⟩⟩
  have hw : LegalWrite env bb ptr a mem p d.width s.width nm (fun e => if h : e < a.size / nm * nm then (hc e h).choose else []) :=
    { ok := hok, dis := hdis, points := hp, range := hrange,
      conv := fun e he => by
        rw [dif_pos he]
        exact (hc e he).choose_spec.1 }
  have hx := wpc_ok (hw.spec wd) hwrite
  obtain ⟨hd1, hd2, _⟩ := hx.done hrc
  have hel : elemOfRows env.m w1.fs bb p d.width nm e = (hc e he).choose := by
    rw [hd1]
    have := elemOfRows_putRows env.m bb wd.fs p _ d.width nm _ hw.ok.rowSize hw.ok.memb0
      (fun e he => hw.stored_length e he) hd2 e he
    simp only [dif_pos he] at this
    exact this
  intro dst
  have h := (hc e he).choose_spec.2 v hv
  rw [← hel] at h
  exact h

/-- **C69**, through a file: numbers written from an array of type `s` to a block of type `d` and read into an array of type
`s2` come back as the same numbers if all three types can represent them. -/
theorem C69_read_back (env : Env) (bb bb2 : Block) (ptr ptr2 : Ptr) (a a2 : Arr) (mem mem2 : Mem) (p nm : Nat)
    (s d s2 : NumTy) (os od os2 : Order) (wd w1 wd2 : World) (x : Xfer) (hfo : CFloat env.fo) (v : Nat → Rat)
    (hbd : dtypeNormalize env.m bb.dtype = d.dtype od) (had : a.dtype = s.dtype os) (had2 : a2.dtype = s2.dtype os2)
    (hok : XferOk env bb a d.width s.width nm)
    (hdis : foreign env.m a.dtype = true → Disjoint a s.width)
    (hp : PointsTo bb ptr p) (hrange : p + a.size / nm ≤ bb.size)
    (hv : ∀ e, e < a.size / nm * nm → numVal os s (peek mem (elemAddr a e) s.width) = some (v e) ∧ d.holds (v e) ∧ s2.holds (v e))
    (hwrite : blockWrite env bb ptr a mem wd = .ok x w1) (hrc : x.rc = 0)
    (hshape : SameShape bb bb2) (hr : XferOk env bb2 a2 d.width s2.width nm) (hdis2 : Disjoint a2 s2.width)
    (hrows : a2.size / nm = a.size / nm) (hp2 : PointsTo bb2 ptr2 p)
    (hfs : wd2.fs = w1.fs) (hnf : wd2.faults = noFaults) :
    ∃ x2 w2, blockRead env bb2 ptr2 a2 mem2 wd2 = .ok x2 w2 ∧ x2.rc = 0 ∧
      ∀ e, e < a.size / nm * nm → numVal os2 s2 (peek x2.mem (elemAddr a2 e) s2.width) = some (v e) := by
  have hc : ∀ e, e < a.size / nm * nm → ∃ mid out, convElem env.m env.fo (dtypeNormalize env.m bb.dtype) a.dtype
      (peek mem (elemAddr a e) s.width) = some mid ∧
      convElem env.m env.fo a2.dtype (dtypeNormalize env.m bb.dtype) mid = some out ∧ numVal os2 s2 out = some (v e) := by
    intro e he
    obtain ⟨h1, h2, h3⟩ := hv e he
    obtain ⟨mid, k1, k2, k3⟩ := C69_exact env.m env.fo hfo d s od os _ _ (peek_length _ _ _) h1 h2
    obtain ⟨out, j1, j2, j3⟩ := C69_exact env.m env.fo hfo s2 d os2 od _ _ k2 k3 h3
    exact ⟨mid, out, by rw [hbd, had]; exact k1, by rw [hbd, had2]; exact j1, j3⟩
  have hw : LegalWrite env bb ptr a mem p d.width s.width nm (fun e => if h : e < a.size / nm * nm then (hc e h).choose else []) :=
    { ok := hok, dis := hdis, points := hp, range := hrange,
      conv := fun e he => by
        rw [dif_pos he]
        exact (hc e he).choose_spec.choose_spec.1 }
  obtain ⟨x2, w2, h1, h2, h3⟩ := C03_read_back env bb bb2 ptr ptr2 a a2 mem mem2 p d.width s.width s2.width nm _
    (fun e => if h : e < a.size / nm * nm then (hc e h).choose_spec.choose else [])
    wd w1 wd2 x hw hwrite hrc hshape hr hdis2 hrows hp2 hfs hnf
    (by
      intro e he
      simp only [dif_pos he]
      exact (hc e he).choose_spec.choose_spec.2.1)
  refine ⟨x2, w2, h1, h2, ?_⟩
  intro e he
  rw [h3 e he, dif_pos he]
  exact (hc e he).choose_spec.choose_spec.2.2

/-! There are such conversions. -/

/-- The pattern of a number, if there is one. -/
noncomputable def pickPat (val : Nat → Option Rat) (v : Option Rat) : Nat :=
  open Classical in if h : ∃ c, v.isSome = true ∧ val c = v then h.choose else 0

theorem pickPat_spec (val : Nat → Option Rat) (v : Rat) (c : Nat) (h : val c = some v) : val (pickPat val (some v)) = some v := by
  have hex : ∃ c, (some v).isSome = true ∧ val c = some v := ⟨c, rfl, h⟩
  unfold pickPat
  rw [dif_pos hex]
  exact hex.choose_spec.2

noncomputable def exFloatOps : FloatOps where
  f4OfInt x := pickPat f4Value (some (x : Rat))
  f8OfInt x := pickPat f8Value (some (x : Rat))
  f8OfF4 b := pickPat f8Value (f4Value b)
  f4OfF8 b := pickPat f4Value (f8Value b)
  intOfF4 b := (f4Value b).map toward0
  intOfF8 b := (f8Value b).map toward0

theorem exFloatOps_ok : CFloat exFloatOps where
  f8OfF4 b c v h1 h2 := by
    show f8Value (pickPat f8Value (f4Value b)) = _
    rw [h1]; exact pickPat_spec _ v c h2
  f4OfF8 b c v h1 h2 := by
    show f4Value (pickPat f4Value (f8Value b)) = _
    rw [h1]; exact pickPat_spec _ v c h2
  f4OfInt x c h := pickPat_spec _ _ c h
  f8OfInt x c h := pickPat_spec _ _ c h
  intOfF4 b v h := by simp [exFloatOps, h]
  intOfF8 b v h := by simp [exFloatOps, h]

-- 1.5 and -0.1 as `float`, 2.5 as a big-endian `double`, the smallest `float`, an infinity
example : numVal .little .f4 [0, 0, 192, 63] = some (3 / 2) ∧
    numVal .little .f4 [205, 204, 204, 189] = some (-13421773 / 134217728) ∧
    numVal .big .f8 [64, 4, 0, 0, 0, 0, 0, 0] = some (5 / 2) ∧
    numVal .little .f4 [0, 0, 128, 127] = none ∧
    toward0 (-5 / 2) = -2 ∧ toward0 (5 / 2) = 2 := by decide +kernel
-- 3/2 is representable in both floating point types, not in an integer type
example : NumTy.f4.holds (3 / 2) := ⟨[0, 0, 192, 63], rfl, by decide +kernel⟩

-- the hypotheses of `C69_stored` and `C69_read_back`: doubles 1.5, 1.5, 1.5 with a stride of 16 bytes, to a block of floats
noncomputable def exEnvF : Env := { exEnv with fo := exFloatOps }

def exBlockF : Block := { exBlock with dtype := b!"<f4" }

def exSrcF : Arr := { exSrc with dtype := b!"<f8" }

def exMemF : Mem := fun x => if x % 16 = 10 then 248 else if x % 16 = 11 then 63 else 0

example : XferOk exEnvF exBlockF exSrcF NumTy.f4.width NumTy.f8.width 1 :=
  { layout := ⟨exBlock_layout.1, exBlock_layout.2, exBlock_layout.3, exBlock_layout.4, exBlock_layout.5, exBlock_layout.6⟩,
    item := by decide, item0 := by decide, memb := rfl, memb0 := by decide,
    felInt := by decide, buf := by decide, bufMax := by decide, offs := by decide,
    arr := ⟨by decide, rfl, by decide, by decide, by decide⟩, asize := by decide, anorm := by decide,
    aitem := by decide, aitem0 := by decide, abytes := by decide }

example : CFloat exEnvF.fo ∧ dtypeNormalize exEnvF.m exBlockF.dtype = NumTy.f4.dtype .little ∧
    exSrcF.dtype = NumTy.f8.dtype .little ∧
    ∀ e, e < exSrcF.size / 1 * 1 → numVal .little .f8 (peek exMemF (elemAddr exSrcF e) 8) = some (3 / 2) := by
  refine ⟨exFloatOps_ok, by decide, by decide, ?_⟩
  decide +kernel

end Verif
