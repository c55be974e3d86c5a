import Verif.Spec.Complex
import Verif.Props.Float
/-!
# C80: complex numbers
-/

set_option autoImplicit false

namespace Verif

open Spec

theorem foreign_char (m : Machine) (o : Order) (t : CStr) : foreign m (o.char :: t) = decide (o.char ≠ m.endian) := by
  unfold foreign charAt
  cases h : (o.char != m.endian) <;> simp_all [bne]

theorem foreign_iff (m : Machine) (o o' : Order) (t t' : CStr) : (foreign m (o.char :: t) = foreign m (o'.char :: t')) ↔ o = o' := by
  rw [foreign_char, foreign_char]
  unfold Machine.endian
  cases o <;> cases o' <;> cases m.le <;> simp [Order.char]

theorem toNative_append (m : Machine) (o : Order) (t t' : CStr) (a b : List Byte) :
    toNative m (o.char :: t) (a ++ b) =
      if foreign m (o.char :: t) then toNative m (o.char :: t') b ++ toNative m (o.char :: t') a
      else toNative m (o.char :: t') a ++ toNative m (o.char :: t') b := by
  have h : foreign m (o.char :: t') = foreign m (o.char :: t) := by rw [foreign_char, foreign_char]
  unfold toNative
  rw [h]
  split <;> simp

/-- What `cast` does with one part, in native order. -/
def castPart (m : Machine) (fo : FloatOps) (d s : CplxTy) (bs : List Byte) : List Byte :=
  match d, s with
  | .c8, .c16 => natEnc m 4 (fo.f4OfF8 (natDec m bs))
  | .c16, .c8 => natEnc m 8 (fo.f8OfF4 (natDec m bs))
  | _, _ => bs

theorem castPart_num (m : Machine) (fo : FloatOps) (d s : CplxTy) (od os : Order) (bs : List Byte) :
    convElem m fo (d.part.dtype od) (s.part.dtype os) bs =
      some (toNative m (d.part.dtype od) (castPart m fo d s (toNative m (s.part.dtype os) bs))) := by
  cases d <;> cases s
  · rfl
  · exact convElem_num m fo .f4 .f8 od os bs (by decide)
  · exact convElem_num m fo .f8 .f4 od os bs (by decide)
  · rfl

/-- The parts are converted one by one; they are exchanged if the two byte orders differ. -/
theorem convElem_parts (m : Machine) (fo : FloatOps) (d s : CplxTy) (od os : Order) (re im re' im' : List Byte)
    (h1 : re.length = s.part.width) (h2 : im.length = s.part.width)
    (hre : convElem m fo (d.part.dtype od) (s.part.dtype os) re = some re') (him : convElem m fo (d.part.dtype od) (s.part.dtype os) im = some im') :
    convElem m fo (d.dtype od) (s.dtype os) (re ++ im) = some (if os = od then re' ++ im' else im' ++ re') := by
  rw [castPart_num] at hre him
  obtain rfl := Option.some.inj hre
  obtain rfl := Option.some.inj him
  have hcast : ∀ a b : List Byte, a.length = s.part.width → b.length = s.part.width →
      (if (d.dtype od).drop 1 = (s.dtype os).drop 1 then some (a ++ b)
        else (castTable m fo ((d.dtype od).drop 1) ((s.dtype os).drop 1)).bind fun c => c.f (a ++ b)) =
      some (castPart m fo d s a ++ castPart m fo d s b) := by
    intro a b ha hb
    show (if d.name = s.name then _ else (castTable m fo d.name s.name).bind _) = _
    cases d <;> cases s
    · rfl
    · rw [if_neg (by decide)]
      have e : castTable m fo (CplxTy.name .c8) (CplxTy.name .c16) = some ⟨16, 8, fun bs =>
        some (natEnc m 4 (fo.f4OfF8 (natDec m (bs.take 8))) ++ natEnc m 4 (fo.f4OfF8 (natDec m (bs.drop 8))))⟩ := rfl
      rw [e]
      have ha' : a.length = 8 := ha
      show some (_ ++ _) = _
      rw [List.take_left' ha', List.drop_left' ha']
      rfl
    · rw [if_neg (by decide)]
      have e : castTable m fo (CplxTy.name .c16) (CplxTy.name .c8) = some ⟨8, 16, fun bs =>
        some (natEnc m 8 (fo.f8OfF4 (natDec m (bs.take 4))) ++ natEnc m 8 (fo.f8OfF4 (natDec m (bs.drop 4))))⟩ := rfl
      rw [e]
      have ha' : a.length = 4 := ha
      show some (_ ++ _) = _
      rw [List.take_left' ha', List.drop_left' ha']
      rfl
    · rfl
  unfold convElem
  dsimp only
  rw [show s.dtype os = os.char :: s.name from rfl, toNative_append m os s.name s.part.name]
  have l1 : (toNative m (os.char :: s.part.name) re).length = s.part.width := by rw [toNative_length, h1]
  have l2 : (toNative m (os.char :: s.part.name) im).length = s.part.width := by rw [toNative_length, h2]
  have hiff := foreign_iff m os od s.name d.name
  by_cases ho : os = od
  · rw [if_pos ho]
    have hf := hiff.mpr ho
    by_cases hs : foreign m (os.char :: s.name) = true
    · rw [if_pos hs]
      erw [hcast _ _ l2 l1]
      rw [Option.map_some, show d.dtype od = od.char :: d.name from rfl, toNative_append m od d.name d.part.name, ← hf, if_pos hs]
      rfl
    · rw [if_neg hs]
      erw [hcast _ _ l1 l2]
      rw [Option.map_some, show d.dtype od = od.char :: d.name from rfl, toNative_append m od d.name d.part.name, ← hf, if_neg hs]
      rfl
  · rw [if_neg ho]
    have hf : ¬ foreign m (os.char :: s.name) = foreign m (od.char :: d.name) := fun h => ho (hiff.mp h)
    by_cases hs : foreign m (os.char :: s.name) = true
    · rw [if_pos hs]
      have hd : ¬ foreign m (od.char :: d.name) = true := fun h => hf (by rw [hs, h])
      erw [hcast _ _ l2 l1]
      rw [Option.map_some, show d.dtype od = od.char :: d.name from rfl, toNative_append m od d.name d.part.name, if_neg hd]
      rfl
    · rw [if_neg hs]
      have hd : foreign m (od.char :: d.name) = true := by
        cases h : foreign m (od.char :: d.name) with
        | true => rfl
        | false => exact absurd (by rw [h]; exact Bool.eq_false_iff.mpr hs) hf
      erw [hcast _ _ l1 l2]
      rw [Option.map_some, show d.dtype od = od.char :: d.name from rfl, toNative_append m od d.name d.part.name, if_pos hd]
      rfl

/-- **C80**, one element (partial: the two byte orders must be the same; if they are not, the real and the imaginary part are exchanged): between
the two complex types, a complex number that the new type can represent is stored as that number. -/
theorem C80_value (m : Machine) (fo : FloatOps) (hfo : CFloat fo) (d s : CplxTy) (od os : Order) (bs : List Byte) (v : Rat × Rat)
    (hl : bs.length = s.width) (hv : cplxVal os s bs = some v) (h : d.holds v) :
    ∃ out, convElem m fo (d.dtype od) (s.dtype os) bs = some out ∧ out.length = d.width ∧ cplxVal od d out = some (exchanged (os ≠ od) v) := by
  have hw : s.width = s.part.width + s.part.width := Nat.two_mul _
  have l1 : (bs.take s.part.width).length = s.part.width := by rw [List.length_take]; omega
  have l2 : (bs.drop s.part.width).length = s.part.width := by rw [List.length_drop]; omega
  unfold cplxVal at hv
  cases hr : numVal os s.part (bs.take s.part.width) with
  | none => rw [hr] at hv; cases hv
  | some re =>
    cases hi : numVal os s.part (bs.drop s.part.width) with
    | none => rw [hr, hi] at hv; cases hv
    | some im =>
      rw [hr, hi] at hv
      obtain rfl := Option.some.inj hv
      obtain ⟨re', e1, n1, v1⟩ := C69_exact m fo hfo d.part s.part od os _ re l1 hr h.1
      obtain ⟨im', e2, n2, v2⟩ := C69_exact m fo hfo d.part s.part od os _ im l2 hi h.2
      have := convElem_parts m fo d s od os _ _ re' im' l1 l2 e1 e2
      rw [List.take_append_drop] at this
      refine ⟨_, this, ?_, ?_⟩
      · unfold CplxTy.width
        split <;> rw [List.length_append] <;> omega
      · unfold cplxVal exchanged
        by_cases ho : os = od
        · rw [if_pos ho, if_neg (by simpa using ho), List.take_left' n1, List.drop_left' n1, v1, v2]
        · rw [if_neg ho, if_pos ho, List.take_left' n2, List.drop_left' n2, v1, v2]

/-- **C80**, through the API (partial: the file stands for the same number if it has the byte order of the array, otherwise for the number
with its real and imaginary part exchanged): after a write of a complex array into a complex block that returned 0. -/
theorem C80_stored_partial (env : Env) (bb : Block) (ptr : Ptr) (a : Arr) (mem : Mem) (p nm : Nat)
    (s d : CplxTy) (os od : Order) (wd w1 : World) (x : Xfer) (hfo : CFloat env.fo) (v : Nat → Rat × Rat)
    (hbd : dtypeNormalize env.m bb.dtype = d.dtype od) (had : a.dtype = s.dtype os)
    (hok : XferOk env bb a d.width s.width nm)
    (hdis : foreign env.m a.dtype = true → Disjoint a s.width)
    (hp : PointsTo bb ptr p) (hrange : p + a.size / nm ≤ bb.size)
    (hv : ∀ e, e < a.size / nm * nm → cplxVal os s (peek mem (elemAddr a e) s.width) = some (v e) ∧ d.holds (v e))
    (hwrite : blockWrite env bb ptr a mem wd = .ok x w1) (hrc : x.rc = 0) (e : Nat) (he : e < a.size / nm * nm) :
    cplxVal od d (elemOfRows env.m w1.fs bb p d.width nm e) = some (exchanged (os ≠ od) (v e)) := by
  have hc : ∀ e, e < a.size / nm * nm → ∃ out, convElem env.m env.fo (dtypeNormalize env.m bb.dtype) a.dtype
      (peek mem (elemAddr a e) s.width) = some out ∧ cplxVal od d out = some (exchanged (os ≠ od) (v e)) := by
    intro e he
    rw [hbd, had]
    obtain ⟨h1, h2⟩ := hv e he
    obtain ⟨out, k1, _, k3⟩ := C80_value env.m env.fo hfo d s od os _ _ (peek_length _ _ _) h1 h2
    exact ⟨out, k1, k3⟩
  have hw : LegalWrite env bb ptr a mem p d.width s.width nm (fun e => if h : e < a.size / nm * nm then (hc e h).choose else []) :=
    { ok := hok, dis := hdis, points := hp, range := hrange,
      conv := fun e he => by
        rw [dif_pos he]
        exact (hc e he).choose_spec.1 }
  have hx := wpc_ok (hw.spec wd) hwrite
  obtain ⟨hd1, hd2, _⟩ := hx.done hrc
  have hel : elemOfRows env.m w1.fs bb p d.width nm e = (hc e he).choose := by
    rw [hd1]
    have := elemOfRows_putRows env.m bb wd.fs p _ d.width nm _ hw.ok.rowSize hw.ok.memb0
      (fun e he => hw.stored_length e he) hd2 e he
    simp only [dif_pos he] at this
    exact this
  rw [hel]
  exact (hc e he).choose_spec.2

/-- **C80**, through a file (partial: as `C80_stored_partial`): numbers written from an array and read into another one come back as the same numbers if
the two arrays have the same byte order, whatever that of the block is; otherwise with their parts exchanged. -/
theorem C80_read_back_partial (env : Env) (bb bb2 : Block) (ptr ptr2 : Ptr) (a a2 : Arr) (mem mem2 : Mem) (p nm : Nat)
    (s d s2 : CplxTy) (os od os2 : Order) (wd w1 wd2 : World) (x : Xfer) (hfo : CFloat env.fo) (v : Nat → Rat × Rat)
    (hbd : dtypeNormalize env.m bb.dtype = d.dtype od) (had : a.dtype = s.dtype os) (had2 : a2.dtype = s2.dtype os2)
    (hok : XferOk env bb a d.width s.width nm)
    (hdis : foreign env.m a.dtype = true → Disjoint a s.width)
    (hp : PointsTo bb ptr p) (hrange : p + a.size / nm ≤ bb.size)
    (hv : ∀ e, e < a.size / nm * nm → cplxVal os s (peek mem (elemAddr a e) s.width) = some (v e) ∧ d.holds (v e) ∧ s2.holds (v e))
    (hwrite : blockWrite env bb ptr a mem wd = .ok x w1) (hrc : x.rc = 0)
    (hshape : SameShape bb bb2) (hr : XferOk env bb2 a2 d.width s2.width nm) (hdis2 : Disjoint a2 s2.width)
    (hrows : a2.size / nm = a.size / nm) (hp2 : PointsTo bb2 ptr2 p)
    (hfs : wd2.fs = w1.fs) (hnf : wd2.faults = noFaults) :
    ∃ x2 w2, blockRead env bb2 ptr2 a2 mem2 wd2 = .ok x2 w2 ∧ x2.rc = 0 ∧
      ∀ e, e < a.size / nm * nm → cplxVal os2 s2 (peek x2.mem (elemAddr a2 e) s2.width) = some (exchanged (os ≠ os2) (v e)) := by
  have hc : ∀ e, e < a.size / nm * nm → ∃ mid out, convElem env.m env.fo (dtypeNormalize env.m bb.dtype) a.dtype
      (peek mem (elemAddr a e) s.width) = some mid ∧
      convElem env.m env.fo a2.dtype (dtypeNormalize env.m bb.dtype) mid = some out ∧
      cplxVal os2 s2 out = some (exchanged (os ≠ os2) (v e)) := by
    intro e he
    obtain ⟨h1, h2, h3⟩ := hv e he
    obtain ⟨mid, k1, k2, k3⟩ := C80_value env.m env.fo hfo d s od os _ _ (peek_length _ _ _) h1 h2
    obtain ⟨out, j1, j2, j3⟩ := C80_value env.m env.fo hfo s2 d os2 od _ _ k2 k3 (by
      unfold exchanged; split
      · exact ⟨h3.2, h3.1⟩
      · exact h3)
    refine ⟨mid, out, by rw [hbd, had]; exact k1, by rw [hbd, had2]; exact j1, ?_⟩
    rw [j3]
    unfold exchanged
    cases os <;> cases od <;> cases os2 <;> rfl
  have hw : LegalWrite env bb ptr a mem p d.width s.width nm (fun e => if h : e < a.size / nm * nm then (hc e h).choose else []) :=
    { ok := hok, dis := hdis, points := hp, range := hrange,
      conv := fun e he => by
        rw [dif_pos he]
        exact (hc e he).choose_spec.choose_spec.1 }
  obtain ⟨x2, w2, h1, h2, h3⟩ := C03_read_back env bb bb2 ptr ptr2 a a2 mem mem2 p d.width s.width s2.width nm _
    (fun e => if h : e < a.size / nm * nm then (hc e h).choose_spec.choose else [])
    wd w1 wd2 x hw hwrite hrc hshape hr hdis2 hrows hp2 hfs hnf
    (by
      intro e he
      simp only [dif_pos he]
      exact (hc e he).choose_spec.choose_spec.2.1)
  refine ⟨x2, w2, h1, h2, ?_⟩
  intro e he
  rw [h3 e he, dif_pos he]
  exact (hc e he).choose_spec.choose_spec.2.2

/-- What fails: the number 3/2 - 2i, from little-endian to big-endian, stands for -2 + 3/2 i. -/
theorem C80_exchanged (m : Machine) (fo : FloatOps) :
    cplxVal .little .c8 [0, 0, 192, 63, 0, 0, 0, 192] = some (3 / 2, -2) ∧
    ∃ out, convElem m fo (CplxTy.dtype .c8 .big) (CplxTy.dtype .c8 .little) [0, 0, 192, 63, 0, 0, 0, 192] = some out ∧
      cplxVal .big .c8 out = some (-2, 3 / 2) := by
  refine ⟨by decide +kernel, _, C24_bytes _ _ _ _ _ _, by decide +kernel⟩

/-! The hypotheses of `C80_stored_partial` hold for numbers 3/2 - 2i of double precision one after the other, written to a block of single precision. -/

def exBlockC : Block := { exBlock with dtype := b!"<c8" }

def exSrcC : Arr := { exSrc with dtype := b!"<c16" }

def exMemC : Mem := fun x => if x % 16 = 10 then 248 else if x % 16 = 11 then 63 else if x % 16 = 3 then 192 else 0

example : XferOk exEnvF exBlockC exSrcC CplxTy.c8.width CplxTy.c16.width 1 :=
  { layout := ⟨exBlock_layout.1, exBlock_layout.2, exBlock_layout.3, exBlock_layout.4, exBlock_layout.5, exBlock_layout.6⟩,
    item := by decide, item0 := by decide, memb := rfl, memb0 := by decide,
    felInt := by decide, buf := by decide, bufMax := by decide, offs := by decide,
    arr := ⟨by decide, rfl, by decide, by decide, by decide⟩, asize := by decide, anorm := by decide,
    aitem := by decide, aitem0 := by decide, abytes := by decide }

example : CFloat exEnvF.fo ∧ dtypeNormalize exEnvF.m exBlockC.dtype = CplxTy.c8.dtype .little ∧
    exSrcC.dtype = CplxTy.c16.dtype .little ∧ CplxTy.c8.holds (3 / 2, -2) ∧
    ∀ e, e < exSrcC.size / 1 * 1 → cplxVal .little .c16 (peek exMemC (elemAddr exSrcC e) 16) = some (3 / 2, -2) := by
  refine ⟨exFloatOps_ok, by decide, by decide, ⟨⟨[0, 0, 192, 63], rfl, by decide +kernel⟩, ⟨[0, 0, 0, 192], rfl, by decide +kernel⟩⟩, ?_⟩
  decide +kernel

end Verif
