import Verif.Model.Tools
import Verif.Spec.Tools
import Verif.Proof.Cat
import Verif.Proof.Value
/-!
# Parsing and printing attribute values
-/

set_option autoImplicit false

namespace Verif

open Spec

variable {env : Env} {K : Kind} {bb : Block} {A : Content} {w : World}

/-! ## Integers -/

theorem startsDigit_nil : startsDigit 10 ([] : CStr) = false := rfl

theorem scanNum_intStr (x : Int) : scanNum 10 ((intStr x).length + 1) (intStr x) = some (decide (x < 0), x.natAbs, []) := by
  unfold intStr
  by_cases hx : x < 0
  · rw [if_pos hx, decide_eq_true hx]
    have := scanNum_neg x.natAbs ((45 :: decStr x.natAbs).length + 1) [] (by simp) startsDigit_nil
    rw [List.append_nil] at this
    exact this
  · rw [if_neg hx, decide_eq_false hx]
    have := scanNum_dec x.natAbs ((decStr x.natAbs).length + 1) [] (by omega) startsDigit_nil
    rw [List.append_nil] at this
    exact this

theorem intTy_itemsize (m : Machine) (t : IntTy) (o : Order) : itemsize m (t.dtype o) = t.width := by
  cases m with
  | mk le cs => cases t <;> cases o <;> cases le <;> cases cs <;> decide

theorem intTy_normal (m : Machine) (t : IntTy) (o : Order) : dtypeNormalize m (t.dtype o) = t.dtype o := by
  cases m with
  | mk le cs => cases t <;> cases o <;> cases le <;> cases cs <;> decide

theorem order_char (m : Machine) : m.order.char = m.endian := by
  unfold Machine.order Machine.endian
  cases m.le <;> rfl

theorem intTy_native (m : Machine) (t : IntTy) : dtypeNormalize m (61 :: (t.dtype m.order).drop 1) = t.dtype m.order := by
  cases m with
  | mk le cs => cases t <;> cases le <;> cases cs <;> decide

/-- What is stored for the decimal text of an integer. -/
theorem parseNative_int (sc : FloatScan) (t : IntTy) (o : Order) (x : Int) (h : t.holds x) :
    ∃ n : Nat, parseNative env sc (t.dtype o) (intStr x) = some (natEnc env.m t.width n) ∧
      ((n : Int) - x) % 2 ^ (8 * t.width) = 0 := by
  have hs := scanNum_intStr x
  have e1 : (if decide (x < 0) = true then -((x.natAbs : Nat) : Int) else (x.natAbs : Nat)) = x := by
    by_cases hx : x < 0
    · rw [if_pos (by simpa using hx)]; omega
    · rw [if_neg (by simpa using hx)]; omega
  cases t with
  | i4 =>
    refine ⟨u32 x, ?_, ?_⟩
    · show some (match scanInt (intStr x) with | some (x, _) => natEnc env.m 4 (u32 x) | none => []) = _
      simp only [IntTy.holds, IntTy.signed, IntTy.width] at h
      have := scanInt_intStr x [] (by simpa using h.1) (by simpa using h.2) startsDigit_nil
      rw [List.append_nil] at this
      rw [this]
      rfl
    · simp only [IntTy.width, u32]; omega
  | u4 =>
    simp only [IntTy.holds, IntTy.signed, IntTy.width] at h
    refine ⟨x.natAbs, ?_, ?_⟩
    · show some (match scanUInt (intStr x) with | some (x, _) => natEnc env.m 4 x | none => []) = _
      have := scanUInt_decStr x.natAbs [] (by simp at h; omega) startsDigit_nil
      rw [List.append_nil] at this
      rw [show intStr x = decStr x.natAbs by unfold intStr; rw [if_neg (by simp at h; omega)], this]
      rfl
    · simp at h
      simp only [IntTy.width]; omega
  | i8 =>
    refine ⟨u64 x, ?_, ?_⟩
    · show some (match scanNum 10 ((intStr x).length + 1) (intStr x) with
        | some (neg, v, _) => natEnc env.m 8 (u64 (clampLong (if neg then -(v : Int) else v)))
        | none => []) = _
      rw [hs]
      simp only
      rw [e1]
      simp only [IntTy.holds, IntTy.signed, IntTy.width] at h
      rw [clampLong_of_range (by simpa using h.1) (by simpa using h.2)]
      rfl
    · simp only [IntTy.width, u64]; omega
  | u8 =>
    simp only [IntTy.holds, IntTy.signed, IntTy.width] at h
    simp at h
    refine ⟨x.natAbs, ?_, ?_⟩
    · show some (match scanULong (intStr x) with | some (x, _) => natEnc env.m 8 x | none => []) = _
      unfold scanULong
      rw [hs]
      simp only
      rw [if_neg (by omega), if_neg (by simp; omega)]
      rfl
    · simp only [IntTy.width]; omega

theorem intVal_natEnc (m : Machine) (t : IntTy) (n : Nat) (x : Int) (hx : t.holds x) (h : ((n : Int) - x) % 2 ^ (8 * t.width) = 0) :
    intVal m.order t (natEnc m t.width n) = x := by
  have h1 : orderVal m.order (natEnc m t.width n) = n % 256 ^ t.width := by rw [← natDec_eq, natDec_natEnc]
  unfold intVal
  rw [h1]
  cases t <;> simp [IntTy.holds, IntTy.signed, IntTy.width] at * <;> (try split) <;> omega

/-- An integer is shown as its decimal text. -/
theorem elemText_int (t : IntTy) (o : Order) (bs : List Byte) (hl : bs.length = t.width) :
    elemText env (t.dtype o) bs = intStr (intVal o t bs) := by
  have h1 := load_intVal env.m t o bs hl
  have hnd : dtypeNormalize env.m (61 :: (t.dtype o).drop 1) = t.dtype env.m.order := by
    rw [← intTy_native env.m t]
    cases t <;> cases o <;> cases env.m.order <;> rfl
  have hcl : ∀ y : Int, (intStr y).takeWhile (· ≠ 0) = intStr y := by
    intro y
    apply takeWhile_all
    intro c hc
    have := (intStr_clean y c hc).1
    simpa using this
  have hdn : ∀ n : Nat, decStr n = intStr n := by
    intro n
    unfold intStr
    rw [if_neg (by omega)]
    rfl
  unfold elemText
  rw [hnd]
  cases t with
  | i4 =>
    simp only [IntTy.num, Num.load, Val.int.injEq] at h1
    rw [show formatNative env (IntTy.i4.dtype env.m.order) (toNative env.m (IntTy.i4.dtype o) bs) =
      intStr (i32 (natDec env.m (toNative env.m (IntTy.i4.dtype o) bs))) by
        unfold formatNative; simp [IntTy.dtype, IntTy.name], h1]; exact hcl _
  | u4 =>
    simp only [IntTy.num, Num.load, Val.int.injEq] at h1
    rw [show formatNative env (IntTy.u4.dtype env.m.order) (toNative env.m (IntTy.u4.dtype o) bs) =
      decStr (natDec env.m (toNative env.m (IntTy.u4.dtype o) bs)) by
        unfold formatNative; simp [IntTy.dtype, IntTy.name], hdn, h1]; exact hcl _
  | i8 =>
    simp only [IntTy.num, Num.load, Val.int.injEq] at h1
    rw [show formatNative env (IntTy.i8.dtype env.m.order) (toNative env.m (IntTy.i8.dtype o) bs) =
      intStr (i64 (natDec env.m (toNative env.m (IntTy.i8.dtype o) bs))) by
        unfold formatNative; simp [IntTy.dtype, IntTy.name], h1]; exact hcl _
  | u8 =>
    simp only [IntTy.num, Num.load, Val.int.injEq] at h1
    rw [show formatNative env (IntTy.u8.dtype env.m.order) (toNative env.m (IntTy.u8.dtype o) bs) =
      decStr (natDec env.m (toNative env.m (IntTy.u8.dtype o) bs)) by
        unfold formatNative; simp [IntTy.dtype, IntTy.name], hdn, h1]; exact hcl _

/-! ## Reading the values -/

/-- A type that texts can be turned into, in machine byte order: `dt` is its name as given, `T` in normal form, `W` its width. -/
structure TextType (m : Machine) (dt T : CStr) (W : Nat) : Prop where
  norm : dtypeNormalize m dt = T
  idem : dtypeNormalize m T = T
  native : dtypeNormalize m (61 :: T.drop 1) = T
  size : itemsize m T = W
  pos : 0 < W
  small : W ≤ 16
  kind : charAt T 1 ≠ 83
  clean : Clean T
  local_ : foreign m T = false

theorem TextType.size' {m : Machine} {dt T : CStr} {W : Nat} (h : TextType m dt T W) : itemsize m dt = W := by
  rw [← h.size]
  unfold itemsize
  rw [h.idem, h.norm]

theorem intTy_text {m : Machine} {dt : CStr} {t : IntTy} (hdt : dtypeNormalize m dt = t.dtype m.order) :
    TextType m dt (t.dtype m.order) t.width where
  norm := hdt
  idem := intTy_normal m t _
  native := intTy_native m t
  size := intTy_itemsize m t _
  pos := by cases t <;> decide
  small := by cases t <;> decide
  kind := by generalize m.order = o; cases t <;> cases o <;> decide
  clean := by generalize m.order = o; cases t <;> cases o <;> (unfold Clean; decide)
  local_ := by
    unfold foreign
    rw [← order_char]
    cases t <;> simp [IntTy.dtype, charAt]

theorem dtypeParse_bytes (sc : FloatScan) {dt T : CStr} {W : Nat} (hT : TextType env.m dt T W) {text : CStr} {bs : List Byte}
    (hp : parseNative env sc T text = some bs) (hl : bs.length = W) (data : Int) (mem : Mem) :
    ∃ mem', dtypeParse env sc text dt data mem = some (0, mem') ∧ Only data (data + W) mem mem' ∧ peek mem' data W = bs := by
  have h16 := hT.small
  unfold dtypeParse
  simp only
  rw [hT.norm, hT.native, hp]
  simp only
  have hp : peek (poke env.junk 0 bs) 0 W = bs := by
    have := peek_poke_sub env.junk 0 bs 0 W (by omega)
    rw [show (0 : Int) + ((0 : Nat) : Int) = 0 from rfl, List.drop_zero, List.take_of_length_le (by omega)] at this
    exact this
  obtain ⟨dm', sm', k1, k2, k3, _⟩ := convertSimple_spec env.m env.fo data 0 dt T 1 W W mem
    (poke env.junk 0 bs) (fun _ => bs) hT.size' hT.size hT.pos (by omega) (by omega)
    (by rw [hT.norm, hT.idem]; exact convertible_same _ _ _)
    (by
      intro i hi
      have : i = 0 := by omega
      subst this
      rw [hT.norm, hT.idem, convElem_same, Nat.zero_mul, show (0 : Int) + ((0 : Nat) : Int) = 0 from rfl, hp])
  rw [k1]
  refine ⟨dm', rfl, ?_, ?_⟩
  · intro y hy
    exact k2 y (by rw [Nat.mul_one]; exact hy)
  · have := k3 0 (by omega)
    rw [Nat.zero_mul, show data + ((0 : Nat) : Int) = data by omega] at this
    exact this

theorem parseArgs_bytes (sc : FloatScan) {dt T : CStr} {W : Nat} (hT : TextType env.m dt T W) (buf : Int) (all : List CStr) (bs : Nat → List Byte)
    (hall : ∀ i (h : i < all.length), parseNative env sc T all[i] = some (bs i) ∧ (bs i).length = W) (cap : Int)
    (hcap : ((all.length * W : Nat) : Int) ≤ cap) :
    ∀ (xs : List CStr) (i : Nat) (mem : Mem), xs = all.drop i → i ≤ all.length →
    (∀ j, j < i → peek mem (buf + (j * W : Nat)) W = bs j) →
    ∃ mem', parseArgs env sc dt cap buf i xs mem = some (some mem') ∧
      ∀ j, j < all.length → peek mem' (buf + (j * W : Nat)) W = bs j := by
  intro xs
  have hit := hT.size'
  induction xs with
  | nil =>
    intro i mem hx hi hm
    have : all.length ≤ i := by
      have := congrArg List.length hx
      simp at this
      omega
    exact ⟨mem, rfl, fun j hj => hm j (by omega)⟩
  | cons x xs ih =>
    intro i mem hx hi hm
    have hlt : i < all.length := by
      have := congrArg List.length hx
      simp at this
      omega
    rw [List.drop_eq_getElem_cons hlt] at hx
    injection hx with hx1 hx2
    obtain ⟨g1, g2⟩ := hall i hlt
    rw [← hx1] at g1
    obtain ⟨mem1, h1, h2, h3⟩ := dtypeParse_bytes (env := env) sc hT g1 g2 (buf + (i * W : Nat)) mem
    have hle : (i + 1) * W ≤ all.length * W := Nat.mul_le_mul_right _ hlt
    obtain ⟨mem', h4, h5⟩ := ih (i + 1) mem1 hx2 hlt (by
      intro j hji
      by_cases hj2 : j = i
      · subst hj2; rw [h3]
      · rw [← hm j (by omega)]
        apply peek_ext
        intro k hk
        apply h2
        left
        have : (j + 1) * W ≤ i * W := Nat.mul_le_mul_right _ (by omega)
        rw [Nat.add_mul] at this
        omega)
    refine ⟨mem', ?_, h5⟩
    rw [parseArgs]
    rw [hit, show buf + (i : Int) * (W : Int) = buf + (i * W : Nat) by rw [Int.natCast_mul], h1]
    simp only [ne_eq, not_true_eq_false, if_false]
    rw [if_neg (by
      rw [show ((i : Int) + 1) * (W : Int) = (((i + 1) * W : Nat) : Int) by rw [Int.natCast_mul]; rfl]
      omega), h4]

theorem setValue_bytes (sc : FloatScan) {dt T : CStr} {W : Nat} (hT : TextType env.m dt T W) (args : List CStr) (bs : Nat → List Byte)
    (hall : ∀ i (h : i < args.length), parseNative env sc T args[i] = some (bs i) ∧ (bs i).length = W) (hne : args ≠ [])
    (hsz : args.length * W < 1073741824) (buf : Int) (mem : Mem) :
    ∃ mem', setValue env sc dt (args.length : Nat) args buf mem = some (some ((args.length : Int), mem')) ∧
      ∀ j, j < args.length → peek mem' (buf + (j * W : Nat)) W = bs j := by
  have hpos : 0 < args.length := List.length_pos_iff.mpr hne
  have hcap : (W : Int) * (args.length : Int) = ((args.length * W : Nat) : Int) := by
    rw [Int.natCast_mul, Int.mul_comm]
  have hk : dtypeKind env.m dt ≠ 83 := by
    unfold dtypeKind
    rw [hT.norm]
    exact hT.kind
  unfold setValue
  simp only
  rw [hT.size', hcap]
  have hfi : fitsInt ((args.length * W : Nat) : Int) = true := by
    unfold fitsInt
    simp only [Bool.and_eq_true, decide_eq_true_eq]
    omega
  have hn0 : ¬ (((args.length * W : Nat) : Int) < 0) := by omega
  have hz : ¬ ((args.length : Int) = 0) := by omega
  simp only [hfi, hn0, decide_false, Bool.not_true, Bool.or_false, Bool.false_eq_true, if_false, hk, hz, ne_eq,
    not_true_eq_false]
  obtain ⟨mem', h1, h2⟩ := parseArgs_bytes (env := env) sc hT buf args bs hall ((args.length * W : Nat) : Int) (Int.le_refl _) args 0
    (poke mem buf (List.replicate (((args.length * W : Nat) : Int)).toNat 0)) rfl (Nat.zero_le _) (fun j h => absurd h (by omega))
  exact ⟨mem', by rw [h1]; rfl, h2⟩

/-! ## Texts of the other types -/

theorem scanLit_plus {t : CStr} (h : scanWs t = t) : scanLit b!" + " (b!" + " ++ t) = some t := by
  show some (scanWs t) = _
  rw [h]

theorem parseNative_denotes (sc : FloatScan) {ty text : CStr} {bs : List Byte} (o : Byte) (h : Denotes env.m sc ty text bs) :
    parseNative env sc (o :: ty) text = some bs := by
  cases h with
  | char c s => rfl
  | f4 s x r h => show some (match sc.f4 text with | some (x, _) => natEnc env.m 4 x | none => []) = _; rw [h]
  | f8 s x r h => show some (match sc.f8 text with | some (x, _) => natEnc env.m 8 x | none => []) = _; rw [h]
  | c8 s re t im r h1 h2 h3 =>
    show some (scanComplex env.m sc.f4 4 text) = _
    unfold scanComplex
    rw [h1]
    simp only
    rw [scanLit_plus h2]
    simp only
    rw [h3]
  | c16 s re t im r h1 h2 h3 =>
    show some (scanComplex env.m sc.f8 8 text) = _
    unfold scanComplex
    rw [h1]
    simp only
    rw [scanLit_plus h2]
    simp only
    rw [h3]

theorem denotes_width {m : Machine} {sc : FloatScan} {ty text : CStr} {bs : List Byte} (h : Denotes m sc ty text bs) :
    ty ∈ [b!"a1", b!"f4", b!"f8", b!"c8", b!"c16"] ∧ bs.length = (itemsize m (m.endian :: ty)).toNat := by
  cases h <;> cases m with
  | mk le cs => cases le <;> cases cs <;> simp [natEnc_length] <;> decide

theorem denotes_type {m : Machine} {dt ty : CStr} (h : ty ∈ [b!"a1", b!"f4", b!"f8", b!"c8", b!"c16"])
    (hdt : dtypeNormalize m dt = m.endian :: ty) : TextType m dt (m.endian :: ty) (itemsize m (m.endian :: ty)).toNat := by
  have key : dtypeNormalize m (m.endian :: ty) = m.endian :: ty ∧ dtypeNormalize m (61 :: (m.endian :: ty).drop 1) = m.endian :: ty ∧
      0 < itemsize m (m.endian :: ty) ∧ itemsize m (m.endian :: ty) ≤ 16 ∧ charAt (m.endian :: ty) 1 ≠ 83 ∧ Clean (m.endian :: ty) ∧
      foreign m (m.endian :: ty) = false := by
    cases m with
    | mk le cs =>
      simp only [List.mem_cons, List.not_mem_nil, or_false] at h
      unfold Clean
      rcases h with rfl | rfl | rfl | rfl | rfl <;> cases le <;> cases cs <;> decide
  obtain ⟨k1, k2, k3, k4, k5, k6, k7⟩ := key
  exact ⟨hdt, k1, k2, by omega, by omega, by omega, k5, k6, k7⟩

/-! ## Printing -/

theorem intercalate_cons (sep : CStr) (a : CStr) (l : List CStr) (h : l ≠ []) :
    sep.intercalate (a :: l) = a ++ sep ++ sep.intercalate l := by
  cases l with
  | nil => exact absurd rfl h
  | cons b l => simp [List.intercalate, List.intersperse]

theorem printElems_spec {s : AttrSet} {e : Entry} (h : EntryOk env.m s e) (hnat : Native env.m e.val)
    (hw : widthOf env.m e.val.dtype ≤ 128) : ∀ (k j : Nat), j + k = e.val.nmemb →
    printElems env (e.attr s.base) k j s.buf = some ((if charAt e.val.dtype 1 = 83 then [] else b!" ").intercalate
      ((List.range k).map fun i => elemText env e.val.dtype (elemBytes (widthOf env.m e.val.dtype) e.val.bytes (j + i))), s.buf) := by
  have hi := h.item
  have hit : itemsize env.m e.val.dtype = (widthOf env.m e.val.dtype : Nat) := by unfold widthOf; omega
  intro k
  induction k with
  | zero => intro j _; rfl
  | succ k ih =>
    intro j hj
    obtain ⟨t, mem', h1, _, h3, h4⟩ := dtypeFormat_text (env := env) h.norm hit (by omega) (by omega)
      ((e.attr s.base).data + ((j * widthOf env.m e.val.dtype : Nat) : Int)) s.buf
    have hmem := h4 hnat
    subst hmem
    have hlen : e.val.bytes.length = widthOf env.m e.val.dtype * e.val.nmemb := by
      have := h.nbytes
      rw [hit, ← Int.natCast_mul] at this
      omega
    have hpk : peek s.buf ((e.attr s.base).data + ((j * widthOf env.m e.val.dtype : Nat) : Int)) (widthOf env.m e.val.dtype) =
        elemBytes (widthOf env.m e.val.dtype) e.val.bytes j := by
      have := elemBytes_peek s.buf (e.attr s.base).data (widthOf env.m e.val.dtype) e.val.nmemb j (by omega)
      rw [← this, ← hlen]
      congr 1
      exact h.data
    rw [printElems]
    rw [show (e.attr s.base).dtype = e.val.dtype from rfl, if_neg (by omega), hit, ← Int.natCast_mul, h1]
    simp only
    rw [ih (j + 1) (by omega), Option.map_some, h3, hpk]
    have e1 : (List.range (k + 1)).map (fun i => elemText env e.val.dtype (elemBytes (widthOf env.m e.val.dtype) e.val.bytes (j + i))) =
        elemText env e.val.dtype (elemBytes (widthOf env.m e.val.dtype) e.val.bytes j) ::
          (List.range k).map (fun i => elemText env e.val.dtype (elemBytes (widthOf env.m e.val.dtype) e.val.bytes (j + 1 + i))) := by
      rw [List.range_succ_eq_map, List.map_cons, List.map_map]
      refine congrArg (List.cons _) ?_
      apply List.map_congr_left
      intro i _
      show elemText env e.val.dtype (elemBytes _ _ (j + (i + 1))) = _
      rw [show j + (i + 1) = j + 1 + i by omega]
    rw [e1]
    rw [show (e.attr s.base).nmemb = (e.val.nmemb : Int) from rfl]
    congr 2
    by_cases hk : k = 0
    · subst hk
      rw [if_neg (by omega)]
      simp [List.intercalate]
    · rw [intercalate_cons _ _ _ (by
        intro h0
        have := congrArg List.length h0
        simp at this
        exact hk this)]
      congr 2
      by_cases hS : charAt e.val.dtype 1 = 83
      · rw [if_pos hS, if_neg (by simp [hS])]
      · rw [if_neg hS, if_pos ⟨by omega, hS⟩]

theorem printAttr_spec {s : AttrSet} {e : Entry} (h : EntryOk env.m s e) (hnat : Native env.m e.val)
    (hw : widthOf env.m e.val.dtype ≤ 128) (long brief : Bool) :
    printAttr env long s (e.attr s.base) brief = some (attrShown env (brief && !long) e.name e.val, s) := by
  unfold printAttr
  simp only
  rw [show (e.attr s.base).nmemb = (e.val.nmemb : Int) from rfl, Int.toNat_natCast, printElems_spec h hnat hw _ 0 (by omega),
    Option.map_some, h.nameOf]
  have e1 : intStr (e.val.nmemb : Int) = decStr e.val.nmemb := by
    unfold intStr
    rw [if_neg (by omega)]
    rfl
  have e2 : (if charAt e.val.dtype 1 = 83 then [] else b!" ").intercalate
      ((List.range e.val.nmemb).map fun i => elemText env e.val.dtype (elemBytes (widthOf env.m e.val.dtype) e.val.bytes (0 + i))) =
      valueText env e.val := by
    unfold valueText
    simp only [Nat.zero_add]
  rw [e2, e1]
  unfold attrShown
  congr 2
  cases brief <;> cases long <;> simp [padRight, padLeft, fieldLeft, fieldRight, Entry.attr]

theorem printAll_spec {s : AttrSet} (long : Bool) : ∀ (es : List Entry), (∀ e ∈ es, EntryOk env.m s e ∧ Native env.m e.val ∧
      widthOf env.m e.val.dtype ≤ 128) →
    printAll env long (es.map (Entry.attr s.base)) s = some ((es.map fun e => attrShown env false e.name e.val).flatten, s) := by
  intro es
  induction es with
  | nil => intro _; rfl
  | cons e es ih =>
    intro h
    obtain ⟨h1, h2, h3⟩ := h e (by simp)
    rw [List.map_cons, printAll, printAttr_spec h1 h2 h3, Option.bind_some, ih (fun x hx => h x (by simp [hx])), Option.map_some]
    simp

theorem printNamed_spec {s : AttrSet} {es : List Entry} (hi : AttrInv env.m s es) (long brief : Bool) : ∀ (ns : List CStr),
    (∀ n ∈ ns, ∀ v, findE es n = some v → Native env.m v ∧ widthOf env.m v.dtype ≤ 128) →
    printNamed env long brief ns s = some ((ns.map fun n => nameShown env (brief && !long) (findE es) n).flatten, s) := by
  intro ns
  induction ns with
  | nil => intro _; rfl
  | cons n ns ih =>
    intro h
    have ih' := ih (fun x hx => h x (by simp [hx]))
    rw [printNamed]
    rcases lookup_find hi n with ⟨h1, h2, _⟩ | ⟨i, e, h1, h2, h3, h4, h5, h6⟩
    · rw [h1, Option.bind_none, ih', Option.map_some]
      simp [nameShown, h2]
    · obtain ⟨k1, k2⟩ := h n (by simp) _ h6
      rw [h1, Option.bind_some, h5]
      simp only
      rw [printAttr_spec (hi.ok e h3) k1 k2, Option.bind_some, ih', Option.map_some]
      simp [nameShown, h6, h4]

end Verif
