import Verif.Proof.Convert
/-!
# Widths of dtypes and of conversions
-/

set_option autoImplicit false

namespace Verif

open Spec

theorem endian_cases (m : Machine) : m.endian = 60 ∨ m.endian = 62 := by
  unfold Machine.endian
  cases m.le <;> simp

theorem normalize_lt (m : Machine) (t : CStr) : dtypeNormalize m (60 :: t) = 60 :: t.take 6 := by
  rfl

theorem normalize_gt (m : Machine) (t : CStr) : dtypeNormalize m (62 :: t) = 62 :: t.take 6 := by
  rfl

theorem normalize_eq (m : Machine) (t : CStr) : dtypeNormalize m (61 :: t) = m.endian :: t.take 6 := by
  rfl

theorem normalize_bar (m : Machine) (t : CStr) : dtypeNormalize m (124 :: t) = m.endian :: t.take 6 := by
  rfl

theorem normalize_none (m : Machine) (s : CStr)
    (h : s.head? ≠ some 60 ∧ s.head? ≠ some 62 ∧ s.head? ≠ some 61 ∧ s.head? ≠ some 124) :
    dtypeNormalize m s = m.endian :: s.take 6 := by
  obtain ⟨h1, h2, h3, h4⟩ := h
  unfold dtypeNormalize
  split
  rotate_left 4
  · simp only [List.take_succ_cons]
    rw [List.take_take]
    rfl
  all_goals simp_all

/-- The result of normalising starts with a byte order and has at most seven characters. -/
theorem normalize_form (m : Machine) (s : CStr) :
    ∃ c t, dtypeNormalize m s = c :: t ∧ (c = 60 ∨ c = 62) ∧ t.length ≤ 6 := by
  by_cases h1 : s.head? = some 60
  · obtain ⟨t, rfl⟩ : ∃ t, s = 60 :: t := by cases s <;> simp_all
    exact ⟨60, _, normalize_lt m t, Or.inl rfl, by simp; omega⟩
  by_cases h2 : s.head? = some 62
  · obtain ⟨t, rfl⟩ : ∃ t, s = 62 :: t := by cases s <;> simp_all
    exact ⟨62, _, normalize_gt m t, Or.inr rfl, by simp; omega⟩
  by_cases h3 : s.head? = some 61
  · obtain ⟨t, rfl⟩ : ∃ t, s = 61 :: t := by cases s <;> simp_all
    exact ⟨_, _, normalize_eq m t, endian_cases m, by simp; omega⟩
  by_cases h4 : s.head? = some 124
  · obtain ⟨t, rfl⟩ : ∃ t, s = 124 :: t := by cases s <;> simp_all
    exact ⟨_, _, normalize_bar m t, endian_cases m, by simp; omega⟩
  exact ⟨_, _, normalize_none m s ⟨h1, h2, h3, h4⟩, endian_cases m, by simp; omega⟩

theorem normalize_fix (m : Machine) (c : Byte) (t : CStr) (hc : c = 60 ∨ c = 62) (ht : t.length ≤ 6) :
    dtypeNormalize m (c :: t) = c :: t := by
  rcases hc with rfl | rfl
  · rw [normalize_lt, List.take_of_length_le ht]
  · rw [normalize_gt, List.take_of_length_le ht]

theorem normalize_idem (m : Machine) (s : CStr) :
    dtypeNormalize m (dtypeNormalize m s) = dtypeNormalize m s := by
  obtain ⟨c, t, h, hc, ht⟩ := normalize_form m s
  rw [h, normalize_fix m c t hc ht]

theorem itemsize_normalize (m : Machine) (s : CStr) : itemsize m (dtypeNormalize m s) = itemsize m s := by
  unfold itemsize
  rw [normalize_idem]

theorem itemsize_normal (m : Machine) (s : CStr) (h : dtypeNormalize m s = s) :
    itemsize m s = atoi (s.drop 2) := by
  unfold itemsize
  rw [h]

theorem leEnc_length (w n : Nat) : (leEnc w n).length = w := by
  induction w generalizing n with
  | zero => rfl
  | succ w ih => simp [leEnc, ih]

theorem natEnc_length (m : Machine) (w n : Nat) : (natEnc m w n).length = w := by
  unfold natEnc
  split <;> simp [leEnc_length]

theorem ofName_width (s : CStr) (t : Num) (h : Num.ofName s = some t) :
    atoi (s.drop 1) = t.width := by
  unfold Num.ofName at h
  repeat' split at h
  all_goals first
    | (rename_i hs; simp only [Option.some.injEq] at h; subst h; subst hs; decide)
    | (simp at h)

theorem store_length (m : Machine) (fo : FloatOps) (t : Num) (v : Val) (bs : List Byte)
    (h : t.store m fo v = some bs) : bs.length = t.width := by
  cases t <;> simp only [Num.store, Option.map_eq_some_iff, Option.some.injEq] at h
  case i4 => obtain ⟨x, _, h⟩ := h; rw [← h, natEnc_length]; rfl
  case u4 => obtain ⟨x, _, h⟩ := h; rw [← h, natEnc_length]; rfl
  case i8 => obtain ⟨x, _, h⟩ := h; rw [← h, natEnc_length]; rfl
  case u8 => obtain ⟨x, _, h⟩ := h; rw [← h, natEnc_length]; rfl
  case f4 => rw [← h, natEnc_length]; rfl
  case f8 => rw [← h, natEnc_length]; rfl
  case b1 => simp at h

/-- The widths in the conversion table are the item sizes. -/
theorem castTable_widths (m : Machine) (fo : FloatOps) (d s : CStr) (c : CastFn)
    (h : castTable m fo d s = some c) :
    atoi (s.drop 1) = c.sw ∧ atoi (d.drop 1) = c.dw ∧
      ∀ bs out, c.f bs = some out → out.length = c.dw := by
  unfold castTable at h
  split at h
  · simp at h
  · rename_i x y hx hd hs
    simp only [Option.some.injEq] at h
    subst h
    refine ⟨ofName_width s _ hs, ofName_width d _ hd, ?_⟩
    intro bs out ho
    exact store_length m fo _ _ _ ho
  · split at h
    · rename_i hc
      simp only [Option.some.injEq] at h
      subst h
      obtain ⟨rfl, rfl⟩ := hc
      refine ⟨rfl, rfl, ?_⟩
      intro bs out ho
      simp only [Option.some.injEq] at ho
      rw [← ho]
      simp [natEnc_length]
    · split at h
      · rename_i hc
        simp only [Option.some.injEq] at h
        subst h
        obtain ⟨rfl, rfl⟩ := hc
        refine ⟨rfl, rfl, ?_⟩
        intro bs out ho
        simp only [Option.some.injEq] at ho
        rw [← ho]
        simp [natEnc_length]
      · simp at h

/-- Building `ConvOk` from normalised dtypes. -/
theorem convOk_of (m : Machine) (fo : FloatOps) (da sa : Arr) (dw sw k j n : Nat)
    (hda : ArrOk da) (hsa : ArrOk sa) (hdn : dtypeNormalize m da.dtype = da.dtype)
    (hsn : dtypeNormalize m sa.dtype = sa.dtype)
    (hdw : itemsize m da.dtype = dw) (hsw : itemsize m sa.dtype = sw) (hdw0 : 0 < dw)
    (hk : k + n ≤ da.size) (hj : j + n ≤ sa.size) (hfit : n * dw < 18446744073709551616)
    (hsup : convertible m fo da.dtype sa.dtype = true) : ConvOk m fo da sa dw sw k j n := by
  rw [itemsize_normal m _ hdn] at hdw
  rw [itemsize_normal m _ hsn] at hsw
  have e : ∀ x : CStr, x.drop 2 = (x.drop 1).drop 1 := by intro x; simp
  refine ⟨hda, hsa, by rw [itemsize_normal m _ hdn]; exact hdw,
    by rw [itemsize_normal m _ hsn]; exact hsw, hdw0, hk, hj, hfit, ?_, ?_, hsup⟩
  · intro hs
    rw [e, hs, ← e, hsw] at hdw
    omega
  · intro c hc
    obtain ⟨h1, h2, _⟩ := castTable_widths m fo _ _ c hc
    rw [← e, hsw] at h1
    rw [← e, hdw] at h2
    omega

/-- A converted element has the width of the destination. -/
theorem convElem_length (m : Machine) (fo : FloatOps) (ddt sdt : CStr) (dw : Nat)
    (hdn : dtypeNormalize m ddt = ddt) (hsn : dtypeNormalize m sdt = sdt)
    (hdw : itemsize m ddt = dw) (bs out : List Byte) (hbs : (bs.length : Int) = itemsize m sdt)
    (h : convElem m fo ddt sdt bs = some out) : out.length = dw := by
  rw [itemsize_normal m _ hdn] at hdw
  rw [itemsize_normal m _ hsn] at hbs
  have e : ∀ x : CStr, x.drop 2 = (x.drop 1).drop 1 := by intro x; simp
  unfold convElem at h
  simp only [Option.map_eq_some_iff] at h
  obtain ⟨r, hr, ho⟩ := h
  rw [← ho, toNative_length]
  split at hr
  · rename_i hs
    simp only [Option.some.injEq] at hr
    rw [← hr, toNative_length]
    rw [e, hs, ← e] at hdw
    omega
  · simp only [Option.bind_eq_some_iff] at hr
    obtain ⟨c, hc, hr⟩ := hr
    obtain ⟨_, h2, h3⟩ := castTable_widths m fo _ _ c hc
    rw [← e, hdw] at h2
    rw [h3 _ _ hr]
    omega

/-! ## Contiguous arrays -/

theorem contigCheck_default (el : Int) (dims : List Nat) :
    (contigCheck el dims (defaultStrides el dims)) = (true, el * prodN dims) := by
  induction dims with
  | nil => simp [contigCheck, prodN]
  | cons d ds ih =>
    cases ds with
    | nil => simp [contigCheck, defaultStrides, prodN]
    | cons d2 ds =>
      simp only [defaultStrides]
      match hs : defaultStrides el (d2 :: ds) with
      | [] =>
        exfalso
        cases ds with
        | nil => simp [defaultStrides] at hs
        | cons d3 ds =>
          simp only [defaultStrides] at hs
          split at hs
          · simp at hs
          · rename_i h
            -- impossible: strides of a non-empty list are non-empty
            have hlen : ∀ l : List Nat, (defaultStrides el l).length = l.length := by
              intro l
              induction l with
              | nil => rfl
              | cons a l ihl =>
                cases l with
                | nil => rfl
                | cons b l =>
                  simp only [defaultStrides]
                  split
                  · rename_i s ss h
                    rw [h] at ihl
                    simp only [List.length_cons] at ihl ⊢
                    omega
                  · rename_i h
                    rw [h] at ihl
                    simp at ihl
            have := hlen (d3 :: ds)
            rw [h] at this
            simp at this
      | s :: ss =>
        rw [hs] at ih
        have hih := ih
        simp only [contigCheck] at ih
        have hrun : s * d2 = el * prodN (d2 :: ds) ∧ contigCheck el (d2 :: ds) (s :: ss) = (true, el * prodN (d2 :: ds)) := by
          refine ⟨?_, hih⟩
          split at ih
          · rename_i run hc
            split at ih
            · rename_i he
              simp only [Prod.mk.injEq, true_and] at ih
              rw [he]; exact ih
            · simp at ih
          · simp at ih
        simp only [contigCheck]
        simp only [contigCheck] at hrun
        rw [hrun.2]
        simp only
        rw [if_pos hrun.1]
        simp only [prodN, Prod.mk.injEq, true_and]
        rw [Int.mul_assoc]
        congr 1
        simp only [Int.natCast_mul]
        rw [Int.mul_comm]

theorem defaultStrides_length (el : Int) (dims : List Nat) :
    (defaultStrides el dims).length = dims.length := by
  induction dims with
  | nil => rfl
  | cons a l ihl =>
    cases l with
    | nil => rfl
    | cons b l =>
      simp only [defaultStrides]
      split
      · rename_i s ss h
        rw [h] at ihl
        simp only [List.length_cons] at ihl ⊢
        omega
      · rename_i h
        rw [h] at ihl
        simp at ihl

/-- In an array with default strides the `k`-th element is at `data + k * width`. -/
theorem elemAddr_default (a : Arr) (el : Int) (hs : a.strides = defaultStrides el a.dims)
    (hsz : a.size = prodN a.dims) (k : Nat) (hk : k < a.size) : elemAddr a k = a.data + k * el := by
  unfold elemAddr
  have hc := contigCheck_default el a.dims
  rw [← hs] at hc
  obtain ⟨_, h2, _⟩ := contigCheck_true el a.dims a.strides _
    (by rw [hs, defaultStrides_length]) hc
  rw [h2, Nat.mod_eq_of_lt (by rw [← hsz]; exact hk), Int.mul_comm]

theorem valid_item (m : Machine) (dt : CStr) (hv : dtypeIsValid dt = true) (hl : dt.length < 8) :
    0 < itemsize m dt ∧ itemsize m dt ≤ 16 := by
  unfold dtypeIsValid at hv
  cases dt with
  | nil => simp [charAt] at hv
  | cons c t =>
    have hc : c = 60 ∨ c = 62 ∨ c = 124 ∨ c = 61 := by
      simp [charAt] at hv
      rcases hv.1.1 with ((h | h) | h) | h <;> simp [h]
    have ht : t.take 6 = t := List.take_of_length_le (by simp at hl; omega)
    have hw : 0 < atoi (t.drop 1) ∧ atoi (t.drop 1) ≤ 16 := by
      simp only [List.drop_succ_cons, Bool.and_eq_true, Bool.not_eq_true', Bool.or_eq_false_iff,
        decide_eq_false_iff_not] at hv
      have := hv.2
      omega
    unfold itemsize
    rcases hc with rfl | rfl | rfl | rfl
    · rw [normalize_lt, ht]; exact hw
    · rw [normalize_gt, ht]; exact hw
    · rw [normalize_bar, ht]; exact hw
    · rw [normalize_eq, ht]; exact hw

end Verif
