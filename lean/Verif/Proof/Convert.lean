import Verif.Spec.Convert
import Verif.Proof.Iter
/-!
# Conversion of arrays is element-wise
-/

set_option autoImplicit false

namespace Verif

open Spec

/-! ## Byte swapping -/

theorem swapBytes_apply (n : Nat) (ptr : Int) (k : Nat) : ∀ (m : Mem) (j : Nat), 2 * (j + k) ≤ n →
    ∀ x : Int, swapBytes m ptr n j k x =
      if (ptr + j ≤ x ∧ x < ptr + j + k) ∨ (ptr + n - j - k ≤ x ∧ x < ptr + n - j) then
        m (ptr + (ptr + n - 1 - x)) else m x := by
  induction k with
  | zero =>
    intro m j hj x
    have : ¬ ((ptr + j ≤ x ∧ x < ptr + j + (0 : Nat)) ∨ (ptr + n - j - (0 : Nat) ≤ x ∧ x < ptr + n - j)) := by
      omega
    simp only [swapBytes, if_neg this]
  | succ k ih =>
    intro m j hj x
    simp only [swapBytes]
    rw [ih _ (j + 1) (by omega)]
    by_cases h1 : x = ptr + j
    · rw [if_neg (show ¬ (_ ∨ _) by omega), if_neg (show ¬ x = ptr + ((n : Int) - j - 1) by omega),
        if_pos h1, if_pos (show _ ∨ _ by omega)]
      congr 1
      omega
    · by_cases h2 : x = ptr + ((n : Int) - j - 1)
      · rw [if_neg (show ¬ (_ ∨ _) by omega), if_pos h2, if_pos (show _ ∨ _ by omega)]
        congr 1
        omega
      · by_cases h3 : (ptr + ((j + 1 : Nat) : Int) ≤ x ∧ x < ptr + ((j + 1 : Nat) : Int) + k) ∨
            (ptr + n - ((j + 1 : Nat) : Int) - k ≤ x ∧ x < ptr + n - ((j + 1 : Nat) : Int))
        · rw [if_pos h3, if_pos (show _ ∨ _ by omega)]
          rw [if_neg (by omega), if_neg (by omega)]
        · rw [if_neg h3, if_neg h2, if_neg h1, if_neg (show ¬ (_ ∨ _) by omega)]

theorem swapBytes_eq (m : Mem) (ptr : Int) (n : Nat) :
    swapBytes m ptr n 0 ((n : Int) / 2).toNat = poke m ptr (peek m ptr n).reverse := by
  funext x
  rw [swapBytes_apply n ptr _ m 0 (by omega)]
  by_cases h : ptr ≤ x ∧ x < ptr + n
  · obtain ⟨h1, h2⟩ := h
    have e : x = ptr + ((x - ptr).toNat : Int) := by omega
    have hl : (x - ptr).toNat < (peek m ptr n).reverse.length := by
      rw [List.length_reverse, peek_length]; omega
    conv => rhs; rw [e]
    rw [poke_inside _ _ _ _ hl, List.getElem_reverse, peek_getElem]
    have e2 : (((peek m ptr n).length - 1 - (x - ptr).toNat : Nat) : Int) = ptr + n - 1 - x := by
      rw [peek_length]; omega
    rw [e2]
    split
    · rfl
    · have : x = ptr + (ptr + n - 1 - x) := by omega
      rw [← this]
  · rw [poke_outside _ _ _ _ (by rw [List.length_reverse, peek_length]; omega)]
    rw [if_neg (by omega)]

/-- What byte-swapping elements `k .. k+n-1` of an array does to memory. -/
theorem byteSwapLoop_spec (m : Machine) (a : Arr) (w n : Nat) (ha : ArrOk a) :
    ∀ (k : Nat) (mem : Mem), k + n ≤ a.size →
    ∃ mem', byteSwapLoop (w : Int) n (iterAt m a k) mem = some mem' ∧
      (∀ x, ¬ InElems a w k n x → mem' x = mem x) ∧
      (Disjoint a w → ∀ i, i < n →
        peek mem' (elemAddr a (k + i)) w = (peek mem (elemAddr a (k + i)) w).reverse) := by
  induction n with
  | zero =>
    intro k mem hk
    exact ⟨mem, rfl, fun _ _ => rfl, fun _ i hi => absurd hi (by omega)⟩
  | succ n ih =>
    intro k mem hk
    simp only [byteSwapLoop]
    rw [iterAdvance_iterAt m a k ha]
    simp only
    rw [iterAt_ptr m a k ha (by omega), swapBytes_eq]
    obtain ⟨mem', h1, h2, h3⟩ := ih (k + 1)
      (poke mem (elemAddr a k) (peek mem (elemAddr a k) w).reverse) (by omega)
    refine ⟨mem', h1, ?_, ?_⟩
    · intro x hx
      rw [h2 x]
      · apply poke_outside
        rw [List.length_reverse, peek_length]
        have : ¬ (elemAddr a (k + 0) ≤ x ∧ x < elemAddr a (k + 0) + w) :=
          fun hc => hx ⟨0, by omega, hc.1, hc.2⟩
        simp only [Nat.add_zero] at this
        omega
      · rintro ⟨i, hi, hc⟩
        apply hx
        refine ⟨i + 1, by omega, ?_⟩
        have : k + 1 + i = k + (i + 1) := by omega
        rw [← this]
        exact hc
    · intro hd i hi
      cases i with
      | zero =>
        simp only [Nat.add_zero]
        have : peek mem' (elemAddr a k) w =
            peek (poke mem (elemAddr a k) (peek mem (elemAddr a k) w).reverse) (elemAddr a k) w := by
          apply peek_ext
          intro t ht
          apply h2
          rintro ⟨i, hi, hc⟩
          rcases hd k (k + 1 + i) (by omega) (by omega) (by omega) with h | h <;> omega
        rw [this]
        have hl : w = (peek mem (elemAddr a k) w).reverse.length := by
          rw [List.length_reverse, peek_length]
        conv => lhs; arg 3; rw [hl]
        rw [peek_poke_same]
      | succ i =>
        have e : k + (i + 1) = k + 1 + i := by omega
        rw [e, h3 hd i (by omega)]
        congr 1
        apply peek_poke_disjoint
        rw [List.length_reverse, peek_length]
        rcases hd k (k + 1 + i) (by omega) (by omega) (by omega) with h | h <;> omega

/-- `byte_swap` on elements `k .. k+n-1`. -/
theorem byteSwap_spec (m : Machine) (a : Arr) (w n k : Nat) (mem : Mem) (ha : ArrOk a)
    (hw : itemsize m a.dtype = w) (hk : k + n ≤ a.size) :
    ∃ mem', byteSwap m (iterAt m a k) n mem = some mem' ∧
      (∀ x, ¬ InElems a w k n x → mem' x = mem x) ∧
      (Disjoint a w → ∀ i, i < n →
        peek mem' (elemAddr a (k + i)) w = (peek mem (elemAddr a (k + i)) w).reverse) := by
  unfold byteSwap
  have : (iterAt m a k).arr = a := rfl
  simp only [this, hw]
  split
  · rename_i h
    have hw1 : w = 1 := by omega
    refine ⟨mem, rfl, fun _ _ => rfl, fun _ i _ => ?_⟩
    subst hw1
    simp [peek]
  · exact byteSwapLoop_spec m a w n ha k mem hk

/-! ## The element loop of `cast` -/

theorem castLoop_spec (m : Machine) (c : CastFn) (da sa : Arr) (sm : Mem) (dw : Nat)
    (hda : ArrOk da) (hsa : ArrOk sa) (n : Nat) :
    ∀ (k j : Nat) (dm : Mem) (out : Nat → List Byte), k + n ≤ da.size → j + n ≤ sa.size →
    (∀ i, i < n → c.f (peek sm (elemAddr sa (j + i)) c.sw) = some (out i) ∧ (out i).length = dw) →
    ∃ dm', castLoop c n (iterAt m da k) (iterAt m sa j) dm sm =
        some (iterAt m da (k + n), iterAt m sa (j + n), dm') ∧
      (∀ x, ¬ InElems da dw k n x → dm' x = dm x) ∧
      (Disjoint da dw → ∀ i, i < n → peek dm' (elemAddr da (k + i)) dw = out i) := by
  induction n with
  | zero =>
    intro k j dm out _ _ _
    exact ⟨dm, rfl, fun _ _ => rfl, fun _ i hi => absurd hi (by omega)⟩
  | succ n ih =>
    intro k j dm out hk hj hf
    simp only [castLoop]
    obtain ⟨hf0, hl0⟩ := hf 0 (by omega)
    rw [iterAt_ptr m sa j hsa (by omega)]
    simp only [Nat.add_zero] at hf0
    rw [hf0]
    simp only
    rw [iterAdvance_iterAt m da k hda, iterAdvance_iterAt m sa j hsa]
    simp only
    rw [iterAt_ptr m da k hda (by omega)]
    obtain ⟨dm', h1, h2, h3⟩ := ih (k + 1) (j + 1) (poke dm (elemAddr da k) (out 0))
      (fun i => out (i + 1)) (by omega) (by omega) (by
        intro i hi
        have e : j + 1 + i = j + (i + 1) := by omega
        rw [e]
        exact hf (i + 1) (by omega))
    refine ⟨dm', ?_, ?_, ?_⟩
    · rw [h1]
      have e1 : k + 1 + n = k + (n + 1) := by omega
      have e2 : j + 1 + n = j + (n + 1) := by omega
      rw [e1, e2]
    · intro x hx
      rw [h2 x]
      · apply poke_outside
        rw [hl0]
        have : ¬ (elemAddr da (k + 0) ≤ x ∧ x < elemAddr da (k + 0) + dw) :=
          fun hc => hx ⟨0, by omega, hc.1, hc.2⟩
        simp only [Nat.add_zero] at this
        omega
      · rintro ⟨i, hi, hc⟩
        apply hx
        refine ⟨i + 1, by omega, ?_⟩
        have : k + 1 + i = k + (i + 1) := by omega
        rw [← this]
        exact hc
    · intro hd i hi
      cases i with
      | zero =>
        simp only [Nat.add_zero]
        have : peek dm' (elemAddr da k) dw =
            peek (poke dm (elemAddr da k) (out 0)) (elemAddr da k) dw := by
          apply peek_ext
          intro t ht
          apply h2
          rintro ⟨i, hi, hc⟩
          rcases hd k (k + 1 + i) (by omega) (by omega) (by omega) with h | h <;> omega
        rw [this]
        conv => lhs; arg 3; rw [← hl0]
        rw [peek_poke_same]
      | succ i =>
        have e : k + (i + 1) = k + 1 + i := by omega
        rw [e]
        exact h3 hd i (by omega)

/-- The iterator of a contiguous array. -/
theorem iterAt_contig (m : Machine) (a : Arr) (ha : ArrOk a)
    (hc : (iterAt m a 0).contiguous = true) :
    a.strides.getLast? = some (itemsize m a.dtype) ∧
    (∀ k, iterAt m a k = { iterAt m a 0 with ptr := a.data + k * itemsize m a.dtype }) ∧
    (∀ k, k < a.size → elemAddr a k = a.data + k * itemsize m a.dtype) := by
  unfold iterAt at hc ⊢
  simp only at hc ⊢
  match hcc : contigCheck (itemsize m a.dtype) a.dims a.strides with
  | (true, run) =>
    obtain ⟨h1, h2, h3⟩ := contigCheck_true _ _ _ _ ha.len hcc
    refine ⟨h3 ha.ne, ?_, ?_⟩
    · intro k; simp
    · intro k hk
      unfold elemAddr
      rw [h2, Nat.mod_eq_of_lt (by rw [← ha.size]; exact hk), Int.mul_comm]
  | (false, run) => rw [hcc] at hc; simp at hc

theorem iterAt_contiguous (m : Machine) (a : Arr) (k : Nat) :
    (iterAt m a k).contiguous = (iterAt m a 0).contiguous := rfl

/-- `cast` on elements `k .. k+n-1` and `j .. j+n-1`. -/
theorem cast_spec (m : Machine) (fo : FloatOps) (da sa : Arr) (dm sm : Mem) (sw dw n k j : Nat)
    (out : Nat → List Byte) (hda : ArrOk da) (hsa : ArrOk sa)
    (hsw : itemsize m sa.dtype = sw) (hdw : itemsize m da.dtype = dw) (hdw0 : 0 < dw)
    (hk : k + n ≤ da.size) (hj : j + n ≤ sa.size) (hfit : n * dw < 18446744073709551616)
    (hsame : da.dtype.drop 1 = sa.dtype.drop 1 → sw = dw)
    (htab : ∀ c, da.dtype.drop 1 ≠ sa.dtype.drop 1 →
      castTable m fo (da.dtype.drop 1) (sa.dtype.drop 1) = some c → c.sw = sw)
    (hout : ∀ i, i < n → (out i).length = dw ∧
      (if da.dtype.drop 1 = sa.dtype.drop 1 then some (peek sm (elemAddr sa (j + i)) sw)
       else (castTable m fo (da.dtype.drop 1) (sa.dtype.drop 1)).bind
        fun c => c.f (peek sm (elemAddr sa (j + i)) sw)) = some (out i))
    (hsup : convertible m fo da.dtype sa.dtype = true) :
    ∃ dm', cast m fo (iterAt m da k) (iterAt m sa j) n dm sm =
        some ⟨0, iterAt m da (k + n), iterAt m sa (j + n), dm', sm⟩ ∧
      (∀ x, ¬ InElems da dw k n x → dm' x = dm x) ∧
      (Disjoint da dw → ∀ i, i < n → peek dm' (elemAddr da (k + i)) dw = out i) := by
  unfold cast
  have e1 : (iterAt m da k).arr = da := rfl
  have e2 : (iterAt m sa j).arr = sa := rfl
  simp only [e1, e2]
  by_cases hs : da.dtype.drop 1 = sa.dtype.drop 1
  · rw [if_pos hs]
    have hswdw := hsame hs
    simp only [hs, if_true] at hout
    by_cases hc : ((iterAt m da k).contiguous && (iterAt m sa j).contiguous) = true
    · rw [if_pos hc]
      rw [Bool.and_eq_true, iterAt_contiguous m da, iterAt_contiguous m sa] at hc
      obtain ⟨d1, d2, d3⟩ := iterAt_contig m da hda hc.1
      obtain ⟨s1, s2, s3⟩ := iterAt_contig m sa hsa hc.2
      rw [d1, s1]
      simp only
      rw [hdw] at d1 d2 d3 ⊢
      rw [hsw, hswdw] at s1 s2 s3
      rw [hsw, hswdw]
      have hlen : u64 ((n : Int) * (dw : Int)) = n * dw := by
        have : ((n : Int) * (dw : Int)) = ((n * dw : Nat) : Int) := by simp
        rw [this, u64_of_nat hfit]
      rw [hlen]
      have hp1 : (iterAt m da k).ptr = da.data + k * dw := by rw [d2 k]
      have hp2 : (iterAt m sa j).ptr = sa.data + j * dw := by rw [s2 j]
      rw [hp1, hp2]
      refine ⟨poke dm (da.data + k * dw) (peek sm (sa.data + j * dw) (n * dw)), ?_, ?_, ?_⟩
      · apply congrArg
        rw [d2 k, d2 (k + n), s2 j, s2 (j + n)]
        simp only [ConvOut.mk.injEq, Iter.mk.injEq, true_and, and_true]
        refine ⟨?_, ?_⟩
        · have : ((k + n : Nat) : Int) = (k : Int) + n := by omega
          rw [this, Int.add_mul, Int.add_assoc]; exact ⟨rfl, rfl⟩
        · have : ((j + n : Nat) : Int) = (j : Int) + n := by omega
          rw [this, Int.add_mul, Int.add_assoc]; exact ⟨rfl, rfl⟩
      · intro x hx
        apply poke_outside
        rw [peek_length]
        rcases Nat.eq_zero_or_pos n with h0 | h0
        · subst h0; simp; omega
        have hnn : (((n * dw : Nat)) : Int) = (n : Int) * dw := by simp
        rcases Int.lt_or_le x (da.data + k * dw) with h | h
        · exact Or.inl h
        · rcases Int.lt_or_le x (da.data + k * dw + (n * dw : Nat)) with h' | h'
          · exfalso
            apply hx
            -- the element containing x
            have hq : 0 ≤ x - (da.data + k * dw) := by omega
            obtain ⟨q, hq'⟩ := Int.eq_ofNat_of_zero_le hq
            refine ⟨q / dw, ?_, ?_, ?_⟩
            · apply (Nat.div_lt_iff_lt_mul hdw0).mpr; omega
            all_goals
              have hql : q / dw < n := by apply (Nat.div_lt_iff_lt_mul hdw0).mpr; omega
              rw [d3 _ (by omega)]
              have hm := Nat.div_add_mod q dw
              have hml := Nat.mod_lt q hdw0
              have e : ((k + q / dw : Nat) : Int) * dw = (k : Int) * dw + ((dw * (q / dw) : Nat) : Int) := by
                have : ((k + q / dw : Nat) : Int) = (k : Int) + ((q / dw : Nat) : Int) := by omega
                rw [this, Int.add_mul, Int.natCast_mul, Int.mul_comm (dw : Int)]
              omega
          · exact Or.inr h'
      · intro _ i hi
        rw [d3 (k + i) (by omega)]
        have hoi := (hout i hi).2
        rw [s3 (j + i) (by omega), hswdw] at hoi
        rw [← Option.some.inj hoi]
        apply peek_ext
        intro t ht
        have hbound : i * dw + t < n * dw := by
          have : (i + 1) * dw ≤ n * dw := Nat.mul_le_mul_right _ hi
          rw [Nat.add_mul] at this
          omega
        have e : da.data + ((k + i : Nat) : Int) * dw + t = da.data + k * dw + ((i * dw + t : Nat) : Int) := by
          have : ((k + i : Nat) : Int) = (k : Int) + i := by omega
          rw [this, Int.add_mul]
          have : ((i * dw + t : Nat) : Int) = (i : Int) * dw + t := by simp
          rw [this]
          omega
        rw [e, poke_inside _ _ _ _ (by rw [peek_length]; exact hbound), peek_getElem]
        congr 1
        have : ((j + i : Nat) : Int) = (j : Int) + i := by omega
        rw [this, Int.add_mul]
        have : ((i * dw + t : Nat) : Int) = (i : Int) * dw + t := by simp
        rw [this]
        omega
    · rw [if_neg hc]
      simp only [hdw, Int.toNat_natCast]
      obtain ⟨dm', h1, h2, h3⟩ := castLoop_spec m ⟨dw, dw, some⟩ da sa sm dw hda hsa n k j dm out hk hj
        (by
          intro i hi
          obtain ⟨h1, h2⟩ := hout i hi
          rw [hswdw] at h2
          exact ⟨h2, h1⟩)
      rw [h1]
      exact ⟨dm', rfl, h2, h3⟩
  · rw [if_neg hs]
    simp only [hs, if_false] at hout
    have hsup' : (castTable m fo (da.dtype.drop 1) (sa.dtype.drop 1)).isSome = true := by
      unfold convertible at hsup
      rw [Bool.or_eq_true] at hsup
      rcases hsup with h | h
      · exact absurd (by simpa using h) hs
      · exact h
    obtain ⟨c, hcc⟩ := Option.isSome_iff_exists.mp hsup'
    have hcsw := htab c hs hcc
    rw [hcc]
    simp only
    obtain ⟨dm', h1, h2, h3⟩ := castLoop_spec m c da sa sm dw hda hsa n k j dm out hk hj
      (by
        intro i hi
        obtain ⟨h1, h2⟩ := hout i hi
        rw [hcc] at h2
        rw [hcsw]
        exact ⟨h2, h1⟩)
    rw [h1]
    exact ⟨dm', rfl, h2, h3⟩

theorem cast_unsupported (m : Machine) (fo : FloatOps) (di si : Iter) (dm sm : Mem) (n : Nat)
    (hsup : convertible m fo di.arr.dtype si.arr.dtype = false) :
    cast m fo di si n dm sm = some ⟨-1, di, si, dm, sm⟩ := by
  unfold convertible at hsup
  rw [Bool.or_eq_false_iff] at hsup
  unfold cast
  have h1 : ¬ di.arr.dtype.drop 1 = si.arr.dtype.drop 1 := by simpa using hsup.1
  have h2 : castTable m fo (di.arr.dtype.drop 1) (si.arr.dtype.drop 1) = none := by
    simpa using hsup.2
  rw [if_neg h1, h2]

/-! ## `_dtype_convert` -/

/-- Hypotheses under which `n` elements of `sa` from the `j`-th on can be converted into elements
of `da` from the `k`-th on. `sw`, `dw` are the element widths. -/
structure ConvOk (m : Machine) (fo : FloatOps) (da sa : Arr) (dw sw k j n : Nat) : Prop where
  hda : ArrOk da
  hsa : ArrOk sa
  hdw : itemsize m da.dtype = dw
  hsw : itemsize m sa.dtype = sw
  hdw0 : 0 < dw
  hk : k + n ≤ da.size
  hj : j + n ≤ sa.size
  hfit : n * dw < 18446744073709551616
  hsame : da.dtype.drop 1 = sa.dtype.drop 1 → sw = dw
  htab : ∀ c, castTable m fo (da.dtype.drop 1) (sa.dtype.drop 1) = some c → c.sw = sw ∧ c.dw = dw
  hsup : convertible m fo da.dtype sa.dtype = true

theorem toNative_length (m : Machine) (dt : CStr) (bs : List Byte) :
    (toNative m dt bs).length = bs.length := by
  unfold toNative
  split <;> simp

theorem toNative_toNative (m : Machine) (dt : CStr) (bs : List Byte) :
    toNative m dt (toNative m dt bs) = bs := by
  unfold toNative
  split <;> simp

theorem dtypeConvert_spec (m : Machine) (fo : FloatOps) (da sa : Arr) (dm sm : Mem)
    (sw dw n k j : Nat) (out : Nat → List Byte) (h : ConvOk m fo da sa dw sw k j n)
    (hds : foreign m sa.dtype = true → Disjoint sa sw)
    (hout : ∀ i, i < n → (out i).length = dw ∧
      convElem m fo da.dtype sa.dtype (peek sm (elemAddr sa (j + i)) sw) = some (out i)) :
    ∃ dm' sm', dtypeConvert m fo (iterAt m da k) (iterAt m sa j) n dm sm =
        some ⟨0, iterAt m da (k + n), iterAt m sa (j + n), dm', sm'⟩ ∧
      (∀ x, ¬ InElems da dw k n x → dm' x = dm x) ∧
      (Disjoint da dw → ∀ i, i < n → peek dm' (elemAddr da (k + i)) dw = out i) ∧
      (foreign m sa.dtype = false → sm' = sm) ∧
      (∀ x, ¬ InElems sa sw j n x → sm' x = sm x) ∧
      (∀ i, i < n → peek sm' (elemAddr sa (j + i)) sw =
        toNative m sa.dtype (peek sm (elemAddr sa (j + i)) sw)) := by
  -- the source in native order
  obtain ⟨sm1, hs1, hs2, hs3, hs4⟩ : ∃ sm1,
      (if charAt (iterAt m sa j).arr.dtype 0 ≠ m.endian then byteSwap m (iterAt m sa j) n sm
        else some sm) = some sm1 ∧
      (∀ x, ¬ InElems sa sw j n x → sm1 x = sm x) ∧
      (∀ i, i < n → peek sm1 (elemAddr sa (j + i)) sw =
        toNative m sa.dtype (peek sm (elemAddr sa (j + i)) sw)) ∧
      (foreign m sa.dtype = false → sm1 = sm) := by
    by_cases hf : charAt sa.dtype 0 ≠ m.endian
    · have hf' : foreign m sa.dtype = true := by simpa [foreign] using hf
      obtain ⟨sm1, h1, h2, h3⟩ := byteSwap_spec m sa sw n j sm h.hsa h.hsw h.hj
      refine ⟨sm1, ?_, h2, ?_, ?_⟩
      · show (if charAt sa.dtype 0 ≠ m.endian then _ else _) = _
        rw [if_pos hf, h1]
      · intro i hi
        rw [h3 (hds hf') i hi]
        unfold toNative
        rw [if_pos hf']
      · intro hc; rw [hc] at hf'; exact absurd hf' (by simp)
    · have hf' : foreign m sa.dtype = false := by simpa [foreign] using hf
      refine ⟨sm, ?_, fun _ _ => rfl, ?_, fun _ => rfl⟩
      · show (if charAt sa.dtype 0 ≠ m.endian then _ else _) = _
        rw [if_neg hf]
      · intro i hi
        unfold toNative
        rw [hf']
        simp
  -- the cast
  have hout' : ∀ i, i < n → (toNative m da.dtype (out i)).length = dw ∧
      (if da.dtype.drop 1 = sa.dtype.drop 1 then some (peek sm1 (elemAddr sa (j + i)) sw)
       else (castTable m fo (da.dtype.drop 1) (sa.dtype.drop 1)).bind
        fun c => c.f (peek sm1 (elemAddr sa (j + i)) sw)) = some (toNative m da.dtype (out i)) := by
    intro i hi
    obtain ⟨hl, hc⟩ := hout i hi
    refine ⟨by rw [toNative_length, hl], ?_⟩
    rw [hs3 i hi]
    unfold convElem at hc
    simp only [Option.map_eq_some_iff] at hc
    obtain ⟨r, hr1, hr2⟩ := hc
    rw [hr1, ← hr2, toNative_toNative]
  obtain ⟨dm1, hc1, hc2, hc3⟩ := cast_spec m fo da sa dm sm1 sw dw n k j
    (fun i => toNative m da.dtype (out i)) h.hda h.hsa h.hsw h.hdw h.hdw0 h.hk h.hj h.hfit h.hsame
    (fun c _ hc => (h.htab c hc).1) hout' h.hsup
  -- the destination in its own order
  obtain ⟨dm2, hd1, hd2, hd3⟩ : ∃ dm2,
      (if charAt (iterAt m da k).arr.dtype 0 ≠ m.endian then byteSwap m (iterAt m da k) n dm1
        else some dm1) = some dm2 ∧
      (∀ x, ¬ InElems da dw k n x → dm2 x = dm1 x) ∧
      (Disjoint da dw → ∀ i, i < n → peek dm2 (elemAddr da (k + i)) dw =
        toNative m da.dtype (peek dm1 (elemAddr da (k + i)) dw)) := by
    by_cases hf : charAt da.dtype 0 ≠ m.endian
    · have hf' : foreign m da.dtype = true := by simpa [foreign] using hf
      obtain ⟨dm2, h1, h2, h3⟩ := byteSwap_spec m da dw n k dm1 h.hda h.hdw h.hk
      refine ⟨dm2, ?_, h2, ?_⟩
      · show (if charAt da.dtype 0 ≠ m.endian then _ else _) = _
        rw [if_pos hf, h1]
      · intro hd i hi
        rw [h3 hd i hi]
        unfold toNative
        rw [if_pos hf']
    · have hf' : foreign m da.dtype = false := by simpa [foreign] using hf
      refine ⟨dm1, ?_, fun _ _ => rfl, ?_⟩
      · show (if charAt da.dtype 0 ≠ m.endian then _ else _) = _
        rw [if_neg hf]
      · intro _ i hi
        unfold toNative
        rw [hf']
        simp
  refine ⟨dm2, sm1, ?_, ?_, ?_, hs4, hs2, hs3⟩
  · unfold dtypeConvert
    simp only
    rw [hs1]
    simp only
    rw [hc1]
    simp only [ne_eq, not_true_eq_false, if_false]
    simp only [ne_eq] at hd1
    rw [hd1]
  · intro x hx
    rw [hd2 x hx, hc2 x hx]
  · intro hd i hi
    rw [hd3 hd i hi, hc3 hd i hi, toNative_toNative]

/-- An unsupported conversion is refused; the destination is untouched. -/
theorem dtypeConvert_unsupported (m : Machine) (fo : FloatOps) (da sa : Arr) (dm sm : Mem)
    (sw n k j : Nat) (hsa : ArrOk sa) (hsw : itemsize m sa.dtype = sw) (hj : j + n ≤ sa.size)
    (hsup : convertible m fo da.dtype sa.dtype = false) :
    ∃ sm', dtypeConvert m fo (iterAt m da k) (iterAt m sa j) n dm sm =
        some ⟨-1, iterAt m da k, iterAt m sa j, dm, sm'⟩ ∧
      (foreign m sa.dtype = false → sm' = sm) := by
  unfold dtypeConvert
  simp only
  have e2 : (iterAt m sa j).arr.dtype = sa.dtype := rfl
  by_cases hf : charAt sa.dtype 0 ≠ m.endian
  · obtain ⟨sm1, h1, _, _⟩ := byteSwap_spec m sa sw n j sm hsa hsw hj
    refine ⟨sm1, ?_, ?_⟩
    · rw [e2, if_pos hf, h1]
      simp only
      rw [cast_unsupported _ _ _ _ _ _ _ hsup]
      simp
    · intro hc
      have hf' : foreign m sa.dtype = true := by simpa [foreign] using hf
      rw [hc] at hf'; exact absurd hf' (by simp)
  · refine ⟨sm, ?_, fun _ => rfl⟩
    rw [e2, if_neg hf]
    simp only
    rw [cast_unsupported _ _ _ _ _ _ _ hsup]
    simp

end Verif
