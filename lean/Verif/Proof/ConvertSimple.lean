import Verif.Proof.Dtype
/-!
# Conversion between two contiguous one-dimensional arrays
-/

set_option autoImplicit false

namespace Verif

open Spec

theorem arrayInit_one (m : Machine) (buf : Int) (dt : CStr) (n : Nat) (hn : n < 18446744073709551616) :
    arrayInit m buf dt [n] none = some
      { dtype := dtypeNormalize m dt, dims := [n], strides := [itemsize m dt], size := n, data := buf } := by
  unfold arrayInit
  rw [if_neg (by simp)]
  simp only [List.isEmpty_cons, Bool.false_eq_true, if_false, defaultStrides, dimsProd, List.foldl_cons,
    List.foldl_nil, Nat.one_mul]
  rw [u64_of_nat hn]

/-- The array `big_array_init` makes of `n` consecutive elements. -/
def arr1 (m : Machine) (buf : Int) (dt : CStr) (n : Nat) : Arr :=
  { dtype := dtypeNormalize m dt, dims := [n], strides := [itemsize m dt], size := n, data := buf }

theorem arr1_ok (m : Machine) (buf : Int) (dt : CStr) (n : Nat) (hn : 0 < n) : ArrOk (arr1 m buf dt n) :=
  ⟨by simp [arr1], by simp [arr1], by simp [arr1], by simp [arr1, prodN], hn⟩

theorem arr1_addr (m : Machine) (buf : Int) (dt : CStr) (n k w : Nat) (hw : itemsize m dt = w)
    (hk : k < n) : elemAddr (arr1 m buf dt n) k = buf + (k * w : Nat) := by
  rw [elemAddr_default (arr1 m buf dt n) (itemsize m dt) rfl (by simp [arr1, prodN]) k hk, hw]
  simp [arr1]

theorem arr1_disjoint (m : Machine) (buf : Int) (dt : CStr) (n w : Nat) (hw : itemsize m dt = w) :
    Disjoint (arr1 m buf dt n) w := by
  intro i j hi hj hij
  rw [arr1_addr m buf dt n i w hw hi, arr1_addr m buf dt n j w hw hj]
  rcases Nat.lt_or_gt_of_ne hij with h | h
  · left
    have := Nat.mul_le_mul_right w (show i + 1 ≤ j by omega)
    rw [Nat.add_mul] at this
    omega
  · right
    have := Nat.mul_le_mul_right w (show j + 1 ≤ i by omega)
    rw [Nat.add_mul] at this
    omega

theorem arr1_inElems (m : Machine) (buf : Int) (dt : CStr) (n w : Nat) (hw : itemsize m dt = w) (x : Int)
    (h : InElems (arr1 m buf dt n) w 0 n x) : buf ≤ x ∧ x < buf + (w * n : Nat) := by
  obtain ⟨i, hi, h1, h2⟩ := h
  rw [Nat.zero_add, arr1_addr m buf dt n i w hw hi] at h1 h2
  have := Nat.mul_le_mul_right w (show i + 1 ≤ n by omega)
  rw [Nat.add_mul] at this
  rw [Nat.mul_comm w n]
  omega

theorem poke_nil (m : Mem) (a : Int) : poke m a [] = m := rfl

/-- Converting no elements changes nothing. -/
theorem dtypeConvert_zero (m : Machine) (fo : FloatOps) (di si : Iter) (dm sm : Mem)
    (hsup : convertible m fo di.arr.dtype si.arr.dtype = true)
    (hd : di.arr.strides ≠ []) (hs : si.arr.strides ≠ []) :
    (match dtypeConvert m fo di si 0 dm sm with
      | some r => some (r.rc, r.dm, r.sm)
      | none => none) = some (0, dm, sm) := by
  have hb : ∀ (it : Iter) (mem : Mem), byteSwap m it 0 mem = some mem := by
    intro it mem; unfold byteSwap; simp only; split <;> rfl
  have hb' : ∀ (p : Prop) [Decidable p] (it : Iter) (mem : Mem),
      (if p then byteSwap m it 0 mem else some mem) = some mem := by
    intro p _ it mem; rw [hb]; split <;> rfl
  obtain ⟨r, hr, h1, h2, h3⟩ : ∃ r, cast m fo di si 0 dm sm = some r ∧ r.rc = 0 ∧ r.dm = dm ∧ r.sm = sm := by
    unfold cast
    split
    · split
      · rw [List.getLast?_eq_some_getLast hd, List.getLast?_eq_some_getLast hs]
        simp only
        refine ⟨_, rfl, rfl, ?_, rfl⟩
        simp only [Int.ofNat_zero, Int.zero_mul]
        rfl
      · exact ⟨_, rfl, rfl, rfl, rfl⟩
    · rename_i hne
      unfold convertible at hsup
      simp only [Bool.or_eq_true, beq_iff_eq, hne, false_or] at hsup
      obtain ⟨c, hc⟩ := Option.isSome_iff_exists.mp hsup
      rw [hc]
      exact ⟨_, rfl, rfl, rfl, rfl⟩
  unfold dtypeConvert
  simp only [hb']
  rw [hr]
  simp only [h1, ne_eq, not_true_eq_false, if_false, h2, h3]

/-- Conversion of `n` consecutive elements. -/
theorem convertSimple_spec (m : Machine) (fo : FloatOps) (dst src : Int) (ddt sdt : CStr) (n dw sw : Nat)
    (dm sm : Mem) (out : Nat → List Byte) (hdw : itemsize m ddt = dw) (hsw : itemsize m sdt = sw)
    (hdw0 : 0 < dw) (hn : n < 18446744073709551616) (hfit : n * dw < 18446744073709551616)
    (hsup : convertible m fo (dtypeNormalize m ddt) (dtypeNormalize m sdt) = true)
    (hout : ∀ i, i < n → convElem m fo (dtypeNormalize m ddt) (dtypeNormalize m sdt)
      (peek sm (src + (i * sw : Nat)) sw) = some (out i)) :
    ∃ dm' sm', convertSimple m fo dst ddt src sdt n dm sm = some (0, dm', sm') ∧
      (∀ x, x < dst ∨ dst + (dw * n : Nat) ≤ x → dm' x = dm x) ∧
      (∀ i, i < n → peek dm' (dst + (i * dw : Nat)) dw = out i) ∧
      (foreign m (dtypeNormalize m sdt) = false → sm' = sm) ∧
      (∀ x, x < src ∨ src + (sw * n : Nat) ≤ x → sm' x = sm x) ∧
      (∀ i, i < n → peek sm' (src + (i * sw : Nat)) sw =
        toNative m (dtypeNormalize m sdt) (peek sm (src + (i * sw : Nat)) sw)) := by
  unfold convertSimple
  rw [arrayInit_one m dst ddt n hn, arrayInit_one m src sdt n hn]
  simp only
  change ∃ dm' sm', (match dtypeConvert m fo (iterInit m (arr1 m dst ddt n)) (iterInit m (arr1 m src sdt n)) n dm sm with
    | some r => some (r.rc, r.dm, r.sm)
    | none => none) = _ ∧ _
  rcases Nat.eq_zero_or_pos n with h0 | hpos
  · subst h0
    refine ⟨dm, sm, ?_, fun _ _ => rfl, fun i hi => absurd hi (by omega), fun _ => rfl, fun _ _ => rfl,
      fun i hi => absurd hi (by omega)⟩
    rw [dtypeConvert_zero m fo _ _ dm sm hsup (by simp [iterInit, arr1]) (by simp [iterInit, arr1])]
  · have hok : ConvOk m fo (arr1 m dst ddt n) (arr1 m src sdt n) dw sw 0 0 n :=
      convOk_of m fo _ _ dw sw 0 0 n (arr1_ok m dst ddt n hpos) (arr1_ok m src sdt n hpos)
        (normalize_idem m ddt) (normalize_idem m sdt)
        (by show itemsize m (dtypeNormalize m ddt) = _; rw [itemsize_normalize, hdw])
        (by show itemsize m (dtypeNormalize m sdt) = _; rw [itemsize_normalize, hsw]) hdw0
        (by show 0 + n ≤ n; omega) (by show 0 + n ≤ n; omega) hfit hsup
    have hlen : ∀ i, i < n → (out i).length = dw := by
      intro i hi
      exact convElem_length m fo _ _ dw (normalize_idem m ddt) (normalize_idem m sdt)
        (by rw [itemsize_normalize, hdw]) _ _ (by rw [peek_length, itemsize_normalize, hsw]) (hout i hi)
    obtain ⟨dm', sm', h1, h2, h3, h4, h5, h6⟩ := dtypeConvert_spec m fo (arr1 m dst ddt n) (arr1 m src sdt n)
      dm sm sw dw n 0 0 out hok (fun _ => arr1_disjoint m src sdt n sw hsw)
      (by
        intro i hi
        refine ⟨hlen i hi, ?_⟩
        rw [Nat.zero_add, arr1_addr m src sdt n i sw hsw hi]
        exact hout i hi)
    rw [iterInit_eq, iterInit_eq, h1]
    refine ⟨dm', sm', rfl, ?_, ?_, h4, ?_, ?_⟩
    · intro x hx
      apply h2
      intro hc
      have := arr1_inElems m dst ddt n dw hdw x hc
      omega
    · intro i hi
      have := h3 (arr1_disjoint m dst ddt n dw hdw) i hi
      rw [Nat.zero_add, arr1_addr m dst ddt n i dw hdw hi] at this
      exact this
    · intro x hx
      apply h5
      intro hc
      have := arr1_inElems m src sdt n sw hsw x hc
      omega
    · intro i hi
      have := h6 i hi
      rw [Nat.zero_add, arr1_addr m src sdt n i sw hsw hi] at this
      exact this

/-- An unsupported conversion. -/
theorem convertSimple_unsupported (m : Machine) (fo : FloatOps) (dst src : Int) (ddt sdt : CStr) (n sw : Nat)
    (dm sm : Mem) (hsw : itemsize m sdt = sw) (hn : n < 18446744073709551616)
    (hf : foreign m (dtypeNormalize m sdt) = false ∨ sw = 1)
    (hsup : convertible m fo (dtypeNormalize m ddt) (dtypeNormalize m sdt) = false) :
    convertSimple m fo dst ddt src sdt n dm sm = some (-1, dm, sm) := by
  unfold convertSimple
  rw [arrayInit_one m dst ddt n hn, arrayInit_one m src sdt n hn]
  simp only
  unfold dtypeConvert
  simp only
  have e : (if charAt (iterInit m (arr1 m src sdt n)).arr.dtype 0 ≠ m.endian then
      byteSwap m (iterInit m (arr1 m src sdt n)) n sm else some sm) = some sm := by
    split
    · rename_i hne
      have hf' : foreign m (dtypeNormalize m sdt) = true := by simpa [foreign, iterInit, arr1] using hne
      rcases hf with hf | hf
      · rw [hf] at hf'; exact absurd hf' (by simp)
      · unfold byteSwap
        simp only
        rw [if_pos]
        show itemsize m (dtypeNormalize m sdt) = 1
        rw [itemsize_normalize, hsw, hf]
        rfl
    · rfl
  have e2 : ({ dtype := dtypeNormalize m sdt, dims := [n], strides := [itemsize m sdt], size := n, data := src } : Arr)
    = arr1 m src sdt n := rfl
  rw [e2, e]
  simp only
  rw [cast_unsupported]
  · simp
  · exact hsup

end Verif
