import Verif.Proof.Transfer
import Verif.Proof.Seek
/-!
# Transfers between a block and a fresh contiguous buffer
-/

set_option autoImplicit false

namespace Verif

open Spec

theorem putRows_congr {m : Machine} {bb : Block} {fs : FS} {p n : Nat} {rows rows' : Nat → List Byte}
    (h : ∀ i, i < n → rows i = rows' i) : putRows m bb fs p rows n = putRows m bb fs p rows' n := by
  induction n with
  | zero => rfl
  | succ n ih =>
    simp only [putRows]
    rw [ih (fun i hi => h i (by omega)), h n (by omega)]

theorem rowsSum_congr {bb : Block} {p f n : Nat} {rows rows' : Nat → List Byte}
    (h : ∀ i, i < n → rows i = rows' i) : rowsSum bb p rows f n = rowsSum bb p rows' f n := by
  induction n with
  | zero => rfl
  | succ n ih =>
    simp only [rowsSum]
    rw [ih (fun i hi => h i (by omega)), h n (by omega)]

section
variable {env : Env} {bb : Block} {w nm : Nat}

theorem Spec.BlockOk.xfer (h : BlockOk env bb w nm) {a : Arr} {sw : Nat} (arr : ArrOk a)
    (asize : a.size < 9223372036854775808) (anorm : dtypeNormalize env.m a.dtype = a.dtype)
    (aitem : itemsize env.m a.dtype = sw) (aitem0 : 0 < sw)
    (abytes : a.size * sw < 18446744073709551616) : XferOk env bb a w sw nm :=
  ⟨h.layout, h.item, h.item0, h.memb, h.memb0, h.felInt, h.buf, h.bufMax, h.offs, arr, asize, anorm,
    aitem, aitem0, abytes⟩

theorem Spec.XferOk.block {a : Arr} {sw : Nat} (h : XferOk env bb a w sw nm) : BlockOk env bb w nm :=
  ⟨h.layout, h.item, h.item0, h.memb, h.memb0, h.felInt, h.buf, h.bufMax, h.offs⟩

theorem Spec.BlockOk.w_lt (h : BlockOk env bb w nm) : w < 2147483648 :=
  Nat.lt_of_le_of_lt (Nat.le_mul_of_pos_right w h.memb0) h.felInt

theorem Spec.BlockOk.nm_lt (h : BlockOk env bb w nm) : nm < 2147483648 :=
  Nat.lt_of_le_of_lt (Nat.le_mul_of_pos_left nm h.item0) h.felInt

/-- Some array that makes the block's part of `XferOk` usable. -/
theorem Spec.BlockOk.dummy (h : BlockOk env bb w nm) :
    XferOk env bb ⟨dtypeNormalize env.m bb.dtype, [1], [0], 1, 0⟩ w w nm := by
  have := h.w_lt
  exact h.xfer ⟨by simp, rfl, by simp, rfl, by simp⟩ (by simp) (normalize_idem _ _)
    (by rw [itemsize_normalize]; exact h.item) h.item0 (by simp; omega)

theorem Spec.BlockOk.fresh (h : BlockOk env bb w nm) (dt : CStr) (n sw : Nat) (buf : Int) (hn : 0 < n)
    (hdt : itemsize env.m dt = sw) (hsw : 0 < sw) (hb : n * nm * sw < 9223372036854775808) :
    XferOk env bb (freshArr env.m dt n nm sw buf) w sw nm := by
  have h1 : n * nm ≤ n * nm * sw := Nat.le_mul_of_pos_right _ hsw
  have h2 := Nat.mul_pos hn h.memb0
  refine h.xfer ⟨by simp [freshArr], rfl, by simp [freshArr], by simp [freshArr, prodN], h2⟩ ?_
    (normalize_idem _ _) (by show itemsize _ (dtypeNormalize _ _) = _; rw [itemsize_normalize, hdt])
    hsw ?_
  · show n * nm < _; omega
  · show n * nm * sw < _; omega

theorem freshArr_rows (m : Machine) (dt : CStr) (n nm sw : Nat) (buf : Int) (hnm : 0 < nm) :
    (freshArr m dt n nm sw buf).size / nm = n := Nat.mul_div_cancel _ hnm

theorem freshArr_addr (m : Machine) (dt : CStr) (n nm sw : Nat) (buf : Int) (e : Nat) (he : e < n * nm) :
    elemAddr (freshArr m dt n nm sw buf) e = buf + ((e * sw : Nat) : Int) := by
  rw [elemAddr_default _ (sw : Int) rfl (by simp [freshArr, prodN]) e he]
  simp [freshArr]

theorem freshArr_disjoint (m : Machine) (dt : CStr) (n nm sw : Nat) (buf : Int) :
    Disjoint (freshArr m dt n nm sw buf) sw := by
  intro i j hi hj hij
  rw [freshArr_addr _ _ _ _ _ _ _ hi, freshArr_addr _ _ _ _ _ _ _ hj]
  rcases Nat.lt_or_gt_of_ne hij with hlt | hgt
  · left
    have := Nat.mul_le_mul_right sw (show i + 1 ≤ j from hlt)
    rw [Nat.add_mul] at this
    omega
  · right
    have := Nat.mul_le_mul_right sw (show j + 1 ≤ i from hgt)
    rw [Nat.add_mul] at this
    omega

theorem freshArr_in (m : Machine) (dt : CStr) (n nm sw : Nat) (buf y : Int)
    (h : InElems (freshArr m dt n nm sw buf) sw 0 (n * nm) y) :
    buf ≤ y ∧ y < buf + ((n * nm * sw : Nat) : Int) := by
  obtain ⟨i, hi, h1, h2⟩ := h
  rw [Nat.zero_add, freshArr_addr _ _ _ _ _ _ _ hi] at h1 h2
  have := Nat.mul_le_mul_right sw (show i + 1 ≤ n * nm from hi)
  rw [Nat.add_mul] at this
  generalize n * nm * sw = z at *
  generalize i * sw = z' at *
  omega

theorem Spec.BlockOk.freshInit (h : BlockOk env bb w nm) (dt : CStr) (n sw : Nat) (buf : Int)
    (hdt : itemsize env.m dt = sw) (hsw : 0 < sw) (hb : n * nm * sw < 9223372036854775808) :
    arrayInit env.m buf dt [n, u64 bb.nmemb] none = some (freshArr env.m dt n nm sw buf) := by
  have hnm := h.nm_lt
  have h1 : n * nm ≤ n * nm * sw := Nat.le_mul_of_pos_right _ hsw
  have h2 : n ≤ n * nm := Nat.le_mul_of_pos_right _ h.memb0
  have hu : u64 bb.nmemb = nm := by rw [h.memb]; exact u64_of_nat (by omega)
  rw [hu]
  unfold arrayInit
  rw [if_neg (by simp)]
  simp only [List.isEmpty_cons, Bool.false_eq_true, if_false, hdt]
  unfold freshArr
  congr 2
  unfold dimsProd
  simp only [List.foldl_cons, List.foldl_nil, Nat.one_mul]
  rw [u64_of_nat (show n < _ by omega), u64_of_nat (show n * nm < _ by omega)]

/-- A read of no rows does nothing. -/
theorem blockRead_empty (h : BlockOk env bb w nm) (a : Arr) (ha : a.size = 0) (ptr : Ptr) (p : Nat)
    (hp : PointsTo bb ptr p) (hpe : p ≤ bb.size) (mem : Mem) (wd : World) :
    blockRead env bb ptr a mem wd = .ok ⟨0, bb, ptr, mem⟩ wd := by
  have hd := h.dummy
  have hpe' : p ≤ bb.fsize.sum := by rw [← h.layout.size]; exact hpe
  have hw : wpc (blockRead env bb ptr a mem) wd
      (fun x w' => x = ⟨0, bb, ptr, mem⟩ ∧ w' = wd) (fun _ => False) := by
    unfold blockRead blockReadFuel
    rw [wpc_bind, hd.elemSizes, wpc_lift_some]
    simp only
    rw [wpc_bind, hd.bufInit, wpc_lift_some, wpc_bind]
    rw [ha, Nat.zero_div]
    obtain ⟨fo, hfo, hrange⟩ := range_check h.layout hp hpe' (show 0 < 9223372036854775808 by omega)
    rw [hfo, wpc_lift_some]
    have hnr : ¬ u64 (i64 ((fo : Int) + ptr.roffset + i64 ((0 : Nat) : Int))) > bb.size := by
      have e : i64 ((0 : Nat) : Int) = ((0 : Nat) : Int) := by decide
      rw [e, hrange]; omega
    rw [if_neg hnr]
    unfold loopFuel
    rw [ha]
    unfold readLoop
    rw [wpc_bind, eof_spec bb h.layout ptr p hp (by omega), wpc_lift_some]
    rw [show i64 ((0 : Nat) : Int) = 0 by decide]
    simp only [gt_iff_lt, Int.lt_irrefl, decide_false, Bool.false_and, Bool.not_false, if_true]
    rw [wpc_pure]
    exact ⟨rfl, rfl⟩
  obtain ⟨x, w', h1, h2, h3⟩ := wpc_returns hw (fun _ h => h)
  rw [h1, h2, h3]

end

end Verif
