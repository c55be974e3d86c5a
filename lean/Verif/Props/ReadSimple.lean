import Verif.Proof.Simple
import Verif.Props.Transfer
/-!
# C58: `big_block_read_simple`
-/

set_option autoImplicit false

namespace Verif

open Spec

/-- What `big_block_read_simple` gives for `n` rows from row `p` on, in a buffer at `buf`: a return
code 0 comes with an array of `n` rows of `nm` elements that fills the buffer, row-major and without
gaps, whose element `e` is `out e`; otherwise -1 and no array. In either case no byte outside the
buffer and no file changes. -/
structure SimpleRead (env : Env) (bb : Block) (p n nm sw : Nat) (dt : CStr) (buf : Int)
    (out : Nat → List Byte) (mem : Mem) (wd : World) (x : Int × Option Arr × Mem) (w' : World) : Prop where
  fs : w'.fs = wd.fs
  faults : w'.faults = wd.faults
  frame : ∀ y, y < buf ∨ buf + ((n * nm * sw : Nat) : Int) ≤ y → x.2.2 y = mem y
  done : x.1 = 0 → x.2.1 = some (freshArr env.m dt n nm sw buf) ∧
    (∀ i, i < n → Stored env.m wd.fs bb (p + i)) ∧
    ∀ e, e < n * nm → peek x.2.2 (buf + ((e * sw : Nat) : Int)) sw = out e
  failed : x.1 ≠ 0 → x.1 = -1 ∧ x.2.1 = none
  succeeds : wd.faults = noFaults → (∀ i, i < n → Stored env.m wd.fs bb (p + i)) → x.1 = 0

/-- The part after the seek. -/
theorem readSimple_tail (env : Env) (bb : Block) (w nm sw : Nat) (dt : CStr) (ptr : Ptr) (p n : Nat)
    (buf : Int) (mem : Mem) (wd : World) (out : Nat → List Byte)
    (h : BlockOk env bb w nm) (hdt : itemsize env.m dt = sw) (hsw : 0 < sw)
    (hbytes : n * nm * sw < 9223372036854775808)
    (hp : PointsTo bb ptr p) (hpn : p + n ≤ bb.size)
    (hsup : 0 < n → convertible env.m env.fo (dtypeNormalize env.m dt) (dtypeNormalize env.m bb.dtype) = true)
    (hconv : ∀ e, e < n * nm → Stored env.m wd.fs bb (p + e / nm) →
      convElem env.m env.fo (dtypeNormalize env.m dt) (dtypeNormalize env.m bb.dtype)
        (elemOfRows env.m wd.fs bb p w nm e) = some (out e)) :
    wpc (do
      let a ← M.lift (arrayInit env.m buf dt [n, u64 bb.nmemb] none)
      let x ← blockRead env bb ptr a mem
      if x.rc ≠ 0 then pure (-1, none, x.mem) else pure (0, some a, x.mem)) wd
      (SimpleRead env bb p n nm sw dt buf out mem wd)
      (fun w' => w'.fs = wd.fs ∧ wd.faults ≠ noFaults) := by
  rw [wpc_bind, h.freshInit dt n sw buf hdt hsw hbytes, wpc_lift_some, wpc_bind]
  by_cases hn : n = 0
  · subst hn
    have he := blockRead_empty h (freshArr env.m dt 0 nm sw buf) (by simp [freshArr]) ptr p hp
      (by omega) mem wd
    unfold wpc
    rw [he]
    simp only [ne_eq, not_true_eq_false, if_false]
    exact ⟨rfl, rfl, fun _ _ => rfl, fun _ => ⟨rfl, fun i hi => absurd hi (by omega),
      fun e he => absurd he (by omega)⟩, fun hc => absurd rfl hc, fun _ _ => rfl⟩
  · have hx := h.fresh dt n sw buf (by omega) hdt hsw hbytes
    have hrow := freshArr_rows env.m dt n nm sw buf h.memb0
    have hspec := blockRead_spec env bb _ w sw nm hx out ptr p mem wd hp
      (by rw [hrow, ← h.layout.size]; exact hpn) (by rw [hrow]; exact hsup) (by rw [hrow]; exact hconv)
    rw [hrow] at hspec
    refine wpc_mono hspec ?_ (fun _ h => h)
    intro x w' hr
    have hframe : ∀ y, y < buf ∨ buf + ((n * nm * sw : Nat) : Int) ≤ y → x.mem y = mem y := by
      intro y hy
      apply hr.memframe
      intro hc
      rw [Nat.zero_mul] at hc
      have := freshArr_in _ _ _ _ _ _ _ hc
      omega
    by_cases hrc : x.rc = 0
    · rw [if_neg (by simp [hrc]), wpc_pure]
      obtain ⟨h1, _, h3⟩ := hr.done hrc
      refine ⟨hr.fs, hr.faults, hframe, fun _ => ⟨rfl, h1, fun e he => ?_⟩, fun hc => absurd rfl hc, fun _ _ => rfl⟩
      have := h3 (freshArr_disjoint _ _ _ _ _ _) e he
      rw [Nat.zero_mul, Nat.zero_add, freshArr_addr _ _ _ _ _ _ _ he] at this
      exact this
    · rw [if_pos hrc, wpc_pure]
      refine ⟨hr.fs, hr.faults, hframe, fun hc => absurd hc (by simp), fun _ => ⟨rfl, rfl⟩, fun h1 h2 => ?_⟩
      exact absurd (hr.succeeds h1 h2) hrc

/-- **C58**, the part that holds: for `0 ≤ start ≤ size of the block` and any number of rows `size ≥ 0`,
the call reads `min size (rows remaining)` rows from `start` on, in the requested dtype (the block's own
if none is given). Missing: negative starts, see `C58_negative`. -/
theorem C58_read_simple_partial (env : Env) (bb : Block) (w nm sw : Nat) (dtype : Option CStr)
    (start size : Nat) (buf : Int) (mem : Mem) (wd : World) (out : Nat → List Byte)
    (h : BlockOk env bb w nm) (hdt : itemsize env.m (dtype.getD bb.dtype) = sw) (hsw : 0 < sw)
    (hstart : start ≤ bb.size) (hsum : start + size < 9223372036854775808)
    (hbytes : min size (bb.size - start) * nm * sw < 9223372036854775808)
    (hsup : 0 < min size (bb.size - start) → convertible env.m env.fo
      (dtypeNormalize env.m (dtype.getD bb.dtype)) (dtypeNormalize env.m bb.dtype) = true)
    (hconv : ∀ e, e < min size (bb.size - start) * nm → Stored env.m wd.fs bb (start + e / nm) →
      convElem env.m env.fo (dtypeNormalize env.m (dtype.getD bb.dtype)) (dtypeNormalize env.m bb.dtype)
        (elemOfRows env.m wd.fs bb start w nm e) = some (out e)) :
    wpc (readSimple env bb start size dtype buf mem) wd
      (SimpleRead env bb start (min size (bb.size - start)) nm sw (dtype.getD bb.dtype) buf out mem wd)
      (fun w' => w'.fs = wd.fs ∧ wd.faults ≠ noFaults) := by
  have hsm := h.layout.small
  have hsz := h.layout.size
  obtain ⟨ptr, hs, hp, _⟩ := (C01_seek bb h.layout ⟨0, 0, 0⟩ (start : Int)
    ⟨by omega, by omega⟩).1 ⟨by omega, by omega⟩
  rw [if_neg (by omega), Int.toNat_natCast] at hp
  unfold readSimple
  simp only
  rw [wpc_bind, hs, wpc_lift_some]
  simp only [ne_eq, not_true_eq_false, if_false]
  have e : (if u64 ((start : Int) + (size : Int)) > bb.size then i64 ((bb.size : Int) - (start : Int))
      else (size : Int)) = ((min size (bb.size - start) : Nat) : Int) := by
    rw [show (start : Int) + (size : Int) = ((start + size : Nat) : Int) by omega, u64_of_nat (by omega)]
    split
    · rw [i64_of_range (by omega) (by omega)]; omega
    · omega
  rw [e, if_neg (by omega), Int.toNat_natCast]
  exact readSimple_tail env bb w nm sw _ ptr start _ buf mem wd out h hdt hsw hbytes hp (by omega) hsup hconv

/-- **C58 is false for negative starts**: counted from the end there are `-start` rows left, and the call
succeeds only if exactly that many are requested. For every other number of rows it returns -1, also
for fewer rows than remain. -/
theorem C58_negative (env : Env) (bb : Block) (w nm sw : Nat) (dtype : Option CStr)
    (back size : Nat) (buf : Int) (mem : Mem) (wd : World)
    (h : BlockOk env bb w nm) (hdt : itemsize env.m (dtype.getD bb.dtype) = sw) (hsw : 0 < sw)
    (hback : 0 < back) (hstart : back ≤ bb.size) (hsize : size < 9223372036854775808)
    (hbytes : (bb.size + back) * nm * sw < 9223372036854775808)
    (hbytes2 : size * nm * sw < 9223372036854775808) (hne : size ≠ back) :
    readSimple env bb (-(back : Int)) size dtype buf mem wd = .ok (-1, none, mem) wd := by
  have hsm := h.layout.small
  have hsz := h.layout.size
  obtain ⟨ptr, hs, hp, _⟩ := (C01_seek bb h.layout ⟨0, 0, 0⟩ (-(back : Int))
    ⟨by omega, by omega⟩).1 ⟨by omega, by omega⟩
  rw [if_pos (by omega)] at hp
  have hw : wpc (readSimple env bb (-(back : Int)) size dtype buf mem) wd
      (fun x w' => x = (-1, none, mem) ∧ w' = wd) (fun _ => False) := by
    unfold readSimple
    simp only
    rw [wpc_bind, hs, wpc_lift_some]
    simp only [ne_eq, not_true_eq_false, if_false]
    have e : ∃ n : Nat, (if u64 (-(back : Int) + (size : Int)) > bb.size then i64 ((bb.size : Int) - -(back : Int))
        else (size : Int)) = (n : Int) ∧ back < n ∧ n * nm * sw < 9223372036854775808 := by
      by_cases hlt : size < back
      · refine ⟨bb.size + back, ?_, by omega, hbytes⟩
        have hu : u64 (-(back : Int) + (size : Int)) > bb.size := by unfold u64; omega
        have : bb.size + back < 9223372036854775808 := by
          have h1 : (bb.size + back) ≤ (bb.size + back) * nm := Nat.le_mul_of_pos_right _ h.memb0
          have h2 : (bb.size + back) * nm ≤ (bb.size + back) * nm * sw := Nat.le_mul_of_pos_right _ hsw
          omega
        rw [if_pos hu, i64_of_range (by omega) (by omega)]; omega
      · by_cases hgt : size - back ≤ bb.size
        · refine ⟨size, ?_, by omega, hbytes2⟩
          rw [show -(back : Int) + (size : Int) = ((size - back : Nat) : Int) by omega, u64_of_nat (by omega),
            if_neg (by omega)]
        · refine ⟨bb.size + back, ?_, by omega, hbytes⟩
          rw [show -(back : Int) + (size : Int) = ((size - back : Nat) : Int) by omega, u64_of_nat (by omega),
            if_pos (by omega), i64_of_range (by omega) (by omega)]
          omega
    obtain ⟨n, he, hn, hb⟩ := e
    rw [he, if_neg (by omega), Int.toNat_natCast, wpc_bind, h.freshInit _ n sw buf hdt hsw hb,
      wpc_lift_some, wpc_bind]
    have hx := h.fresh (dtype.getD bb.dtype) n sw buf (by omega) hdt hsw hb
    have hr := blockRead_range env bb _ w sw nm hx ptr _ mem wd hp (by omega)
      (by rw [freshArr_rows _ _ _ _ _ _ h.memb0]; omega)
    unfold wpc
    rw [hr]
    exact ⟨rfl, rfl⟩
  obtain ⟨x, w', h1, h2, h3⟩ := wpc_returns hw (fun _ h => h)
  rw [h1, h2, h3]

/-- The one negative case that works: `start = -k` with exactly `k` rows requested reads the last `k`
rows. -/
theorem C58_negative_all (env : Env) (bb : Block) (w nm sw : Nat) (dtype : Option CStr)
    (back : Nat) (buf : Int) (mem : Mem) (wd : World) (out : Nat → List Byte)
    (h : BlockOk env bb w nm) (hdt : itemsize env.m (dtype.getD bb.dtype) = sw) (hsw : 0 < sw)
    (hback : 0 < back) (hstart : back ≤ bb.size)
    (hbytes : back * nm * sw < 9223372036854775808)
    (hsup : convertible env.m env.fo
      (dtypeNormalize env.m (dtype.getD bb.dtype)) (dtypeNormalize env.m bb.dtype) = true)
    (hconv : ∀ e, e < back * nm → Stored env.m wd.fs bb (bb.size - back + e / nm) →
      convElem env.m env.fo (dtypeNormalize env.m (dtype.getD bb.dtype)) (dtypeNormalize env.m bb.dtype)
        (elemOfRows env.m wd.fs bb (bb.size - back) w nm e) = some (out e)) :
    wpc (readSimple env bb (-(back : Int)) back dtype buf mem) wd
      (SimpleRead env bb (bb.size - back) back nm sw (dtype.getD bb.dtype) buf out mem wd)
      (fun w' => w'.fs = wd.fs ∧ wd.faults ≠ noFaults) := by
  have hsm := h.layout.small
  have hsz := h.layout.size
  obtain ⟨ptr, hs, hp, _⟩ := (C01_seek bb h.layout ⟨0, 0, 0⟩ (-(back : Int))
    ⟨by omega, by omega⟩).1 ⟨by omega, by omega⟩
  rw [if_pos (by omega), show ((bb.size : Int) + -(back : Int)).toNat = bb.size - back by omega] at hp
  unfold readSimple
  simp only
  rw [wpc_bind, hs, wpc_lift_some]
  simp only [ne_eq, not_true_eq_false, if_false]
  rw [show -(back : Int) + (back : Int) = ((0 : Nat) : Int) by omega, u64_of_nat (by omega),
    if_neg (by omega), if_neg (by omega), Int.toNat_natCast]
  exact readSimple_tail env bb w nm sw _ ptr _ _ buf mem wd out h hdt hsw hbytes hp (by omega)
    (fun _ => hsup) hconv

/-- The block of the examples is fit for transfers. -/
theorem exBlock_ok : BlockOk exEnv exBlock 4 1 := exSrc_ok.block

-- rows 3 and 4 (two of the ten requested), as `>i8`
example : ((readSimple exEnv exBlock 3 10 (some b!">i8") 500 (fun _ => 0) exWorld).val?.map fun x =>
      (x.1, x.2.1.map (·.dims), peek x.2.2 500 16)) =
    some (0, some [2, 1], [0, 0, 0, 0, 4, 4, 4, 4, 0, 0, 0, 0, 5, 5, 5, 5]) := by decide +kernel

example : BlockOk exEnv exBlock 4 1 ∧ itemsize exEnv.m b!">i8" = 8 := ⟨exBlock_ok, by decide⟩

-- one of the last two rows: refused
example : readSimple exEnv exBlock (-2) 1 none 500 (fun _ => 0) exWorld = .ok (-1, none, fun _ => 0) exWorld :=
  C58_negative exEnv exBlock 4 1 4 none 2 1 500 _ exWorld exBlock_ok (by decide) (by decide) (by decide)
    (by decide) (by decide) (by decide) (by decide) (by decide)

end Verif
