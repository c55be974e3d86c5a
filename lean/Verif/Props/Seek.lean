import Verif.Proof.Seek
/-!
# C01, C02: seeking
-/

set_option autoImplicit false

namespace Verif

open Spec

/-- A block with an empty file in the middle, used in examples. -/
def exBlock : Block :=
  { dtype := b!"<i4", nmemb := 1, basename := b!"d/x", size := 5, fsize := [2, 0, 3],
    foffset := [0, 2, 2, 5], fchecksum := [0, 0, 0], nfile := 3,
    attrset := ⟨false, 0, fun _ => 0, 0, 0, [], 0⟩, dirty := false }

theorem exBlock_layout : Layout exBlock :=
  ⟨rfl, rfl, by decide, rfl, by decide, by decide⟩

/-- **C01.** For every consistent block and every 64-bit offset: seeking succeeds exactly when
`-size ≤ offset ≤ size`; then the pointer denotes row `offset` (counted from the end if negative) in
a file that holds it. Otherwise -1 is returned and the pointer is unchanged. -/
theorem C01_seek (bb : Block) (h : Layout bb) (ptr : Ptr) (o : Int) (ho : IsI64 o) :
    (-(bb.size : Int) ≤ o ∧ o ≤ bb.size →
      ∃ p, seek bb ptr o = some (0, p) ∧
        PointsTo bb p (if o < 0 then bb.size + o else o).toNat ∧
        p.aoffset = if o < 0 then bb.size + o else o) ∧
    (¬ (-(bb.size : Int) ≤ o ∧ o ≤ bb.size) → seek bb ptr o = some (-1, ptr)) := by
  have hsz := h.size
  constructor
  · rintro ⟨h1, h2⟩
    by_cases hneg : o < 0
    · simp only [hneg, if_true]
      rw [seek_neg bb h ptr o hneg (by omega)]
      have e : (bb.fsize.sum : Int) + o = (((bb.fsize.sum : Int) + o).toNat : Nat) := by omega
      obtain ⟨p, hp1, hp2, hp3⟩ := seek_nat bb h ptr ((bb.fsize.sum : Int) + o).toNat (by omega)
      rw [← e] at hp1 hp3
      rw [hsz]
      exact ⟨p, hp1, hp2, hp3⟩
    · simp only [hneg, if_false]
      have e : o = (o.toNat : Nat) := by omega
      obtain ⟨p, hp1, hp2, hp3⟩ := seek_nat bb h ptr o.toNat (by omega)
      rw [← e] at hp1 hp3
      exact ⟨p, hp1, hp2, hp3⟩
  · intro hn
    apply seek_out bb h ptr o ho
    omega

/-- The end-of-block test after a successful seek. -/
theorem C01_eof (bb : Block) (h : Layout bb) (ptr p : Ptr) (o : Int) (ho : IsI64 o)
    (hs : seek bb ptr o = some (0, p)) :
    eof bb p = some (decide (o = bb.size ∨ (bb.size = 0 ∧ o = 0))) := by
  by_cases hr : -(bb.size : Int) ≤ o ∧ o ≤ bb.size
  · obtain ⟨q, hq1, hq2, hq3⟩ := (C01_seek bb h ptr o ho).1 hr
    rw [hs] at hq1
    have : p = q := by injection hq1 with hq1; injection hq1
    subst this
    have hsz := h.size
    rw [eof_spec bb h p _ hq2 (by split <;> omega)]
    congr 1
    apply decide_eq_decide.mpr
    split <;> omega
  · rw [(C01_seek bb h ptr o ho).2 hr] at hs
    simp at hs

example : seek exBlock ⟨7, 7, 7⟩ 3 = some (0, ⟨2, 1, 3⟩) := by decide
example : seek exBlock ⟨7, 7, 7⟩ (-4) = some (0, ⟨0, 1, 1⟩) := by decide
example : ∃ p, seek exBlock ⟨0, 0, 0⟩ (-5) = some (0, p) ∧ PointsTo exBlock p 0 := by
  obtain ⟨p, h1, h2, _⟩ := (C01_seek exBlock exBlock_layout ⟨0, 0, 0⟩ (-5) ⟨by decide, by decide⟩).1
    ⟨by decide, by decide⟩
  exact ⟨p, h1, h2⟩

/-- **C02, false as stated.** A relative move to before the first row is not refused: it wraps around
and is counted from the end. -/
theorem C02_wraps : ∃ (bb : Block) (ptr p : Ptr) (d : Int), Layout bb ∧ PointsTo bb ptr 1 ∧
    (1 : Int) + d < 0 ∧ seekRel bb ptr d = some (0, p) ∧ PointsTo bb p 4 :=
  ⟨exBlock, ⟨0, 1, 1⟩, ⟨2, 2, 4⟩, -2, exBlock_layout,
    ⟨Or.inl (by decide), by decide, by decide, by decide⟩, by decide, by decide,
    ⟨Or.inl (by decide), by decide, by decide, by decide⟩⟩

/-- **C02, partial.** From any pointer denoting row `t`, a relative move by `d` has the same result as
seeking to `t+d`; so for `0 ≤ t+d ≤ size` it denotes row `t+d`, and beyond the end (or before
`-size`) it is refused with the pointer unchanged. Missing: moves with `-size ≤ t+d < 0` are not
refused (`C02_wraps`). -/
theorem C02_seek_rel_partial (bb : Block) (h : Layout bb) (ptr : Ptr) (t : Nat)
    (hp : PointsTo bb ptr t) (d : Int) (hd : IsI64 ((t : Int) + d)) :
    seekRel bb ptr d = seek bb ptr (t + d) ∧
    (0 ≤ (t : Int) + d → (t : Int) + d ≤ bb.size → ∃ p, seekRel bb ptr d = some (0, p) ∧
      PointsTo bb p ((t : Int) + d).toNat ∧ p.aoffset = (t : Int) + d) ∧
    ((bb.size : Int) < (t : Int) + d ∨ (t : Int) + d < -(bb.size : Int) →
      seekRel bb ptr d = some (-1, ptr)) := by
  have e := seekRel_spec bb h ptr t hp d hd
  refine ⟨e, ?_, ?_⟩
  · intro h0 h1
    obtain ⟨p, hp1, hp2, hp3⟩ := (C01_seek bb h ptr _ hd).1 ⟨by omega, h1⟩
    rw [if_neg (by omega)] at hp2 hp3
    exact ⟨p, by rw [e, hp1], hp2, hp3⟩
  · intro h0
    rw [e]
    exact (C01_seek bb h ptr _ hd).2 (by omega)

/-- **C02, composition (partial).** Seeking to row `p` and then moving by `d` is the same as seeking to
`p+d`, whenever both ends are rows of the block or its end. -/
theorem C02_compose_partial (bb : Block) (h : Layout bb) (ptr q : Ptr) (p : Nat) (d : Int)
    (hp : p ≤ bb.size) (hs : seek bb ptr p = some (0, q)) (h0 : 0 ≤ (p : Int) + d)
    (h1 : (p : Int) + d ≤ bb.size) :
    ∃ r, seekRel bb q d = some (0, r) ∧ seek bb ptr ((p : Int) + d) = some (0, r) := by
  have hsm := h.small
  have hsz := h.size
  obtain ⟨q', h2, h3, _⟩ := seek_nat bb h ptr p (by omega)
  rw [hs] at h2
  have : q = q' := by injection h2 with h2; injection h2
  subst this
  rw [seekRel_spec bb h q p h3 d ⟨by omega, by omega⟩]
  have e : (p : Int) + d = (((p : Int) + d).toNat : Nat) := by omega
  obtain ⟨r, hr1, _⟩ := seek_nat bb h q ((p : Int) + d).toNat (by omega)
  rw [← e] at hr1
  refine ⟨r, hr1, ?_⟩
  rw [← hr1]
  unfold seek
  split
  · rfl
  · rw [if_neg (show ¬ ((p : Int) + d < 0) by omega)]
    simp only [Option.pure_def, Option.bind_eq_bind, Option.bind_some]
    have hu : ¬ u64 ((p : Int) + d) > bb.size := by rw [u64_nonneg h0 (by omega)]; omega
    rw [if_neg hu, if_neg hu, if_neg (show ¬ ((p : Int) + d < 0) by omega)]

example : seekRel exBlock ⟨0, 1, 1⟩ 3 = some (0, ⟨2, 2, 4⟩) := by decide
example : PointsTo exBlock ⟨0, 1, 1⟩ 1 := ⟨Or.inl (by decide), by decide, by decide, by decide⟩

end Verif
