import Verif.Spec.Block
/-!
# Seeking
-/

set_option autoImplicit false

namespace Verif

open Spec

theorem start_zero (fs : List Nat) : start fs 0 = 0 := by simp [start]

theorem start_succ (fs : List Nat) (f : Nat) (h : f < fs.length) :
    start fs (f + 1) = start fs f + fs[f] := by
  unfold start
  rw [List.take_succ_eq_append_getElem h, List.sum_append]
  simp

theorem start_all (fs : List Nat) (f : Nat) (h : fs.length ≤ f) : start fs f = fs.sum := by
  unfold start
  rw [List.take_of_length_le h]

theorem start_le_succ (fs : List Nat) (f : Nat) : start fs f ≤ start fs (f + 1) := by
  by_cases h : f < fs.length
  · rw [start_succ fs f h]; omega
  · rw [start_all fs f (by omega), start_all fs (f + 1) (by omega)]; omega

theorem start_mono (fs : List Nat) {f g : Nat} (h : f ≤ g) : start fs f ≤ start fs g := by
  induction g with
  | zero => have : f = 0 := by omega
            subst this; omega
  | succ g ih =>
    rcases Nat.lt_or_ge f (g + 1) with h1 | h1
    · exact Nat.le_trans (ih (by omega)) (start_le_succ fs g)
    · have : f = g + 1 := by omega
      subst this; omega

theorem start_le (fs : List Nat) (f : Nat) : start fs f ≤ fs.sum := by
  have := start_mono fs (Nat.le_max_left f fs.length)
  rw [start_all fs (max f fs.length) (Nat.le_max_right _ _)] at this
  exact this

theorem Spec.Layout.foff_get {bb : Block} (h : Layout bb) {i : Nat} (hi : i ≤ bb.nfile) :
    bb.foffset[i]? = some (start bb.fsize i) := by
  rw [h.foff]
  simp [show i < bb.nfile + 1 by omega]

theorem Spec.Layout.start_nfile {bb : Block} (h : Layout bb) : start bb.fsize bb.nfile = bb.fsize.sum :=
  start_all _ _ (by rw [h.nfile]; omega)

theorem seekSearch_spec (bb : Block) (h : Layout bb) (t : Nat) (ht : t < 18446744073709551616)
    (n : Nat) : ∀ (left right : Nat), right - left ≤ n → left < right → right ≤ bb.nfile →
    start bb.fsize left ≤ t → (right = bb.nfile ∨ t < start bb.fsize right) →
    ∃ l, seekSearch bb.foffset t (n + 1) left right = some l ∧ l < bb.nfile ∧ start bb.fsize l ≤ t ∧
      (l + 1 = bb.nfile ∨ t < start bb.fsize (l + 1)) := by
  induction n with
  | zero => intro left right h1 h2; omega
  | succ n ih =>
    intro left right h1 h2 h3 h4 h5
    unfold seekSearch
    by_cases hr : right > left + 1
    · rw [if_pos hr]
      simp only
      have hm : (right - left) / 2 + left ≤ bb.nfile := by omega
      rw [h.foff_get hm]
      simp only
      rw [u64_of_nat ht]
      by_cases hle : start bb.fsize ((right - left) / 2 + left) ≤ t
      · rw [if_pos hle]
        exact ih _ _ (by omega) (by omega) h3 hle h5
      · rw [if_neg hle]
        exact ih _ _ (by omega) (by omega) (by omega) h4 (Or.inr (by omega))
    · rw [if_neg hr]
      have : right = left + 1 := by omega
      subst this
      refine ⟨left, rfl, by omega, h4, ?_⟩
      rcases h5 with h5 | h5
      · exact Or.inl h5
      · exact Or.inr h5

/-- Seeking to a row of the block or to its end. -/
theorem seek_nat (bb : Block) (h : Layout bb) (ptr : Ptr) (t : Nat) (ht : t ≤ bb.fsize.sum) :
    ∃ p, seek bb ptr t = some (0, p) ∧ PointsTo bb p t ∧ p.aoffset = t := by
  unfold seek
  have hsm := h.small
  by_cases h0 : bb.size = 0 ∧ (t : Int) = 0
  · rw [if_pos h0]
    have ht0 : t = 0 := by omega
    subst ht0
    refine ⟨⟨0, 0, 0⟩, rfl, ⟨?_, ?_, by simp, ?_⟩, by simp⟩
    · rcases Nat.eq_zero_or_pos bb.nfile with hz | hz
      · exact Or.inr ⟨hz, rfl⟩
      · exact Or.inl hz
    · simp [start_zero]
    · intro hc
      rw [← h.size] at hc
      omega
  · rw [if_neg h0]
    have hneg : ¬ ((t : Int) < 0) := by omega
    rw [if_neg hneg]
    simp only [Option.pure_def, Option.bind_eq_bind, Option.bind_some]
    have hu : u64 (t : Int) = t := u64_of_nat (by omega)
    rw [hu, if_neg (by rw [h.size]; omega)]
    have hnf : 0 < bb.nfile := by
      rcases Nat.eq_zero_or_pos bb.nfile with hz | hz
      · exfalso
        have : bb.fsize = [] := by
          apply List.eq_nil_of_length_eq_zero; rw [h.nfile, hz]
        rw [this] at ht
        have h1 := h.size
        rw [this] at h1
        simp at ht h1
        omega
      · exact hz
    obtain ⟨l, hl1, hl2, hl3, hl4⟩ := seekSearch_spec bb h t (by omega) bb.nfile 0 bb.nfile
      (by omega) hnf (by omega) (by rw [start_zero]; omega) (Or.inl rfl)
    rw [hl1]
    simp only [Option.bind_some]
    rw [h.foff_get (by omega)]
    simp only [Option.bind_some]
    refine ⟨_, rfl, ⟨Or.inl hl2, ?_, ?_, ?_⟩, rfl⟩
    · simp only
      rw [i64_of_range (by omega) (by omega)]; omega
    · simp only
      rw [i64_of_range (by omega) (by omega)]; omega
    · intro hlt
      simp only
      rcases hl4 with h4 | h4
      · rw [h4, h.start_nfile]; exact hlt
      · exact h4

/-- Seeking outside of `[-size, size]` fails. -/
theorem seek_out (bb : Block) (h : Layout bb) (ptr : Ptr) (o : Int) (ho : IsI64 o)
    (hout : o < -(bb.fsize.sum : Int) ∨ (bb.fsize.sum : Int) < o) :
    seek bb ptr o = some (-1, ptr) := by
  unfold seek
  have hsm := h.small
  have hsz := h.size
  obtain ⟨ho1, ho2⟩ := ho
  rw [if_neg (by omega)]
  by_cases hneg : o < 0
  · rw [if_pos hneg, h.foff_get (Nat.le_refl _), h.start_nfile]
    simp only [Option.pure_def, Option.bind_eq_bind, Option.bind_some]
    rw [i64_of_range (by omega) (by omega)]
    rw [if_pos]
    rw [u64_neg (by omega) (by omega)]
    omega
  · rw [if_neg hneg]
    simp only [Option.pure_def, Option.bind_eq_bind, Option.bind_some]
    rw [if_pos]
    rw [u64_nonneg (by omega) (by omega)]
    omega

/-- A negative offset counts from the end. -/
theorem seek_neg (bb : Block) (h : Layout bb) (ptr : Ptr) (o : Int) (ho : o < 0)
    (hge : -(bb.fsize.sum : Int) ≤ o) :
    seek bb ptr o = seek bb ptr (bb.fsize.sum + o) := by
  have hsm := h.small
  have hsz := h.size
  unfold seek
  rw [if_neg (by omega), if_pos ho, h.foff_get (Nat.le_refl _), h.start_nfile]
  rw [if_neg (by omega), if_neg (by omega)]
  simp only [Option.pure_def, Option.bind_eq_bind, Option.bind_some]
  rw [i64_of_range (by omega) (by omega)]
  have : o + (bb.fsize.sum : Int) = bb.fsize.sum + o := by omega
  rw [this]

theorem Spec.PointsTo.foff {bb : Block} (h : Layout bb) {ptr : Ptr} {t : Nat} (hp : PointsTo bb ptr t) :
    bb.foffset[ptr.fileid]? = some (start bb.fsize ptr.fileid) := by
  apply h.foff_get
  rcases hp.file with h1 | h1 <;> omega

/-- Only rows up to the end of the block can be denoted by a seek. -/
theorem Spec.PointsTo.unique {bb : Block} {p : Ptr} {t t' : Nat} (h : PointsTo bb p t)
    (h' : PointsTo bb p t') : t = t' := by
  have := h.row; have := h'.row; omega

theorem eof_spec (bb : Block) (h : Layout bb) (ptr : Ptr) (t : Nat) (hp : PointsTo bb ptr t)
    (ht : t ≤ bb.fsize.sum) : eof bb ptr = some (decide (t = bb.fsize.sum)) := by
  unfold eof
  have hsm := h.small
  rw [hp.foff h]
  simp only [Option.pure_def, Option.bind_eq_bind, Option.bind_some]
  rw [hp.row, i64_of_range (by omega) (by omega), u64_of_nat (by omega), h.size]
  congr 1
  apply decide_eq_decide.mpr
  omega

theorem seekRel_spec (bb : Block) (h : Layout bb) (ptr : Ptr) (t : Nat) (hp : PointsTo bb ptr t)
    (d : Int) (hd : IsI64 ((t : Int) + d)) : seekRel bb ptr d = seek bb ptr (t + d) := by
  unfold seekRel
  rw [hp.foff h]
  simp only [Option.bind_eq_bind, Option.bind_some]
  rw [hp.row, i64_of_range hd.1 hd.2]

/-- Two pointers to the same row that is not the end are equal up to `aoffset`. -/
theorem Spec.PointsTo.same {bb : Block} {p q : Ptr} {t : Nat} (hp : PointsTo bb p t)
    (hq : PointsTo bb q t) (ht : t < bb.fsize.sum) : p.fileid = q.fileid ∧ p.roffset = q.roffset := by
  have h1 := hp.row; have h2 := hq.row
  have h3 := hp.holds ht; have h4 := hq.holds ht
  have h5 := hp.nonneg; have h6 := hq.nonneg
  have hf : p.fileid = q.fileid := by
    rcases Nat.lt_trichotomy p.fileid q.fileid with hlt | heq | hgt
    · have := start_mono bb.fsize (show p.fileid + 1 ≤ q.fileid by omega); omega
    · exact heq
    · have := start_mono bb.fsize (show q.fileid + 1 ≤ p.fileid by omega); omega
  rw [hf] at h1
  exact ⟨hf, by omega⟩

end Verif
