import Verif.Model.Mpiu
import Verif.Spec.Parallel
/-!
# Parallel helpers: C42, C43, C44, C49, C50
-/

set_option autoImplicit false

namespace Verif
open Spec

/-! ## C42 -/

theorem splitSize_eq {size nfile i : Nat} (h : size * nfile < 18446744073709551616) (hi : i < nfile) :
    splitSize size nfile i = size * (i + 1) / nfile - size * i / nfile := by
  have h1 : size * (i + 1) ≤ size * nfile := Nat.mul_le_mul_left _ hi
  have h2 : size * i ≤ size * (i + 1) := Nat.mul_le_mul_left _ (by omega)
  unfold splitSize
  rw [u64_of_nat (by omega), u64_of_nat (by omega)]
  have h3 : size * i / nfile ≤ size * (i + 1) / nfile := Nat.div_le_div_right h2
  have h4 : size * (i + 1) / nfile ≤ size * (i + 1) := Nat.div_le_self _ _
  generalize size * (i + 1) / nfile = x at *
  generalize size * i / nfile = y at *
  unfold u64
  omega

theorem sum_diffs (f : Nat → Nat) (hf : ∀ i j, i ≤ j → f i ≤ f j) (n : Nat) :
    ((List.range n).map (fun i => f (i + 1) - f i)).sum = f n - f 0 := by
  induction n with
  | zero => simp
  | succ n ih =>
    rw [List.range_succ, List.map_append, List.sum_append, ih]
    have := hf 0 n (by omega)
    have := hf n (n + 1) (by omega)
    simp
    omega

/-- One part of the split is the quotient or one more. -/
theorem part_bounds (size nfile i : Nat) (hn : 0 < nfile) :
    size / nfile ≤ size * (i + 1) / nfile - size * i / nfile ∧
      size * (i + 1) / nfile - size * i / nfile ≤ size / nfile + 1 := by
  rw [Nat.mul_add, Nat.mul_one]
  generalize size * i = a
  have h1 := Nat.div_add_mod a nfile
  have h2 := Nat.div_add_mod size nfile
  have h3 := Nat.mod_lt a hn
  have h4 := Nat.mod_lt size hn
  have e : (a + size) / nfile = a / nfile + size / nfile + (a % nfile + size % nfile) / nfile := by
    have : a + size = (a % nfile + size % nfile) + nfile * (a / nfile + size / nfile) := by
      rw [Nat.mul_add]; omega
    rw [this, Nat.add_mul_div_left _ _ hn]; omega
  have h5 : (a % nfile + size % nfile) / nfile ≤ 1 := by
    have : (a % nfile + size % nfile) / nfile < 2 := Nat.div_lt_of_lt_mul (by omega)
    omega
  rw [e]
  generalize (a % nfile + size % nfile) / nfile = c at *
  generalize a / nfile = x at *
  generalize size / nfile = y at *
  omega

/-- **C42, as long as `size * Nfile` fits in a `size_t`.** What is missing is in `C42_overflow`. -/
theorem C42_split_partial (size nfile : Nat) (hn : 0 < nfile) (h : size * nfile < 18446744073709551616) :
    (evenSplit size nfile).length = nfile ∧ EvenlySplits size (evenSplit size nfile) := by
  have e : evenSplit size nfile =
      (List.range nfile).map (fun i => size * (i + 1) / nfile - size * i / nfile) := by
    unfold evenSplit
    apply List.map_congr_left
    intro i hi
    exact splitSize_eq h (List.mem_range.mp hi)
  refine ⟨by simp [evenSplit], ?_, ?_⟩
  · rw [e, sum_diffs (fun i => size * i / nfile) (fun i j hij => Nat.div_le_div_right (Nat.mul_le_mul_left _ hij))]
    simp [Nat.mul_div_cancel _ hn]
  · intro a ha b hb
    rw [e] at ha hb
    obtain ⟨i, _, rfl⟩ := List.mem_map.mp ha
    obtain ⟨j, _, rfl⟩ := List.mem_map.mp hb
    have h1 := part_bounds size nfile i hn
    have h2 := part_bounds size nfile j hn
    omega

example : EvenlySplits 10 (evenSplit 10 4) := (C42_split_partial 10 4 (by decide) (by decide)).2

example : evenSplit 10 4 = [2, 3, 2, 3] := by decide

/-- **C42 is false when the product wraps**: 2^61 rows over 8 files ask for no rows at all in each
file but one would expect 2^58. -/
theorem C42_overflow :
    evenSplit 2305843009213693952 8 ≠ [] ∧ ¬ (evenSplit 2305843009213693952 8).sum = 2305843009213693952 := by
  decide +kernel

/-! ## C43: which process truncates which file -/

theorem rangeStart_eq {nfile ntask rank : Nat} (h : nfile * rank < 18446744073709551616) :
    rangeStart nfile ntask rank = nfile * rank / ntask := by
  unfold rangeStart
  rw [u64_of_nat h]

theorem range_append (a b : Nat) : List.range a ++ (List.range b).map (a + ·) = List.range (a + b) := by
  rw [List.range_add]

theorem rankFiles_prefix (nfile ntask : Nat) (h : nfile * ntask < 18446744073709551616) :
    ∀ r ≤ ntask, (List.range r).flatMap (rankFiles nfile ntask) = List.range (nfile * r / ntask) := by
  intro r
  induction r with
  | zero => intro _; simp
  | succ r ih =>
    intro hr
    have h1 : nfile * r ≤ nfile * (r + 1) := Nat.mul_le_mul_left _ (by omega)
    have h2 : nfile * (r + 1) ≤ nfile * ntask := Nat.mul_le_mul_left _ hr
    rw [List.range_succ, List.flatMap_append, ih (by omega)]
    simp only [List.flatMap_cons, List.flatMap_nil, List.append_nil]
    unfold rankFiles
    rw [rangeStart_eq (by omega), rangeStart_eq (by omega), range_append]
    have : nfile * r / ntask ≤ nfile * (r + 1) / ntask := Nat.div_le_div_right h1
    congr 1
    omega

/-- The files of all processes, in rank order, are exactly the files `0, ..., nfile-1`. -/
theorem rankFiles_all (nfile ntask : Nat) (ht : 0 < ntask) (h : nfile * ntask < 18446744073709551616) :
    (List.range ntask).flatMap (rankFiles nfile ntask) = List.range nfile := by
  rw [rankFiles_prefix nfile ntask h ntask (by omega), Nat.mul_div_cancel _ ht]

/-- Two members of a list of lists whose concatenation has no repetition are disjoint. -/
theorem flatMap_disjoint {f : Nat → List Nat} {n : Nat} (h : ((List.range n).flatMap f).Nodup) {r s i : Nat}
    (hr : r < n) (hs : s < n) (hi : i ∈ f r) (hj : i ∈ f s) : r = s := by
  induction n with
  | zero => omega
  | succ n ih =>
    rw [List.range_succ, List.flatMap_append, List.nodup_append] at h
    simp only [List.flatMap_cons, List.flatMap_nil, List.append_nil] at h
    obtain ⟨h1, h2, h3⟩ := h
    by_cases er : r = n
    · by_cases es : s = n
      · omega
      · subst er
        exact absurd rfl (h3 i (List.mem_flatMap.mpr ⟨s, List.mem_range.mpr (by omega), hj⟩) i hi)
    · by_cases es : s = n
      · subst es
        exact absurd rfl (h3 i (List.mem_flatMap.mpr ⟨r, List.mem_range.mpr (by omega), hi⟩) i hj)
      · exact ih h1 (by omega) (by omega)

/-- **C43, the division of labour**: a file is truncated by exactly one process, once, if it is one of
the `nfile` new files, and by none otherwise. Process and file counts are `int`s. -/
theorem C43_once (nfile ntask : Nat) (ht : 0 < ntask) (hn : nfile < 2147483648) (hm : ntask < 2147483648) :
    (∀ i, i < nfile → ∃ r, r < ntask ∧ (rankFiles nfile ntask r).count i = 1 ∧
      ∀ s, s < ntask → s ≠ r → i ∉ rankFiles nfile ntask s) ∧
    (∀ i r, r < ntask → i ∈ rankFiles nfile ntask r → i < nfile) := by
  have hb : nfile * ntask < 18446744073709551616 := by
    have : nfile * ntask ≤ 2147483648 * 2147483648 := Nat.mul_le_mul (by omega) (by omega)
    omega
  have hall := rankFiles_all nfile ntask ht hb
  have hnd : ((List.range ntask).flatMap (rankFiles nfile ntask)).Nodup := by rw [hall]; exact List.nodup_range
  constructor
  · intro i hi
    have : i ∈ (List.range ntask).flatMap (rankFiles nfile ntask) := by rw [hall]; exact List.mem_range.mpr hi
    obtain ⟨r, hr, hir⟩ := List.mem_flatMap.mp this
    have hr := List.mem_range.mp hr
    refine ⟨r, hr, ?_, ?_⟩
    · have hnd' : (rankFiles nfile ntask r).Nodup := by
        unfold rankFiles
        exact List.Pairwise.map _ (fun a b h => by omega) List.nodup_range
      rw [hnd'.count, if_pos hir]
    · intro s hs hne his
      exact hne (flatMap_disjoint hnd hs hr his hir)
  · intro i r hr hir
    have : i ∈ (List.range ntask).flatMap (rankFiles nfile ntask) :=
      List.mem_flatMap.mpr ⟨r, List.mem_range.mpr hr, hir⟩
    rw [hall] at this
    exact List.mem_range.mp this

example : rankFiles 10 4 1 = [2, 3, 4] ∧ rankFiles 10 4 3 = [7, 8, 9] ∧ rankFiles 2 5 1 = [] := by decide

/-! ## C44 -/

theorem colorsLoop_length (g : Nat) : ∀ (P : List (Nat × Nat)) (a b c : Nat),
    (colorsLoop g P a b c).length = P.length := by
  intro P
  induction P with
  | nil => intros; rfl
  | cons p P ih => intro a b c; rw [colorsLoop]; split <;> simp [ih]

theorem colorsLoop_ge (g : Nat) : ∀ (P : List (Nat × Nat)) (a b c : Nat), ∀ x ∈ colorsLoop g P a b c, c ≤ x := by
  intro P
  induction P with
  | nil => intro a b c x hx; simp [colorsLoop] at hx
  | cons p P ih =>
    intro a b c x hx
    rw [colorsLoop] at hx
    split at hx <;> rcases List.mem_cons.mp hx with rfl | hx
    · omega
    · have := ih _ _ _ x hx; omega
    · omega
    · exact ih _ _ _ x hx

theorem colorsLoop_sorted (g : Nat) : ∀ (P : List (Nat × Nat)) (a b c : Nat),
    (colorsLoop g P a b c).Pairwise (· ≤ ·) := by
  intro P
  induction P with
  | nil => intros; exact List.Pairwise.nil
  | cons p P ih =>
    intro a b c
    rw [colorsLoop]
    split
    · refine List.Pairwise.cons (fun x hx => ?_) (ih _ _ _)
      have := colorsLoop_ge g P _ _ _ x hx; omega
    · exact List.Pairwise.cons (fun x hx => colorsLoop_ge g P _ _ _ x hx) (ih _ _ _)

theorem sorted_le_last : ∀ (l : List Nat) (d : Nat), l.Pairwise (· ≤ ·) → ∀ x ∈ l, x ≤ l.getLastD d := by
  intro l
  induction l with
  | nil => intro d _ x hx; simp at hx
  | cons a l ih =>
    intro d hp x hx
    rw [List.getLastD_cons]
    rcases List.mem_cons.mp hx with rfl | hx
    · cases l with
      | nil => simp
      | cons b l =>
        have h1 := (List.pairwise_cons.mp hp).1 b (by simp)
        have h2 := ih x (List.pairwise_cons.mp hp).2 b (by simp)
        omega
    · exact ih a (List.pairwise_cons.mp hp).2 x hx

/-- Sizes with the colours found for them. -/
def withColors (g : Nat) (l : List Nat) (cur color : Nat) : List (Nat × Int) :=
  l.zip ((colorsLoop g (l.zip l) cur cur color).map Int.ofNat)

theorem withColors_cons (g : Nat) (s : Nat) (l : List Nat) (cur color : Nat) (h : cur + s < 18446744073709551616) :
    withColors g (s :: l) cur color =
      (s, (color : Int)) :: (if cur + s > g then withColors g l 0 (color + 1) else withColors g l (cur + s) color) := by
  unfold withColors
  rw [List.zip_cons_cons, colorsLoop]
  rw [u64_of_nat h]
  by_cases hg : cur + s > g
  · simp [hg]
  · simp [hg]

theorem segTotal_ge (P : List (Nat × Int)) (c : Int) (h : ∀ x ∈ P, x.2 ≠ c) : segTotal P c = 0 := by
  induction P with
  | nil => rfl
  | cons x P ih =>
    obtain ⟨s, d⟩ := x
    rw [segTotal, if_neg (h (s, d) (by simp)), ih (fun x hx => h x (by simp [hx]))]

theorem mem_withColors_ge {g : Nat} {l : List Nat} {cur color : Nat} {x : Nat × Int}
    (h : x ∈ withColors g l cur color) : (color : Int) ≤ x.2 := by
  have := (List.of_mem_zip h).2
  obtain ⟨y, hy, e⟩ := List.mem_map.mp this
  have := colorsLoop_ge g _ _ _ _ y hy
  have : (y : Int) = x.2 := e
  omega

/-- Before a member is added its segment holds at most the target. -/
theorem withColors_bounded (g : Nat) : ∀ (l : List Nat) (cur color : Nat), cur ≤ g →
    cur + l.sum < 18446744073709551616 → ∀ pre x post, withColors g l cur color = pre ++ x :: post →
    segTotal pre x.2 + (if x.2 = (color : Int) then cur else 0) ≤ g := by
  intro l
  induction l with
  | nil => intro cur color _ _ pre x post h; simp [withColors] at h
  | cons s l ih =>
    intro cur color hc hs pre x post h
    rw [List.sum_cons] at hs
    rw [withColors_cons g s l cur color (by omega)] at h
    cases pre with
    | nil =>
      simp only [List.nil_append, List.cons.injEq] at h
      rw [← h.1]
      simp [segTotal]
      exact hc
    | cons p pre =>
      simp only [List.cons_append, List.cons.injEq] at h
      obtain ⟨rfl, h⟩ := h
      rw [segTotal]
      have hx : ∀ cur' color', withColors g l cur' color' = pre ++ x :: post → (color' : Int) ≤ x.2 := by
        intro a b e
        exact mem_withColors_ge (g := g) (l := l) (cur := a) (color := b) (by rw [e]; simp)
      split at h
      · have h1 := ih 0 (color + 1) (by omega) (by omega) pre x post h
        have h2 := hx _ _ h
        rw [if_neg (by omega), if_neg (by omega)]
        omega
      · have h1 := ih (cur + s) color (by omega) (by omega) pre x post h
        by_cases hxc : x.2 = (color : Int)
        · rw [if_pos hxc] at h1
          rw [if_pos hxc.symm, if_pos hxc]
          omega
        · rw [if_neg hxc] at h1
          rw [if_neg (fun e => hxc e.symm), if_neg hxc]
          omega

/-- The last colour given. -/
def lastColor (g : Nat) (l : List Nat) (cur color : Nat) : Nat :=
  (colorsLoop g (l.zip l) cur cur color).getLastD color

/-- Every segment but the last holds more than the target. -/
theorem withColors_full (g : Nat) : ∀ (l : List Nat) (cur color : Nat), cur ≤ g →
    cur + l.sum < 18446744073709551616 → ∀ c : Nat, color ≤ c → c < lastColor g l cur color →
    g < segTotal (withColors g l cur color) c + (if c = color then cur else 0) := by
  intro l
  induction l with
  | nil => intro cur color _ _ c h1 h2; simp [lastColor, colorsLoop] at h2; omega
  | cons s l ih =>
    intro cur color hc hs c h1 h2
    rw [List.sum_cons] at hs
    rw [withColors_cons g s l cur color (by omega), segTotal]
    have hlast : lastColor g (s :: l) cur color =
        if cur + s > g then (colorsLoop g (l.zip l) 0 0 (color + 1)).getLastD color
        else lastColor g l (cur + s) color := by
      unfold lastColor
      rw [List.zip_cons_cons, colorsLoop]
      rw [u64_of_nat (by omega)]
      by_cases hg : cur + s > g
      · rw [if_pos (Or.inl hg), if_pos hg, List.getLastD_cons]
      · rw [if_neg (by omega), if_neg hg, List.getLastD_cons]
    rw [hlast] at h2
    by_cases hg : cur + s > g
    · rw [if_pos hg] at h2 ⊢
      by_cases hcc : c = color
      · rw [if_pos (by omega), if_pos hcc]; omega
      · rw [if_neg (by omega), if_neg hcc]
        have hl : c < lastColor g l 0 (color + 1) := by
          unfold lastColor
          cases l with
          | nil => simp [colorsLoop] at h2; omega
          | cons a l =>
            have hne : colorsLoop g ((a :: l).zip (a :: l)) 0 0 (color + 1) ≠ [] := by
              intro e
              have := congrArg List.length e
              rw [colorsLoop_length] at this
              simp at this
            generalize colorsLoop g ((a :: l).zip (a :: l)) 0 0 (color + 1) = q at h2 hne
            cases q with
            | nil => exact absurd rfl hne
            | cons b q => rw [List.getLastD_cons] at h2 ⊢; exact h2
        have := ih 0 (color + 1) (by omega) (by omega) c (by omega) hl
        split at this <;> omega
    · rw [if_neg hg] at h2 ⊢
      have := ih (cur + s) color (by omega) (by omega) c h1 h2
      by_cases hcc : c = color
      · rw [if_pos hcc] at this
        rw [if_pos (by omega), if_pos hcc]
        omega
      · rw [if_neg hcc] at this
        rw [if_neg (by omega), if_neg hcc]
        omega

/-- Giving colour `-1` to entries without rows. -/
def dropEmpty (P : List (Nat × Int)) : List (Nat × Int) := P.map (fun x => (x.1, if x.1 = 0 then -1 else x.2))

theorem segTotal_dropEmpty (P : List (Nat × Int)) (c : Int) (hc : 0 ≤ c) :
    segTotal (dropEmpty P) c = segTotal P c := by
  induction P with
  | nil => rfl
  | cons x P ih =>
    obtain ⟨s, d⟩ := x
    have : dropEmpty ((s, d) :: P) = (s, if s = 0 then -1 else d) :: dropEmpty P := rfl
    rw [this, segTotal, segTotal, ih]
    by_cases hs : s = 0
    · subst hs; simp
    · rw [if_neg hs]

theorem assignColors_zip (g : Nat) (sizes : List Nat) :
    sizes.zip (assignColors g sizes none).1 = dropEmpty (withColors g sizes 0 0) := by
  unfold assignColors withColors dropEmpty
  simp only [Option.getD_none]
  have : ∀ (l : List Nat) (cs : List Nat), l.length = cs.length →
      l.zip (List.zipWith (fun (p : Nat × Nat) (c : Nat) => if p.1 = 0 ∧ p.2 = 0 then (-1 : Int) else c) (l.zip l) cs) =
        (l.zip (cs.map Int.ofNat)).map (fun x => (x.1, if x.1 = 0 then -1 else x.2)) := by
    intro l
    induction l with
    | nil => intro cs _; rfl
    | cons a l ih =>
      intro cs hl
      cases cs with
      | nil => simp at hl
      | cons c cs => simp only [List.length_cons, Nat.add_right_cancel_iff] at hl; simp [ih cs hl]
  exact this _ _ (by rw [colorsLoop_length]; simp)

/-- **C44, segments.** For all process counts, sizes and targets. -/
theorem C44_segments (g : Nat) (sizes : List Nat) (hs : sizes.sum < 18446744073709551616) :
    (assignColors g sizes none).1.length = sizes.length ∧
    GoodSegments g (assignColors g sizes none).2 (sizes.zip (assignColors g sizes none).1) := by
  have hlen : (assignColors g sizes none).1.length = sizes.length := by
    unfold assignColors
    simp [colorsLoop_length]
  refine ⟨hlen, ?_⟩
  rw [assignColors_zip]
  have hnseg : (assignColors g sizes none).2 = lastColor g sizes 0 0 + 1 := rfl
  rw [hnseg]
  have hmem : ∀ x ∈ dropEmpty (withColors g sizes 0 0), ∃ y ∈ withColors g sizes 0 0,
      x = (y.1, if y.1 = 0 then -1 else y.2) := by
    intro x hx
    obtain ⟨y, hy, e⟩ := List.mem_map.mp hx
    exact ⟨y, hy, e.symm⟩
  constructor
  · intro x hx
    obtain ⟨y, hy, rfl⟩ := hmem x hx
    by_cases h0 : y.1 = 0
    · left; simp [h0]
    · right
      have h1 := (List.of_mem_zip hy).2
      obtain ⟨z, hz, e⟩ := List.mem_map.mp h1
      have h2 := sorted_le_last _ 0 (colorsLoop_sorted g _ _ _ _) z hz
      have h3 : (z : Int) = y.2 := e
      simp only [h0, if_false]
      unfold lastColor
      refine ⟨by omega, by omega, by omega⟩
  · unfold dropEmpty
    rw [List.pairwise_map]
    have : (withColors g sizes 0 0).Pairwise (fun a b => a.2 ≤ b.2) := by
      have hsort := colorsLoop_sorted g (sizes.zip sizes) 0 0 0
      have hsort' : ((withColors g sizes 0 0).map (·.2)).Pairwise (· ≤ ·) := by
        unfold withColors
        rw [List.map_snd_zip (by simp [colorsLoop_length])]
        rw [List.pairwise_map]
        exact hsort.imp (fun h => Int.ofNat_le.mpr h)
      rw [List.pairwise_map] at hsort'
      exact hsort'
    refine this.imp ?_
    intro a b hab ha hb
    simp only at ha hb ⊢
    rw [if_neg (by omega), if_neg (by omega)]
    exact hab
  · intro c hc
    rw [segTotal_dropEmpty _ _ (by omega)]
    have := withColors_full g sizes 0 0 (by omega) (by omega) c (by omega) (by omega)
    simpa using this
  · intro pre x post he hx
    obtain ⟨pre', rest, e1, e2, e3⟩ := List.map_eq_append_iff.mp he
    obtain ⟨y, post', e4, e5, _⟩ := List.map_eq_cons_iff.mp e3
    subst e5
    simp only at hx
    have := withColors_bounded g sizes 0 0 (by omega) (by omega) pre' y post' (by rw [e1, e4])
    have hy : y ∈ withColors g sizes 0 0 := by rw [e1, e4]; simp
    have hy0 := mem_withColors_ge hy
    rw [← e2]
    have e : segTotal (dropEmpty pre') (if y.1 = 0 then -1 else y.2) = segTotal pre' y.2 := by
      rw [if_neg (by omega)]
      exact segTotal_dropEmpty _ _ (by omega)
    have : segTotal pre' y.2 ≤ g := by split at this <;> omega
    calc _ = _ := e
      _ ≤ g := this

example : assignColors 4 [3, 0, 2, 5, 1, 0, 0] none = ([0, -1, 0, 1, 2, -1, -1], 3) := by decide

example : GoodSegments 4 3 ([3, 0, 2, 5, 1, 0, 0].zip [0, -1, 0, 1, 2, -1, -1]) :=
  (C44_segments 4 [3, 0, 2, 5, 1, 0, 0] (by decide)).2

/-! ### Groups -/

theorem colorsLoop_lt (g : Nat) : ∀ (P : List (Nat × Nat)) (a b c : Nat), ∀ x ∈ colorsLoop g P a b c,
    x < c + P.length := by
  intro P
  induction P with
  | nil => intro a b c x hx; simp [colorsLoop] at hx
  | cons p P ih =>
    intro a b c x hx
    rw [colorsLoop] at hx
    rw [List.length_cons]
    split at hx <;> rcases List.mem_cons.mp hx with rfl | hx
    · omega
    · have := ih _ _ _ x hx; omega
    · omega
    · have := ih _ _ _ x hx; omega

theorem nseg_le (g : Nat) (sizes : List Nat) (hne : sizes ≠ []) : (assignColors g sizes none).2 ≤ sizes.length := by
  have : (assignColors g sizes none).2 = (colorsLoop g (sizes.zip sizes) 0 0 0).getLastD 0 + 1 := rfl
  rw [this]
  have hl : (colorsLoop g (sizes.zip sizes) 0 0 0) ≠ [] := by
    intro e
    have := congrArg List.length e
    rw [colorsLoop_length] at this
    simp at this
    exact hne this
  have hm : (colorsLoop g (sizes.zip sizes) 0 0 0).getLastD 0 ∈ colorsLoop g (sizes.zip sizes) 0 0 0 := by
    rw [List.getLastD_eq_getLast?, List.getLast?_eq_some_getLast hl]
    exact List.getLast_mem hl
  have := colorsLoop_lt g _ _ _ _ _ hm
  rw [List.length_zip] at this
  omega

theorem foldl_min_le (l : List Nat) : ∀ a, l.foldl min a ≤ a ∧ ∀ x ∈ l, l.foldl min a ≤ x := by
  induction l with
  | nil => intro a; simp
  | cons b l ih =>
    intro a
    obtain ⟨h1, h2⟩ := ih (min a b)
    simp only [List.foldl_cons, List.mem_cons]
    refine ⟨by omega, fun x hx => ?_⟩
    rcases hx with rfl | hx
    · omega
    · exact h2 x hx

theorem foldl_max_ge (l : List Nat) : ∀ a, a ≤ l.foldl max a ∧ ∀ x ∈ l, x ≤ l.foldl max a := by
  induction l with
  | nil => intro a; simp
  | cons b l ih =>
    intro a
    obtain ⟨h1, h2⟩ := ih (max a b)
    simp only [List.foldl_cons, List.mem_cons]
    refine ⟨by omega, fun x hx => ?_⟩
    rcases hx with rfl | hx
    · omega
    · exact h2 x hx

theorem foldl_min_mem (l : List Nat) : ∀ a, l.foldl min a = a ∨ l.foldl min a ∈ l := by
  induction l with
  | nil => intro a; simp
  | cons b l ih =>
    intro a
    simp only [List.foldl_cons, List.mem_cons]
    rcases ih (min a b) with h | h
    · by_cases hab : a ≤ b
      · left; rw [h]; omega
      · right; left; rw [h]; omega
    · right; right; exact h

theorem foldl_max_mem (l : List Nat) : ∀ a, l.foldl max a = a ∨ l.foldl max a ∈ l := by
  induction l with
  | nil => intro a; simp
  | cons b l ih =>
    intro a
    simp only [List.foldl_cons, List.mem_cons]
    rcases ih (max a b) with h | h
    · by_cases hab : b ≤ a
      · left; rw [h]; omega
      · right; left; rw [h]; omega
    · right; right; exact h

/-- Segment and group of a rank, from its colour. -/
theorem segGroups_get (g ngroup : Nat) (sizes : List Nat) (r : Nat) :
    (segGroups g ngroup sizes)[r]? =
      ((assignColors g sizes none).1[r]?).map (segGroup sizes.length ngroup (assignColors g sizes none).2) := by
  unfold segGroups
  rw [List.getElem?_map]

theorem zip_get {α β : Type} {l : List α} {k : List β} {r : Nat} {a : α} {b : β} (h1 : l[r]? = some a)
    (h2 : k[r]? = some b) : (l.zip k)[r]? = some (a, b) := by
  rw [List.getElem?_zip_eq_some]; exact ⟨h1, h2⟩

/-- Properties of the segment and the group of one rank. Process and group counts are `int`s. -/
theorem segGroups_spec (g ngroup : Nat) (sizes : List Nat) (hs : sizes.sum < 18446744073709551616)
    (hn : 0 < ngroup) (hn' : ngroup < 2147483648) (ht : sizes.length < 2147483648)
    {r s seg grp : Nat} (hr : sizes[r]? = some s) (h : (segGroups g ngroup sizes)[r]? = some (seg, grp)) :
    (s = 0 → grp = ngroup + 1) ∧
    (0 < s → (assignColors g sizes none).1[r]? = some (seg : Int) ∧ seg < (assignColors g sizes none).2 ∧
      grp = seg * ngroup / (assignColors g sizes none).2 ∧ grp < ngroup) := by
  obtain ⟨hlen, hgood⟩ := C44_segments g sizes hs
  rw [segGroups_get] at h
  obtain ⟨c, hc, hsg⟩ := Option.map_eq_some_iff.mp h
  have hmem := List.mem_of_getElem? (zip_get hr hc)
  have hne : sizes ≠ [] := by rintro rfl; simp at hr
  have hns := nseg_le g sizes hne
  rcases hgood.range _ hmem with ⟨h0, h1⟩ | ⟨h0, h1, h2⟩
  · simp only at h0 h1
    subst h1
    simp only [segGroup, show ¬ ((-1 : Int) ≥ 0) by omega, if_false, Prod.mk.injEq] at hsg
    exact ⟨fun _ => hsg.2.symm, fun h => by omega⟩
  · simp only at h0 h1 h2
    refine ⟨fun h => by omega, fun _ => ?_⟩
    obtain ⟨n, rfl⟩ := Int.eq_ofNat_of_zero_le h1
    have hlt : n * ngroup < 18446744073709551616 := by
      have : n * ngroup ≤ 2147483648 * 2147483648 := Nat.mul_le_mul (by omega) (by omega)
      omega
    simp only [segGroup, ge_iff_le, h1, if_true, Int.toNat_natCast, Prod.mk.injEq] at hsg
    rw [u64_of_nat (x := n) (by omega), u64_of_nat (x := n * ngroup) hlt] at hsg
    obtain ⟨rfl, rfl⟩ := hsg
    refine ⟨hc, by omega, rfl, ?_⟩
    rw [Nat.div_lt_iff_lt_mul (by omega), Nat.mul_comm ngroup]
    exact Nat.mul_lt_mul_of_pos_right (by omega) hn

/-- **C44, groups.** Every process with data is in one of the `ngroup` groups; groups follow the rank
order; the range of segments a process loops over contains its own segment and every segment of its
group, and ranges of different groups do not overlap. Processes without data are in a group of their
own. -/
theorem C44_groups (g ngroup : Nat) (sizes : List Nat) (hs : sizes.sum < 18446744073709551616)
    (hn : 0 < ngroup) (hn' : ngroup < 2147483648) (ht : sizes.length < 2147483648)
    {r r' s s' : Nat} {q q' : Segmenter} (hr : sizes[r]? = some s) (hr' : sizes[r']? = some s')
    (h : segmenterInit g ngroup sizes r = some q) (h' : segmenterInit g ngroup sizes r' = some q') :
    (s = 0 → q.groupID = ngroup + 1) ∧
    (0 < s → q.groupID < ngroup ∧ (assignColors g sizes none).1[r]? = some (q.thisSegment : Int) ∧
      q.segStart ≤ q.thisSegment ∧ q.thisSegment < q.segEnd) ∧
    (0 < s → 0 < s' → r ≤ r' → q.groupID ≤ q'.groupID) ∧
    (0 < s → 0 < s' → q.groupID = q'.groupID → q.segStart = q'.segStart ∧ q.segEnd = q'.segEnd) ∧
    (0 < s → 0 < s' → q.groupID < q'.groupID → q.segEnd ≤ q'.segStart) := by
  obtain ⟨hlen, hgood⟩ := C44_segments g sizes hs
  unfold segmenterInit at h h'
  dsimp only at h h'
  cases hg : (segGroups g ngroup sizes)[r]? with
  | none => rw [hg] at h; simp at h
  | some p =>
  cases hg' : (segGroups g ngroup sizes)[r']? with
  | none => rw [hg'] at h'; simp at h'
  | some p' =>
  obtain ⟨seg, grp⟩ := p
  obtain ⟨seg', grp'⟩ := p'
  rw [hg] at h
  rw [hg'] at h'
  simp only [Option.some.injEq] at h h'
  subst h h'
  obtain ⟨k1, k2⟩ := segGroups_spec g ngroup sizes hs hn hn' ht hr hg
  obtain ⟨k1', k2'⟩ := segGroups_spec g ngroup sizes hs hn hn' ht hr' hg'
  -- every member of a group of ranks with data
  have member : ∀ {grp x : Nat}, grp < ngroup →
      x ∈ ((segGroups g ngroup sizes).filter (fun q => q.2 = grp)).map (·.1) →
      grp = x * ngroup / (assignColors g sizes none).2 := by
    intro grp x hlt hx
    obtain ⟨⟨a, b⟩, hab, rfl⟩ := List.mem_map.mp hx
    obtain ⟨hab2, hb⟩ := List.mem_filter.mp hab
    simp only [decide_eq_true_eq] at hb
    subst hb
    obtain ⟨i, hi⟩ := List.mem_iff_getElem?.mp hab2
    have hil : i < sizes.length := by
      have := (List.getElem?_eq_some_iff.mp hi).1
      unfold segGroups at this
      simp only [List.length_map] at this
      omega
    obtain ⟨m1, m2⟩ := segGroups_spec g ngroup sizes hs hn hn' ht (List.getElem?_eq_getElem hil) hi
    by_cases h0 : sizes[i] = 0
    · have := m1 h0; omega
    · exact (m2 (by omega)).2.2.1
  have self : ∀ {r seg grp : Nat}, (segGroups g ngroup sizes)[r]? = some (seg, grp) →
      seg ∈ ((segGroups g ngroup sizes).filter (fun q => q.2 = grp)).map (·.1) := by
    intro r seg grp h
    exact List.mem_map.mpr ⟨(seg, grp), List.mem_filter.mpr ⟨List.mem_of_getElem? h, by simp⟩, rfl⟩
  refine ⟨k1, fun h0 => ?_, fun h0 h0' hle => ?_, fun h0 h0' he => ?_, fun h0 h0' hlt => ?_⟩
  · obtain ⟨m1, m2, m3, m4⟩ := k2 h0
    refine ⟨m4, m1, (foldl_min_le _ _).1, ?_⟩
    have := (foldl_max_ge (((segGroups g ngroup sizes).filter (fun q => q.2 = grp)).map (·.1)) seg).1
    dsimp only
    omega
  · obtain ⟨m1, m2, m3, m4⟩ := k2 h0
    obtain ⟨m1', m2', m3', m4'⟩ := k2' h0'
    dsimp only
    rw [m3, m3']
    apply Nat.div_le_div_right
    apply Nat.mul_le_mul_right
    rcases Nat.lt_or_ge r r' with hlt | hge
    · have := List.pairwise_iff_getElem.mp hgood.order r r'
      have e1 := zip_get hr m1
      have e2 := zip_get hr' m1'
      obtain ⟨l1, e1⟩ := List.getElem?_eq_some_iff.mp e1
      obtain ⟨l2, e2⟩ := List.getElem?_eq_some_iff.mp e2
      have := this l1 l2 hlt
      rw [e1, e2] at this
      have := this h0 h0'
      simp only at this
      omega
    · have : r = r' := by omega
      subst this
      rw [hg] at hg'
      simp only [Option.some.injEq, Prod.mk.injEq] at hg'
      omega
  · dsimp only at he ⊢
    subst he
    generalize hL : ((segGroups g ngroup sizes).filter (fun q => q.2 = grp)).map (·.1) = L
    have hm := self hg
    have hm' := self hg'
    rw [hL] at hm hm'
    have a1 := foldl_min_le L seg
    have a2 := foldl_min_le L seg'
    have b1 := foldl_max_ge L seg
    have b2 := foldl_max_ge L seg'
    have c1 : L.foldl min seg ∈ L := (foldl_min_mem L seg).elim (fun h => by rw [h]; assumption) id
    have c2 : L.foldl min seg' ∈ L := (foldl_min_mem L seg').elim (fun h => by rw [h]; assumption) id
    have d1 : L.foldl max seg ∈ L := (foldl_max_mem L seg).elim (fun h => by rw [h]; assumption) id
    have d2 : L.foldl max seg' ∈ L := (foldl_max_mem L seg').elim (fun h => by rw [h]; assumption) id
    have := a1.2 _ c2
    have := a2.2 _ c1
    have := b1.2 _ d2
    have := b2.2 _ d1
    omega
  · dsimp only at hlt ⊢
    obtain ⟨m1, m2, m3, m4⟩ := k2 h0
    obtain ⟨m1', m2', m3', m4'⟩ := k2' h0'
    have hm := self hg
    have hm' := self hg'
    have x1 : (((segGroups g ngroup sizes).filter (fun q => q.2 = grp)).map (·.1)).foldl max seg ∈
        ((segGroups g ngroup sizes).filter (fun q => q.2 = grp)).map (·.1) := by
      rcases foldl_max_mem _ seg with h | h
      · rw [h]; exact hm
      · exact h
    have x2 : (((segGroups g ngroup sizes).filter (fun q => q.2 = grp')).map (·.1)).foldl min seg' ∈
        ((segGroups g ngroup sizes).filter (fun q => q.2 = grp')).map (·.1) := by
      rcases foldl_min_mem _ seg' with h | h
      · rw [h]; exact hm'
      · exact h
    have y1 := member m4 x1
    have y2 := member m4' x2
    rcases Nat.lt_or_ge ((((segGroups g ngroup sizes).filter (fun q => q.2 = grp)).map (·.1)).foldl max seg)
      ((((segGroups g ngroup sizes).filter (fun q => q.2 = grp')).map (·.1)).foldl min seg') with h | h
    · exact h
    · have := Nat.div_le_div_right (c := (assignColors g sizes none).2) (Nat.mul_le_mul_right ngroup h)
      omega

example : (List.range 7).map (segmenterInit 4 2 [3, 0, 2, 5, 1, 0, 0]) =
    [some ⟨0, 0, 0, 2⟩, some ⟨8, 3, 8, 9⟩, some ⟨0, 0, 0, 2⟩, some ⟨1, 0, 0, 2⟩, some ⟨2, 1, 2, 3⟩,
      some ⟨8, 3, 8, 9⟩, some ⟨8, 3, 8, 9⟩] := by decide

/-! ## C50 -/

theorem foldl_ext (op : Int → Int → Int) (le : Int → Int → Prop) (hl : ∀ a b, le a (op a b)) (hr : ∀ a b, le b (op a b))
    (hrefl : ∀ a, le a a) (htr : ∀ a b c, le a b → le b c → le a c) (hsel : ∀ a b, op a b = a ∨ op a b = b)
    (l : List Int) : ∀ v, le v (l.foldl op v) ∧ (∀ x ∈ l, le x (l.foldl op v)) ∧ (l.foldl op v = v ∨ l.foldl op v ∈ l) := by
  induction l with
  | nil => intro v; exact ⟨hrefl v, by simp, Or.inl rfl⟩
  | cons b l ih =>
    intro v
    obtain ⟨h1, h2, h3⟩ := ih (op v b)
    simp only [List.foldl_cons, List.mem_cons]
    refine ⟨htr _ _ _ (hl v b) h1, fun x hx => ?_, ?_⟩
    · rcases hx with rfl | hx
      · exact htr _ _ _ (hr v x) h1
      · exact h2 x hx
    · rcases h3 with h3 | h3
      · rw [h3]
        rcases hsel v b with e | e
        · left; exact e
        · right; left; exact e
      · right; right; exact h3

/-- The smallest index at which a value occurs. -/
theorem lowest_index (l : List Int) (e : Int) (N : Nat) : ∀ k, k + l.length ≤ N → e ∈ l →
    ∃ r, ((l.zipIdx k).map (fun p => if p.1 = e then p.2 else N)).foldl min N = k + r ∧ l[r]? = some e ∧
      ∀ r' < r, l[r']? ≠ some e := by
  have mono : ∀ (m : List Nat) (a : Nat), m.foldl min a = min a (m.foldl min N) ∨ N < a := by
    intro m
    induction m with
    | nil => intro a; simp; omega
    | cons x m ih =>
      intro a
      simp only [List.foldl_cons]
      rcases ih (min a x) with h | h <;> rcases ih (min N x) with h' | h' <;> omega
  induction l with
  | nil => intro k _ h; simp at h
  | cons a l ih =>
    intro k hk hm
    rw [List.zipIdx_cons, List.map_cons, List.foldl_cons]
    simp only [List.length_cons] at hk
    by_cases ha : a = e
    · subst ha
      refine ⟨0, ?_, rfl, by simp⟩
      simp only [if_true]
      have hge : ∀ x ∈ (l.zipIdx (k + 1)).map (fun p => if p.1 = a then p.2 else N), k ≤ x := by
        intro x hx
        obtain ⟨⟨v, i⟩, hp, rfl⟩ := List.mem_map.mp hx
        have := (List.mem_zipIdx hp).1
        dsimp only
        split <;> omega
      have h1 := (foldl_min_le ((l.zipIdx (k + 1)).map (fun p => if p.1 = a then p.2 else N)) (min N k)).1
      rcases foldl_min_mem ((l.zipIdx (k + 1)).map (fun p => if p.1 = a then p.2 else N)) (min N k) with h | h
      · omega
      · have := hge _ h; omega
    · have hm' : e ∈ l := by
        rcases List.mem_cons.mp hm with h | h
        · exact absurd h.symm ha
        · exact h
      obtain ⟨r, h1, h2, h3⟩ := ih (k + 1) (by omega) hm'
      simp only [ha, if_false, Nat.min_self]
      refine ⟨r + 1, by omega, by simpa using h2, ?_⟩
      intro r' hr'
      cases r' with
      | zero => simpa using ha
      | succ r' => simpa using h3 r' (by omega)

theorem getLoc_spec (op : Int → Int → Int) (le : Int → Int → Prop) (hl : ∀ a b, le a (op a b)) (hr : ∀ a b, le b (op a b))
    (hrefl : ∀ a, le a a) (htr : ∀ a b c, le a b → le b c → le a c) (hsel : ∀ a b, op a b = a ∨ op a b = b)
    (vals : List Int) (hne : vals ≠ []) : LowestExtremum le vals (getLoc op vals) := by
  cases vals with
  | nil => exact absurd rfl hne
  | cons v vs =>
    obtain ⟨h1, h2, h3⟩ := foldl_ext op le hl hr hrefl htr hsel vs v
    have hm : vs.foldl op v ∈ v :: vs := by
      rcases h3 with h | h
      · rw [h]; simp
      · exact List.mem_cons_of_mem _ h
    obtain ⟨r, e1, e2, e3⟩ := lowest_index (v :: vs) (vs.foldl op v) (vs.length + 1) 0 (by simp) hm
    refine ⟨vs.foldl op v, ?_, ?_, ?_⟩
    · unfold getLoc; dsimp only; rw [e1]; simpa using e2
    · intro x hx
      rcases List.mem_cons.mp hx with rfl | hx
      · exact h1
      · exact h2 x hx
    · intro r' hr'
      apply e3
      unfold getLoc at hr'
      dsimp only at hr'
      rw [e1] at hr'
      omega

/-- **C50** for `MPI_MAX` over an integer type. -/
theorem C50_max (vals : List Int) (hne : vals ≠ []) : LowestExtremum (· ≤ ·) vals (getLoc max vals) :=
  getLoc_spec max (· ≤ ·) (fun _ _ => by omega) (fun _ _ => by omega) (fun _ => by omega)
    (fun _ _ _ _ _ => by omega) (fun a b => by omega) vals hne

/-- **C50** for `MPI_MIN` over an integer type. -/
theorem C50_min (vals : List Int) (hne : vals ≠ []) : LowestExtremum (· ≥ ·) vals (getLoc min vals) :=
  getLoc_spec min (· ≥ ·) (fun _ _ => by omega) (fun _ _ => by omega) (fun _ => by omega)
    (fun _ _ _ _ _ => by omega) (fun a b => by omega) vals hne

example : getLoc max [3, 7, 2, 7, 1] = 1 ∧ getLoc min [3, 7, 1, 7, 1] = 2 := by decide

/-! ## C49 -/

theorem ptaskFrom_spec (n : Nat) : ∀ fuel p, n ≤ 2 ^ (p + fuel) → n ≤ 2 ^ ptaskFrom n fuel p := by
  intro fuel
  induction fuel with
  | zero => intro p h; simpa [ptaskFrom] using h
  | succ f ih =>
    intro p h
    rw [ptaskFrom]
    split
    · exact ih (p + 1) (by rw [show p + 1 + f = p + (f + 1) by omega]; exact h)
    · omega

theorem le_two_pow_ptask (n : Nat) : n ≤ 2 ^ ptask n :=
  ptaskFrom_spec n n 0 (by rw [Nat.zero_add]; exact Nat.le_of_lt Nat.lt_two_pow_self)

theorem mem_partners {ntask t n u : Nat} :
    (n, u) ∈ partners ntask t ↔ n < 2 ^ ptask ntask ∧ u = t ^^^ n ∧ u < ntask := by
  unfold partners
  simp only [List.mem_filter, List.mem_map, List.mem_range, Prod.mk.injEq, decide_eq_true_eq]
  constructor
  · rintro ⟨⟨a, ha, rfl, rfl⟩, h⟩; exact ⟨ha, rfl, h⟩
  · rintro ⟨h1, h2, h3⟩; exact ⟨⟨n, h1, rfl, h2.symm⟩, h3⟩

theorem xor_cancel (a b : Nat) : a ^^^ (a ^^^ b) = b := by
  rw [← Nat.xor_assoc, Nat.xor_self, Nat.zero_xor]

/-- **C49, the schedule.** Any two processes meet in exactly one round, and both have that round in
their schedule. -/
theorem C49_schedule (ntask t u : Nat) (ht : t < ntask) (hu : u < ntask) :
    ∃ n, ((n, u) ∈ partners ntask t ∧ (n, t) ∈ partners ntask u) ∧
      ∀ m, (m, u) ∈ partners ntask t ∨ (m, t) ∈ partners ntask u → m = n := by
  have h1 := le_two_pow_ptask ntask
  have hx : t ^^^ u < 2 ^ ptask ntask := Nat.xor_lt_two_pow (by omega) (by omega)
  refine ⟨t ^^^ u, ⟨mem_partners.mpr ⟨hx, (xor_cancel t u).symm, hu⟩, mem_partners.mpr ⟨hx, ?_, ht⟩⟩, ?_⟩
  · rw [Nat.xor_comm t u, xor_cancel]
  · rintro m (h | h)
    · rw [(mem_partners.mp h).2.1, xor_cancel]
    · have := (mem_partners.mp h).2.1
      rw [this, Nat.xor_comm (u ^^^ m) u, xor_cancel]

theorem partners_nodup (ntask t : Nat) : ((partners ntask t).map (·.2)).Nodup := by
  unfold partners
  have h : ((List.range (2 ^ ptask ntask)).map (fun ngrp => (ngrp, t ^^^ ngrp))).Pairwise
      (fun a b => a.2 ≠ b.2) := by
    rw [List.pairwise_map]
    refine List.nodup_range.imp ?_
    intro a b hab e
    simp only at e
    apply hab
    have := congrArg (t ^^^ ·) e
    simpa [xor_cancel] using this
  unfold List.Nodup
  rw [List.pairwise_map]
  exact h.filter _

/-- Every process appears exactly once in the schedule of every process. -/
theorem C49_each_once (ntask t u : Nat) (ht : t < ntask) (hu : u < ntask) :
    ((partners ntask t).map (·.2)).count u = 1 := by
  rw [(partners_nodup ntask t).count, if_pos]
  obtain ⟨n, h, _⟩ := C49_schedule ntask t u ht hu
  exact List.mem_map.mpr ⟨(n, u), h.1, rfl⟩

example : partners 3 1 = [(0, 1), (1, 0), (3, 2)] ∧ partners 3 2 = [(0, 2), (2, 0), (3, 1)] := by decide

theorem defaultDispls_eq (cnts : Nat → Nat) (n : Nat) :
    defaultDispls cnts n = ((List.range n).map cnts).sum := by
  induction n with
  | zero => rfl
  | succ n ih => rw [defaultDispls, ih, List.range_succ, List.map_append, List.sum_append]; simp

theorem defaultDispls_mono (cnts : Nat → Nat) {a b : Nat} (h : a < b) :
    defaultDispls cnts a + cnts a ≤ defaultDispls cnts b := by
  induction b with
  | zero => omega
  | succ b ih =>
    rw [defaultDispls]
    by_cases hab : a = b
    · subst hab; omega
    · have := ih (by omega); omega

theorem mem_postedRecvs {ntask d s a c : Nat} {rc rd : Nat → Nat} :
    (s, a, c) ∈ postedRecvs ntask d rc rd ↔ s ∈ (partners ntask d).map (·.2) ∧ rc s ≠ 0 ∧ a = rd s ∧ c = rc s := by
  unfold postedRecvs
  simp only [List.mem_filterMap, List.mem_map]
  constructor
  · rintro ⟨p, hp, h⟩
    split at h
    · simp at h
    · simp only [Option.some.injEq, Prod.mk.injEq] at h
      obtain ⟨rfl, rfl, rfl⟩ := h
      exact ⟨⟨p, hp, rfl⟩, by assumption, rfl, rfl⟩
  · rintro ⟨⟨p, hp, rfl⟩, h0, rfl, rfl⟩
    exact ⟨p, hp, by rw [if_neg h0]⟩

theorem mem_partners_snd {ntask d s : Nat} (hd : d < ntask) : s ∈ (partners ntask d).map (·.2) ↔ s < ntask := by
  constructor
  · intro h
    obtain ⟨⟨n, u⟩, hp, rfl⟩ := List.mem_map.mp h
    exact (mem_partners.mp hp).2.2
  · intro h
    obtain ⟨n, hn, _⟩ := C49_schedule ntask d s hd h
    exact List.mem_map.mpr ⟨(n, s), hn.1, rfl⟩

/-- The message of `s` to `d` is the only one. -/
theorem postedSends_find {el ntask s d : Nat} {buf : Mem} {sc sd : Nat → Nat} (hs : s < ntask) (hd : d < ntask)
    (h0 : sc d ≠ 0) :
    (postedSends el ntask s buf sc sd).find? (fun q => q.1 = d) =
      some (d, peek buf ((el * sd d : Nat) : Int) (el * sc d)) := by
  have hm : d ∈ (partners ntask s).map (·.2) := (mem_partners_snd hs).mpr hd
  unfold postedSends
  generalize partners ntask s = P at hm
  induction P with
  | nil => simp at hm
  | cons p P ih =>
    rw [List.filterMap_cons]
    by_cases hp : p.2 = d
    · rw [hp, if_neg h0]
      simp
    · have hm' : d ∈ P.map (·.2) := by
        rw [List.map_cons, List.mem_cons] at hm
        rcases hm with h | h
        · exact absurd h.symm hp
        · exact h
      split
      · exact ih hm'
      · rename_i b hb
        split at hb
        · simp at hb
        · simp only [Option.some.injEq] at hb
          subst hb
          rw [List.find?_cons]
          simp only [hp, decide_false]
          exact ih hm'

/-- Receiving from all sources in a list. -/
theorem completeRecvs_spec (el d : Nat) (sends : Nat → List (Nat × List Byte)) :
    ∀ (R : List (Nat × Nat × Nat)) (mem : Mem),
    (∀ q ∈ R, ∃ bytes, (sends q.1).find? (fun x => x.1 = d) = some (d, bytes) ∧ bytes.length = el * q.2.2) →
    R.Pairwise (fun a b => el * (a.2.1 + a.2.2) ≤ el * b.2.1 ∨ el * (b.2.1 + b.2.2) ≤ el * a.2.1) →
    ∃ m, completeRecvs el d sends R mem = some m ∧
      (∀ q ∈ R, ∀ bytes, (sends q.1).find? (fun x => x.1 = d) = some (d, bytes) →
        peek m ((el * q.2.1 : Nat) : Int) (el * q.2.2) = bytes) ∧
      (∀ x : Int, (∀ q ∈ R, x < ((el * q.2.1 : Nat) : Int) ∨ ((el * (q.2.1 + q.2.2) : Nat) : Int) ≤ x) → m x = mem x) := by
  intro R
  induction R with
  | nil => intro mem _ _; exact ⟨mem, rfl, by simp, fun _ _ => rfl⟩
  | cons q R ih =>
    intro mem hb hd
    obtain ⟨s, displ, cnt⟩ := q
    obtain ⟨bytes, hf, hl⟩ := hb (s, displ, cnt) (by simp)
    simp only at hf hl
    rw [List.pairwise_cons] at hd
    obtain ⟨m, h1, h2, h3⟩ := ih (poke mem ((el * displ : Nat) : Int) bytes) (fun q hq => hb q (by simp [hq])) hd.2
    refine ⟨m, ?_, ?_, ?_⟩
    · rw [completeRecvs, hf]
      simp only
      rw [if_neg (by omega), h1]
    · intro q hq bytes' hf'
      rcases List.mem_cons.mp hq with rfl | hq
      · simp only at hf' ⊢
        rw [hf] at hf'
        injection hf' with hf'
        injection hf' with _ e
        subst e
        have : peek m ((el * displ : Nat) : Int) (el * cnt) =
            peek (poke mem ((el * displ : Nat) : Int) bytes) ((el * displ : Nat) : Int) (el * cnt) := by
          apply peek_ext
          intro i hi
          apply h3
          intro q hq
          have := hd.1 q hq
          simp only [Nat.mul_add] at this ⊢
          omega
        rw [this, ← hl, peek_poke_same]
      · exact h2 q hq bytes' hf'
    · intro x hx
      rw [h3 x (fun q hq => hx q (by simp [hq])), poke_outside]
      have := hx (s, displ, cnt) (by simp)
      simp only [Nat.mul_add] at this
      omega

/-- **C49, the data.** The pairwise exchange terminates with every message received, and delivers what
an all-to-all exchange must deliver. -/
theorem C49_delivers (el ntask : Nat) (sendbuf : Nat → Mem) (cnt : Nat → Nat → Nat) (recvbuf : Nat → Mem) (d : Nat)
    (hd : d < ntask) :
    ∃ m, mpiuAlltoallv el ntask sendbuf cnt recvbuf d = some m ∧
      Delivered el ntask sendbuf cnt (recvbuf d) d m := by
  unfold mpiuAlltoallv alltoallvSparse
  dsimp only
  rw [if_pos]
  · have hA : ∀ q ∈ postedRecvs ntask d (fun s => cnt s d) (defaultDispls (fun s => cnt s d)),
        ∃ bytes, (postedSends el ntask q.1 (sendbuf q.1) (cnt q.1) (defaultDispls (cnt q.1))).find?
          (fun x => x.1 = d) = some (d, bytes) ∧ bytes.length = el * q.2.2 := by
      rintro ⟨s, a, c⟩ hq
      obtain ⟨q1, q2, rfl, rfl⟩ := mem_postedRecvs.mp hq
      exact ⟨_, postedSends_find ((mem_partners_snd hd).mp q1) hd q2, peek_length _ _ _⟩
    have hB : (postedRecvs ntask d (fun s => cnt s d) (defaultDispls (fun s => cnt s d))).Pairwise
        (fun a b => el * (a.2.1 + a.2.2) ≤ el * b.2.1 ∨ el * (b.2.1 + b.2.2) ≤ el * a.2.1) := by
      have hnd : (postedRecvs ntask d (fun s => cnt s d) (defaultDispls (fun s => cnt s d))).Pairwise
          (fun a b => a.1 ≠ b.1) := by
        unfold postedRecvs
        have := partners_nodup ntask d
        unfold List.Nodup at this
        rw [List.pairwise_map] at this
        rw [List.pairwise_filterMap]
        refine this.imp ?_
        intro a b hab x hx y hy
        split at hx
        · simp at hx
        · split at hy
          · simp at hy
          · simp only [Option.some.injEq] at hx hy
            subst hx hy
            exact hab
      have hmem : ∀ x ∈ postedRecvs ntask d (fun s => cnt s d) (defaultDispls (fun s => cnt s d)),
          x.2.1 = defaultDispls (fun s => cnt s d) x.1 ∧ x.2.2 = cnt x.1 d := by
        rintro ⟨s, a, c⟩ hq
        obtain ⟨_, _, rfl, rfl⟩ := mem_postedRecvs.mp hq
        exact ⟨rfl, rfl⟩
      refine List.Pairwise.imp_of_mem ?_ hnd
      intro a b ha hb hab
      rw [(hmem a ha).1, (hmem a ha).2, (hmem b hb).1, (hmem b hb).2]
      rcases Nat.lt_or_gt_of_ne hab with h | h
      · left; exact Nat.mul_le_mul_left el (defaultDispls_mono (fun s => cnt s d) h)
      · right; exact Nat.mul_le_mul_left el (defaultDispls_mono (fun s => cnt s d) h)
    obtain ⟨m, h1, h2, h3⟩ := completeRecvs_spec el d
      (fun s => postedSends el ntask s (sendbuf s) (cnt s) (defaultDispls (cnt s)))
      (postedRecvs ntask d (fun s => cnt s d) (defaultDispls (fun s => cnt s d))) (recvbuf d) hA hB
    refine ⟨m, h1, ?_, ?_⟩
    · intro s hs i hi
      have h0 : cnt s d ≠ 0 := by omega
      have hmem : (s, defaultDispls (fun s => cnt s d) s, cnt s d) ∈
          postedRecvs ntask d (fun s => cnt s d) (defaultDispls (fun s => cnt s d)) :=
        mem_postedRecvs.mpr ⟨(mem_partners_snd hd).mpr hs, h0, rfl, rfl⟩
      have := h2 _ hmem _ (postedSends_find hs hd h0)
      dsimp only at this
      rw [← defaultDispls_eq (fun r => cnt r d) s, ← defaultDispls_eq (cnt s) d]
      unfold elemAt
      generalize defaultDispls (fun r => cnt r d) s = a at *
      generalize defaultDispls (cnt s) d = b at *
      have hle : el * i + el ≤ el * cnt s d := by
        have := Nat.mul_le_mul_left el (show i + 1 ≤ cnt s d from hi)
        rw [Nat.mul_add, Nat.mul_one] at this
        exact this
      apply peek_ext
      intro j hj
      have hx := congrArg (fun l => l[el * i + j]?) this
      have l1 : el * i + j < (peek m ((el * a : Nat) : Int) (el * cnt s d)).length := by rw [peek_length]; omega
      have l2 : el * i + j < (peek (sendbuf s) ((el * b : Nat) : Int) (el * cnt s d)).length := by rw [peek_length]; omega
      rw [List.getElem?_eq_getElem l1, List.getElem?_eq_getElem l2, peek_getElem, peek_getElem] at hx
      simp only [Option.some.injEq] at hx
      have e1 : ((el * (a + i) : Nat) : Int) + (j : Int) = ((el * a : Nat) : Int) + ((el * i + j : Nat) : Int) := by
        rw [Nat.mul_add]; omega
      have e2 : ((el * (b + i) : Nat) : Int) + (j : Int) = ((el * b : Nat) : Int) + ((el * i + j : Nat) : Int) := by
        rw [Nat.mul_add]; omega
      rw [e1, e2]
      exact hx
    · intro x hx
      apply h3
      rintro ⟨s, a, c⟩ hq
      obtain ⟨q1, q2, rfl, rfl⟩ := mem_postedRecvs.mp hq
      have hs := (mem_partners_snd hd).mp q1
      have hm := defaultDispls_mono (fun s => cnt s d) hs
      rw [defaultDispls_eq _ ntask] at hm
      have hm := Nat.mul_le_mul_left el hm
      dsimp only at hm ⊢
      omega
  · simp only [List.all_eq_true, List.mem_range, List.any_eq_true, decide_eq_true_eq]
    intro s hs q hq
    obtain ⟨p, hp, hpq⟩ := List.mem_filterMap.mp hq
    split at hpq
    · simp at hpq
    · rename_i h0
      simp only [Option.some.injEq] at hpq
      subst hpq
      have hp2 : p.2 < ntask := (mem_partners (n := p.1) (u := p.2)).mp hp |>.2.2
      exact ⟨(s, _, _), mem_postedRecvs.mpr ⟨(mem_partners_snd hp2).mpr hs, h0, rfl, rfl⟩, rfl⟩

/-- Three processes: what process 1 has after the exchange. -/
example : (mpiuAlltoallv 1 3 (fun s x => UInt8.ofNat (10 * s + x.toNat)) (fun s t => s + t) (fun _ _ => 99) 1).map
    (fun m => peek m 0 7) = some [0, 11, 12, 22, 23, 24, 99] := by decide

/-! ### The blocking variant does not deadlock -/

/-- States of the blocking exchange that can be reached. -/
inductive ExchangeReach (ntask : Nat) (cnt : Nat → Nat → Nat) : (Nat → Nat) → Prop where
  | start : ExchangeReach ntask cnt (fun _ => 0)
  | step {p q : Nat → Nat} : ExchangeReach ntask cnt p → ExchangeStep ntask cnt p q → ExchangeReach ntask cnt q

/-- Nobody is past a meeting that its partner has not reached. -/
theorem exchange_inv {ntask : Nat} {cnt : Nat → Nat → Nat} {pos : Nat → Nat} (h : ExchangeReach ntask cnt pos) :
    ∀ t < ntask, ∀ n < pos t, t ^^^ n < ntask → t ^^^ n ≠ t → ¬ (cnt t (t ^^^ n) = 0 ∧ cnt (t ^^^ n) t = 0) →
      n < pos (t ^^^ n) := by
  induction h with
  | start => intro t _ n hn; dsimp only at hn; omega
  | @step p q _ hs ih =>
    intro t ht n hn hu hne hc
    cases hs with
    | alone t0 ht0 hr hs =>
      dsimp only at hn ⊢
      by_cases h1 : t = t0
      · subst h1
        rw [if_neg hne]
        rw [if_pos rfl] at hn
        by_cases hnp : n = p t
        · subst hnp
          rcases hs with h | h | h
          · omega
          · exact absurd h hc
          · exact absurd h hne
        · exact ih t ht n (by omega) hu hne hc
      · rw [if_neg h1] at hn
        have := ih t ht n hn hu hne hc
        split
        · rename_i e; rw [← e]; omega
        · exact this
    | meet t0 ht0 hr hu0 hp =>
      dsimp only at hn ⊢
      by_cases h1 : t = t0 ∨ t = t0 ^^^ p t0
      · rw [if_pos h1] at hn
        have hpt : p t = p t0 := h1.elim (fun e => by rw [e]) (fun e => by rw [e]; exact hp)
        by_cases hnp : n = p t0
        · subst hnp
          have : t ^^^ p t0 = t0 ∨ t ^^^ p t0 = t0 ^^^ p t0 := by
            rcases h1 with rfl | rfl
            · right; rfl
            · left; rw [Nat.xor_assoc, Nat.xor_self, Nat.xor_zero]
          rw [if_pos this]
          omega
        · have := ih t ht n (by omega) hu hne hc
          split
          · omega
          · exact this
      · rw [if_neg h1] at hn
        have := ih t ht n hn hu hne hc
        split
        · rename_i e
          have : p (t ^^^ n) = p t0 := by rcases e with e | e <;> rw [e]; exact hp
          omega
        · exact this

theorem exists_min (f : Nat → Nat) (n : Nat) (h : 0 < n) : ∃ t, t < n ∧ ∀ u < n, f t ≤ f u := by
  induction n with
  | zero => omega
  | succ n ih =>
    by_cases hn : n = 0
    · subst hn; exact ⟨0, by omega, fun u hu => by have : u = 0 := by omega
                                                   subst this; omega⟩
    · obtain ⟨t, ht, hm⟩ := ih (by omega)
      by_cases hc : f t ≤ f n
      · refine ⟨t, by omega, fun u hu => ?_⟩
        by_cases e : u = n
        · subst e; exact hc
        · exact hm u (by omega)
      · refine ⟨n, by omega, fun u hu => ?_⟩
        by_cases e : u = n
        · subst e; omega
        · have := hm u (by omega); omega

/-- **C49, no deadlock.** Whatever messages there are, in every reachable state of the blocking exchange
in which some process has rounds left, some process can go on. -/
theorem C49_no_deadlock (ntask : Nat) (cnt : Nat → Nat → Nat) (pos : Nat → Nat) (h : ExchangeReach ntask cnt pos)
    (t0 : Nat) (ht0 : t0 < ntask) (hr0 : pos t0 < 2 ^ ptask ntask) : ∃ pos', ExchangeStep ntask cnt pos pos' := by
  obtain ⟨t, ht, hm⟩ := exists_min pos ntask (by omega)
  have hr : pos t < 2 ^ ptask ntask := by have := hm t0 ht0; omega
  by_cases hu : t ^^^ pos t < ntask
  · by_cases hs : (cnt t (t ^^^ pos t) = 0 ∧ cnt (t ^^^ pos t) t = 0) ∨ t ^^^ pos t = t
    · exact ⟨_, .alone pos t ht hr (Or.inr hs)⟩
    · simp only [not_or] at hs
      have hge := hm _ hu
      by_cases he : pos (t ^^^ pos t) = pos t
      · exact ⟨_, .meet pos t ht hr hu he⟩
      · have hx : (t ^^^ pos t) ^^^ pos t = t := by rw [Nat.xor_assoc, Nat.xor_self, Nat.xor_zero]
        have := exchange_inv h (t ^^^ pos t) hu (pos t) (by omega) (by rw [hx]; exact ht)
          (by rw [hx]; exact fun e => hs.2 e.symm) (by rw [hx]; exact fun e => hs.1 ⟨e.2, e.1⟩)
        rw [hx] at this
        omega
  · exact ⟨_, .alone pos t ht hr (Or.inl (by omega))⟩

example : ∃ pos', ExchangeStep 3 (fun s t => s + t) (fun _ => 0) pos' :=
  C49_no_deadlock 3 _ _ .start 1 (by decide) (by decide)

end Verif
