import Verif.Proof.Throttle
import Verif.Props.Mpiu
/-!
# The plan computed by the segmenter
-/

set_option autoImplicit false

namespace Verif

open Spec

/-- What the proofs need to know about groups and segments. -/
structure PlanOk (n : Nat) (rows : Nat → Nat) (conc : Nat) (P : SegPlan) : Prop where
  range : ∀ r, r < n → P.start (P.G r) ≤ P.S r ∧ P.S r < P.stop (P.G r)
  data : ∀ r, r < n → 0 < rows r → P.G r < conc
  empty : ∀ r, r < n → rows r = 0 → P.G r = conc + 1
  order : ∀ r r', r ≤ r' → r' < n → 0 < rows r → 0 < rows r' → P.S r ≤ P.S r'
  gorder : ∀ r r', r < n → r' < n → 0 < rows r → 0 < rows r' → P.G r < P.G r' → P.stop (P.G r) ≤ P.start (P.G r')
  root : ∀ g c, P.seg n g c ≠ [] → P.root g c < (P.seg n g c).length

/-- The plan made by `MPIU_Segmenter_init`. -/
def planOf (conc threshold : Nat) (sizes : List Nat) : SegPlan :=
  let t := segTarget sizes.sum conc threshold
  let sg := segGroups t conc sizes
  let gr (g : Nat) := (List.range sizes.length).filter (fun r => decide ((sg.getD r (0, 0)).2 = g))
  let q (g : Nat) := ((gr g).head?.bind (segmenterInit t conc sizes)).getD ⟨0, 0, 0, 0⟩
  { G := fun r => (sg.getD r (0, 0)).2
    S := fun r => (sg.getD r (0, 0)).1
    start := fun g => (q g).segStart
    stop := fun g => (q g).segEnd
    root := fun g c => getLoc min (((gr g).filter (fun r => decide ((sg.getD r (0, 0)).1 = c))).map
      fun r => ((sizes.getD r 0 : Nat) : Int)) }

theorem segGroups_length (t conc : Nat) (sizes : List Nat) : (segGroups t conc sizes).length = sizes.length := by
  unfold segGroups assignColors
  simp [colorsLoop_length]

/-- Two processes of the same group have the same range of segments. -/
theorem segmenterInit_range (t conc : Nat) (sizes : List Nat) {r r' : Nat} {q q' : Segmenter}
    (h : segmenterInit t conc sizes r = some q) (h' : segmenterInit t conc sizes r' = some q')
    (he : q.groupID = q'.groupID) : q.segStart = q'.segStart ∧ q.segEnd = q'.segEnd := by
  unfold segmenterInit at h h'
  dsimp only at h h'
  cases hg : (segGroups t conc sizes)[r]? with
  | none => rw [hg] at h; simp at h
  | some p =>
  cases hg' : (segGroups t conc sizes)[r']? with
  | none => rw [hg'] at h'; simp at h'
  | some p' =>
  obtain ⟨seg, grp⟩ := p
  obtain ⟨seg', grp'⟩ := p'
  rw [hg] at h
  rw [hg'] at h'
  simp only [Option.some.injEq] at h h'
  subst h h'
  dsimp only at he ⊢
  subst he
  have self : ∀ {r seg : Nat}, (segGroups t conc sizes)[r]? = some (seg, grp) →
      seg ∈ ((segGroups t conc sizes).filter (fun q => q.2 = grp)).map (·.1) := by
    intro r seg h
    exact List.mem_map.mpr ⟨(seg, grp), List.mem_filter.mpr ⟨List.mem_of_getElem? h, by simp⟩, rfl⟩
  generalize hL : ((segGroups t conc sizes).filter (fun q => q.2 = grp)).map (·.1) = L
  have hm := self hg
  have hm' := self hg'
  rw [hL] at hm hm'
  have a1 := foldl_min_le L seg
  have a2 := foldl_min_le L seg'
  have b1 := foldl_max_ge L seg
  have b2 := foldl_max_ge L seg'
  have c1 : L.foldl min seg ∈ L := (foldl_min_mem L seg).elim (fun h => by rw [h]; assumption) id
  have c2 : L.foldl min seg' ∈ L := (foldl_min_mem L seg').elim (fun h => by rw [h]; assumption) id
  have d1 : L.foldl max seg ∈ L := (foldl_max_mem L seg).elim (fun h => by rw [h]; assumption) id
  have d2 : L.foldl max seg' ∈ L := (foldl_max_mem L seg').elim (fun h => by rw [h]; assumption) id
  have := a1.2 _ c2
  have := a2.2 _ c1
  have := b1.2 _ d2
  have := b2.2 _ d1
  omega

/-- The range of segments contains the own segment. -/
theorem segmenterInit_own (t conc : Nat) (sizes : List Nat) {r : Nat} {q : Segmenter}
    (h : segmenterInit t conc sizes r = some q) : q.segStart ≤ q.thisSegment ∧ q.thisSegment < q.segEnd ∧
      (segGroups t conc sizes)[r]? = some (q.thisSegment, q.groupID) := by
  unfold segmenterInit at h
  dsimp only at h
  cases hg : (segGroups t conc sizes)[r]? with
  | none => rw [hg] at h; simp at h
  | some p =>
    obtain ⟨seg, grp⟩ := p
    rw [hg] at h
    simp only [Option.some.injEq] at h
    subst h
    have h1 := (foldl_min_le (((segGroups t conc sizes).filter (fun q => q.2 = grp)).map (·.1)) seg).1
    have h2 := (foldl_max_ge (((segGroups t conc sizes).filter (fun q => q.2 = grp)).map (·.1)) seg).1
    exact ⟨h1, by dsimp only; omega, rfl⟩

theorem segmenterInit_some (t conc : Nat) (sizes : List Nat) {r : Nat} (hr : r < sizes.length) :
    ∃ q, segmenterInit t conc sizes r = some q := by
  unfold segmenterInit
  dsimp only
  have : r < (segGroups t conc sizes).length := by rw [segGroups_length]; exact hr
  rw [List.getElem?_eq_getElem this]
  exact ⟨_, rfl⟩

/-- Every process computes its part of the plan, and the plan is good. -/
theorem planOf_ok (conc threshold n : Nat) (rows : Nat → Nat) (hn : 0 < conc) (hn' : conc < 2147483648)
    (ht : n < 2147483648) (hs : rowsBefore rows n < 18446744073709551616) :
    PlanOk n rows conc (planOf conc threshold ((List.range n).map rows)) ∧
    ∀ r, r < n → ∃ q : Segmenter, segInfo conc threshold ((List.range n).map rows) r =
      some (q, (planOf conc threshold ((List.range n).map rows)).info n rows r) ∧
      q.segStart = (planOf conc threshold ((List.range n).map rows)).start
        ((planOf conc threshold ((List.range n).map rows)).G r) ∧
      q.segEnd = (planOf conc threshold ((List.range n).map rows)).stop
        ((planOf conc threshold ((List.range n).map rows)).G r) := by
  generalize hsz : (List.range n).map rows = sizes
  have hlen : sizes.length = n := by rw [← hsz]; simp
  have hsum : sizes.sum < 18446744073709551616 := by rw [← hsz]; exact hs
  have hget : ∀ r, r < n → sizes[r]? = some (rows r) := by
    intro r hr; rw [← hsz]; simp [hr]
  have hgetD : ∀ r, r < n → sizes.getD r 0 = rows r := by
    intro r hr; rw [List.getD_eq_getElem?_getD, hget r hr]; rfl
  let t := segTarget sizes.sum conc threshold
  let P := planOf conc threshold sizes
  have hq : ∀ r, r < n → ∃ q, segmenterInit t conc sizes r = some q := fun r hr =>
    segmenterInit_some t conc sizes (by rw [hlen]; exact hr)
  have hGS : ∀ r q, segmenterInit t conc sizes r = some q → P.G r = q.groupID ∧ P.S r = q.thisSegment := by
    intro r q h
    have := (segmenterInit_own t conc sizes h).2.2
    constructor
    · show ((segGroups t conc sizes).getD r (0, 0)).2 = _
      rw [List.getD_eq_getElem?_getD, this]; rfl
    · show ((segGroups t conc sizes).getD r (0, 0)).1 = _
      rw [List.getD_eq_getElem?_getD, this]; rfl
  -- the range of a group is that of any member
  have hst : ∀ r q, r < n → segmenterInit t conc sizes r = some q →
      P.start (P.G r) = q.segStart ∧ P.stop (P.G r) = q.segEnd := by
    intro r q hr h
    have hm : r ∈ (List.range sizes.length).filter (fun x => decide (((segGroups t conc sizes).getD x (0, 0)).2 = P.G r)) :=
      List.mem_filter.mpr ⟨List.mem_range.mpr (by omega), by simp [P, planOf, t]⟩
    have key : ∃ r' q', r' < n ∧ P.G r' = P.G r ∧ segmenterInit t conc sizes r' = some q' ∧
        P.start (P.G r) = q'.segStart ∧ P.stop (P.G r) = q'.segEnd := by
      show ∃ r' q', r' < n ∧ P.G r' = P.G r ∧ segmenterInit t conc sizes r' = some q' ∧
        ((((List.range sizes.length).filter (fun x => decide (((segGroups t conc sizes).getD x (0, 0)).2 = P.G r))).head?.bind
          (segmenterInit t conc sizes)).getD ⟨0, 0, 0, 0⟩).segStart = q'.segStart ∧
        ((((List.range sizes.length).filter (fun x => decide (((segGroups t conc sizes).getD x (0, 0)).2 = P.G r))).head?.bind
          (segmenterInit t conc sizes)).getD ⟨0, 0, 0, 0⟩).segEnd = q'.segEnd
      generalize hl : (List.range sizes.length).filter (fun x => decide (((segGroups t conc sizes).getD x (0, 0)).2 = P.G r)) = l at hm
      cases l with
      | nil => simp at hm
      | cons a l =>
        have ha : a ∈ (List.range sizes.length).filter (fun x => decide (((segGroups t conc sizes).getD x (0, 0)).2 = P.G r)) := by
          rw [hl]; simp
        obtain ⟨h1, h2⟩ := List.mem_filter.mp ha
        have han : a < n := by have := List.mem_range.mp h1; omega
        obtain ⟨q', hq'⟩ := hq a han
        refine ⟨a, q', han, of_decide_eq_true h2, hq', ?_, ?_⟩
        · simp [hq']
        · simp [hq']
    obtain ⟨r', q', hr', hG, hq', h1, h2⟩ := key
    have := segmenterInit_range t conc sizes h hq' (by rw [← (hGS r q h).1, ← (hGS r' q' hq').1, hG])
    rw [h1, h2, this.1, this.2]
    exact ⟨rfl, rfl⟩
  have h44 : ∀ r r' q q', r < n → r' < n → segmenterInit t conc sizes r = some q → segmenterInit t conc sizes r' = some q' → _ :=
    fun r r' q q' hr hr' h h' => C44_groups t conc sizes hsum hn hn' (by rw [hlen]; exact ht) (hget r hr) (hget r' hr') h h'
  obtain ⟨hcl, hgood⟩ := C44_segments t sizes hsum
  refine ⟨⟨?_, ?_, ?_, ?_, ?_, ?_⟩, ?_⟩
  · intro r hr
    obtain ⟨q, h⟩ := hq r hr
    have h1 := hst r q hr h
    have h2 := segmenterInit_own t conc sizes h
    show P.start (P.G r) ≤ P.S r ∧ P.S r < P.stop (P.G r)
    rw [h1.1, h1.2, (hGS r q h).2]
    exact ⟨h2.1, h2.2.1⟩
  · intro r hr h0
    obtain ⟨q, h⟩ := hq r hr
    show P.G r < conc
    rw [(hGS r q h).1]
    exact ((h44 r r q q hr hr h h).2.1 h0).1
  · intro r hr h0
    obtain ⟨q, h⟩ := hq r hr
    show P.G r = conc + 1
    rw [(hGS r q h).1]
    exact (h44 r r q q hr hr h h).1 h0
  · intro r r' hle hr' h0 h0'
    have hr : r < n := by omega
    obtain ⟨q, h⟩ := hq r hr
    obtain ⟨q', h'⟩ := hq r' hr'
    show P.S r ≤ P.S r'
    rw [(hGS r q h).2, (hGS r' q' h').2]
    have m1 := ((h44 r r q q hr hr h h).2.1 h0).2.1
    have m1' := ((h44 r' r' q' q' hr' hr' h' h').2.1 h0').2.1
    rcases Nat.lt_or_ge r r' with hlt | hge
    · have := List.pairwise_iff_getElem.mp hgood.order r r'
      have e1 := zip_get (hget r hr) m1
      have e2 := zip_get (hget r' hr') m1'
      obtain ⟨l1, e1⟩ := List.getElem?_eq_some_iff.mp e1
      obtain ⟨l2, e2⟩ := List.getElem?_eq_some_iff.mp e2
      have := this l1 l2 hlt
      rw [e1, e2] at this
      have := this h0 h0'
      simp only at this
      omega
    · have : r = r' := by omega
      subst this
      rw [h] at h'
      cases h'
      exact Nat.le_refl _
  · intro r r' hr hr' h0 h0' hG
    obtain ⟨q, h⟩ := hq r hr
    obtain ⟨q', h'⟩ := hq r' hr'
    have hG : P.G r < P.G r' := hG
    show P.stop (P.G r) ≤ P.start (P.G r')
    rw [(hst r q hr h).2, (hst r' q' hr' h').1]
    rw [(hGS r q h).1, (hGS r' q' h').1] at hG
    exact (h44 r r' q q' hr hr' h h').2.2.2.2 h0 h0' hG
  · intro g c hne
    have e : P.root g c = getLoc min ((P.seg n g c).map fun r => ((sizes.getD r 0 : Nat) : Int)) := by
      show getLoc min ((((List.range sizes.length).filter _).filter _).map _) = _
      rw [hlen]
      rfl
    have hne' : ((P.seg n g c).map fun r => ((sizes.getD r 0 : Nat) : Int)) ≠ [] := by
      intro h; exact hne (List.map_eq_nil_iff.mp h)
    obtain ⟨v, hv, _⟩ := C50_min _ hne'
    have := (List.getElem?_eq_some_iff.mp hv).1
    rw [List.length_map] at this
    show P.root g c < (P.seg n g c).length
    rw [e]
    exact this
  · intro r hr
    obtain ⟨q, h⟩ := hq r hr
    refine ⟨q, ?_, (hst r q hr h).1.symm, (hst r q hr h).2.symm⟩
    obtain ⟨e1, e2⟩ := hGS r q h
    unfold segInfo
    show (match segmenterInit t conc sizes r with | none => _ | some q => _) = _
    rw [h]
    simp only
    have hb : (sizes.take r).sum = rowsBefore rows r := by
      unfold rowsBefore
      rw [← hsz, ← List.map_take, List.take_range, Nat.min_eq_left (by omega)]
    rw [hb, hgetD r hr]
    show some (q, (⟨_, _, _, _, _, _⟩ : SegInfo)) = some (q, ⟨P.group n (P.G r), P.seg n (P.G r) (P.S r),
      P.root (P.G r) (P.S r), P.S r, rowsBefore rows r, rows r⟩)
    rw [e1, e2]
    have e : P.root q.groupID q.thisSegment =
        getLoc min ((P.seg n q.groupID q.thisSegment).map fun r => ((sizes.getD r 0 : Nat) : Int)) := by
      show getLoc min ((((List.range sizes.length).filter _).filter _).map _) = _
      rw [hlen]
      rfl
    rw [e, hlen]
    rfl

end Verif
