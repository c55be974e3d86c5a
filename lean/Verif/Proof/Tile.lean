import Verif.Proof.SegPlan
/-!
# The segments of all groups, one after another, are all rows in rank order
-/

set_option autoImplicit false

namespace Verif

open Spec

theorem flatMap_congr' {α β : Type} {l : List α} {f g : α → List β} (h : ∀ a ∈ l, f a = g a) :
    l.flatMap f = l.flatMap g := by
  induction l with
  | nil => rfl
  | cons a l ih =>
    simp only [List.flatMap_cons]
    rw [h a (by simp), ih (fun b hb => h b (by simp [hb]))]

theorem flatMap_none {α β : Type} {l : List α} {f : α → List β} (h : ∀ a ∈ l, f a = []) : l.flatMap f = [] := by
  induction l with
  | nil => rfl
  | cons a l ih =>
    simp only [List.flatMap_cons]
    rw [h a (by simp), ih (fun b hb => h b (by simp [hb]))]
    rfl

theorem flatMap_filter' {α β : Type} (l : List α) (f : α → List β) (q : α → Bool) :
    (l.filter q).flatMap f = l.flatMap (fun a => if q a then f a else []) := by
  induction l with
  | nil => rfl
  | cons a l ih =>
    by_cases h : q a = true
    · simp [h, ih]
    · simp [h, ih]

/-- Keys that do not decrease, apart from empty pieces: the pieces with key at most `c` are those with
smaller key followed by those with key `c`. -/
theorem flatMap_split {β : Type} (f : Nat → List β) (S : Nat → Nat) (c : Nat) (l : List Nat)
    (h : l.Pairwise (fun a b => f a ≠ [] → f b ≠ [] → S a ≤ S b)) :
    l.flatMap (fun r => if S r < c + 1 then f r else []) =
      l.flatMap (fun r => if S r < c then f r else []) ++ l.flatMap (fun r => if S r = c then f r else []) := by
  induction l with
  | nil => rfl
  | cons a l ih =>
    obtain ⟨h1, h2⟩ := List.pairwise_cons.mp h
    simp only [List.flatMap_cons]
    rw [ih h2]
    by_cases hf : f a = []
    · simp [hf]
    · rcases Nat.lt_trichotomy (S a) c with hlt | heq | hgt
      · rw [if_pos (show S a < c + 1 by omega), if_pos hlt, if_neg (show ¬ S a = c by omega)]
        simp
      · have hz : l.flatMap (fun r => if S r < c then f r else []) = [] := by
          apply flatMap_none
          intro b hb
          by_cases hfb : f b = []
          · simp [hfb]
          · rw [if_neg]; have := h1 b hb hf hfb; omega
        rw [hz, if_pos (show S a < c + 1 by omega), if_neg (show ¬ S a < c by omega), if_pos heq]
        simp
      · have hz : ∀ q : Nat → Prop, [DecidablePred q] → (∀ x, q x → x ≤ c) →
            l.flatMap (fun r => if q (S r) then f r else []) = [] := by
          intro q _ hq
          apply flatMap_none
          intro b hb
          by_cases hfb : f b = []
          · simp [hfb]
          · rw [if_neg]; intro hc; have := hq _ hc; have := h1 b hb hf hfb; omega
        rw [hz (· < c) (fun x h => by omega), hz (· = c) (fun x h => by omega),
          if_neg (show ¬ S a < c + 1 by omega), if_neg (show ¬ S a < c by omega), if_neg (show ¬ S a = c by omega)]
        rfl

/-- What an action does for `k` segments from `c` on; like `putFrom`. -/
def doFrom {α : Type} (put : Nat → Nat → α → α) (g : Nat) : Nat → Nat → α → α
  | _, 0, x => x
  | c, k + 1, x => doFrom put g (c + 1) k (put g c x)

/-- Like `putGroups`. -/
def doGroups {α : Type} (put : Nat → Nat → α → α) (P : SegPlan) : List Nat → α → α
  | [], x => x
  | g :: gs, x => doGroups put P gs (doFrom put g (P.start g) (P.stop g - P.start g) x)

theorem putFrom_do (put : Nat → Nat → Nodes → Nodes) (g : Nat) : ∀ k c nd, putFrom put g c k nd = doFrom put g c k nd := by
  intro k
  induction k with
  | zero => intro c nd; rfl
  | succ k ih => intro c nd; exact ih _ _

theorem putGroups_do (put : Nat → Nat → Nodes → Nodes) (P : SegPlan) : ∀ gs nd, putGroups put P gs nd = doGroups put P gs nd := by
  intro gs
  induction gs with
  | nil => intro nd; rfl
  | cons g gs ih => intro nd; simp only [putGroups, doGroups]; rw [ih, putFrom_do]

theorem doGroups_append {α : Type} (put : Nat → Nat → α → α) (P : SegPlan) (a b : List Nat) (x : α) :
    doGroups put P (a ++ b) x = doGroups put P b (doGroups put P a x) := by
  induction a generalizing x with
  | nil => rfl
  | cons g a ih => exact ih _

section
variable {n : Nat} {rows : Nat → Nat} {conc : Nat} {P : SegPlan} {β : Type} {f : Nat → List β}

/-- The rows of a segment. -/
def segRows (P : SegPlan) (n : Nat) (f : Nat → List β) (g c : Nat) : List β := (P.seg n g c).flatMap f

/-- The number of rows before a segment. -/
def segOff (P : SegPlan) (n : Nat) (rows : Nat → Nat) (g c : Nat) : Nat := rowsBefore rows ((P.seg n g c).headD 0)

/-- The rows in segments before `c`. -/
def belowRows (P : SegPlan) (n : Nat) (f : Nat → List β) (c : Nat) : List β :=
  (List.range n).flatMap (fun r => if P.S r < c then f r else [])

/-- The rows in groups before `g`. -/
def groupsBelow (P : SegPlan) (n : Nat) (f : Nat → List β) (g : Nat) : List β :=
  (List.range n).flatMap (fun r => if P.G r < g then f r else [])

theorem rowsBefore_length (hf : ∀ r, (f r).length = rows r) (r : Nat) :
    ((List.range r).flatMap f).length = rowsBefore rows r := by
  unfold rowsBefore
  rw [List.length_flatMap]
  congr 1
  apply List.map_congr_left
  intro a _
  exact hf a

theorem nonempty_iff (hf : ∀ r, (f r).length = rows r) {r : Nat} : f r ≠ [] ↔ 0 < rows r := by
  rw [← hf r]; exact List.length_pos_iff.symm

/-- A rank with rows is found by its segment number alone. -/
theorem PlanOk.group_of (h : PlanOk n rows conc P) {r r' : Nat} (hr : r < n) (hr' : r' < n) (h0 : 0 < rows r)
    (h0' : 0 < rows r') (h1 : P.start (P.G r) ≤ P.S r') (h2 : P.S r' < P.stop (P.G r)) : P.G r' = P.G r := by
  rcases Nat.lt_trichotomy (P.G r') (P.G r) with hlt | heq | hgt
  · have := h.gorder r' r hr' hr h0' h0 hlt
    have := h.range r' hr'
    omega
  · exact heq
  · have := h.gorder r r' hr hr' h0 h0' hgt
    have := h.range r' hr'
    omega

theorem PlanOk.same_seg (h : PlanOk n rows conc P) {r r' : Nat} (hr : r < n) (hr' : r' < n) (h0 : 0 < rows r)
    (h0' : 0 < rows r') (hS : P.S r = P.S r') : P.G r' = P.G r := by
  apply h.group_of hr hr' h0 h0'
  · rw [← hS]; exact (h.range r hr).1
  · rw [← hS]; exact (h.range r hr).2

theorem segRows_eq (P : SegPlan) (n : Nat) (f : Nat → List β) (g c : Nat) :
    segRows P n f g c = (List.range n).flatMap (fun r => if P.G r = g ∧ P.S r = c then f r else []) := by
  unfold segRows SegPlan.seg SegPlan.group
  rw [List.filter_filter, flatMap_filter']
  apply flatMap_congr'
  intro a _
  by_cases h1 : P.G a = g <;> by_cases h2 : P.S a = c <;> simp [h1, h2]

theorem segRows_empty {g c : Nat} (h : P.seg n g c = []) : segRows P n f g c = [] := by
  unfold segRows; rw [h]; rfl

/-- One more segment. -/
theorem PlanOk.below_succ (h : PlanOk n rows conc P) (hf : ∀ r, (f r).length = rows r) {g c q : Nat} (hq : q < n)
    (hqg : P.G q = g) (hq0 : 0 < rows q) (h1 : P.start g ≤ c) (h2 : c < P.stop g) :
    belowRows P n f (c + 1) = belowRows P n f c ++ segRows P n f g c := by
  unfold belowRows
  rw [flatMap_split f P.S c, segRows_eq]
  · congr 1
    apply flatMap_congr'
    intro r hr
    have hr := List.mem_range.mp hr
    by_cases he : f r = []
    · simp [he]
    · have h0 := (nonempty_iff hf).mp he
      by_cases hS : P.S r = c
      · subst hqg
        have := h.group_of hq hr hq0 h0 (by rw [hS]; exact h1) (by rw [hS]; exact h2)
        rw [if_pos hS, if_pos ⟨this, hS⟩]
      · rw [if_neg hS, if_neg (fun hc => hS hc.2)]
  · have : (List.range n).Pairwise (fun a b => a < b ∧ b < n) := by
      rw [List.pairwise_iff_getElem]
      intro i j hi hj hij
      simp at hi hj ⊢
      omega
    exact this.imp (fun hab ha hb => h.order _ _ (by omega) hab.2 ((nonempty_iff hf).mp ha) ((nonempty_iff hf).mp hb))

/-- The offset of a segment with rows: everything before. -/
theorem PlanOk.below_off (h : PlanOk n rows conc P) (hf : ∀ r, (f r).length = rows r) {g c : Nat} (hg : g < conc)
    (hne : P.seg n g c ≠ []) : (belowRows P n f c).length = segOff P n rows g c := by
  unfold segOff
  cases hs : P.seg n g c with
  | nil => exact absurd hs hne
  | cons r0 l =>
    simp only [List.headD_cons]
    have hm : r0 ∈ P.seg n g c := by rw [hs]; simp
    obtain ⟨hr0, hG, hS⟩ := SegPlan.mem_seg.mp hm
    have h00 : 0 < rows r0 := by
      rcases Nat.eq_zero_or_pos (rows r0) with h0 | h0
      · have := h.empty r0 hr0 h0; omega
      · exact h0
    have hsorted : ∀ r, r < r0 → ¬ (P.G r = g ∧ P.S r = c) := by
      intro r hr hc
      have hm' : r ∈ P.seg n g c := SegPlan.mem_seg.mpr ⟨by omega, hc⟩
      have hp : (P.seg n g c).Pairwise (· < ·) := (List.pairwise_lt_range.filter _).filter _
      rw [hs] at hp hm'
      rcases List.mem_cons.mp hm' with e | e
      · omega
      · have := (List.pairwise_cons.mp hp).1 r e; omega
    rw [← rowsBefore_length hf]
    congr 1
    unfold belowRows
    have hsplit : List.range n = List.range r0 ++ (List.range' r0 (n - r0)) := by
      rw [List.range_eq_range', List.range_eq_range', show n = r0 + (n - r0) by omega, ← List.range'_append]
      simp
    rw [hsplit, List.flatMap_append]
    rw [flatMap_none (l := List.range' r0 (n - r0)), List.append_nil]
    · apply flatMap_congr'
      intro r hr
      have hr := List.mem_range.mp hr
      by_cases he : f r = []
      · simp [he]
      · have h0 := (nonempty_iff hf).mp he
        have h1 := h.order r r0 (by omega) hr0 h0 h00
        rw [if_pos]
        rcases Nat.lt_or_ge (P.S r) c with hl | hl
        · exact hl
        · exfalso
          have hSe : P.S r = P.S r0 := by omega
          refine hsorted r hr ⟨?_, by omega⟩
          rw [← hG]
          exact h.same_seg hr0 (by omega) h00 h0 hSe.symm
    · intro r hr
      obtain ⟨h1, h2⟩ := List.mem_range'_1.mp hr
      by_cases he : f r = []
      · simp [he]
      · have h0 := (nonempty_iff hf).mp he
        have := h.order r0 r (by omega) (by omega) h00 h0
        rw [if_neg (by omega)]

variable {α : Type} {act : Nat → List β → α → α}

/-- The action of the segments of one group. -/
theorem PlanOk.doFrom (h : PlanOk n rows conc P) (hf : ∀ r, (f r).length = rows r)
    (hnil : ∀ p x, act p [] x = x)
    (happ : ∀ p a b x, act p (a ++ b) x = act (p + a.length) b (act p a x)) (p : Nat)
    {g q : Nat} (hq : q < n) (hqg : P.G q = g) (hq0 : 0 < rows q) (x : α) : ∀ (k c : Nat), P.start g ≤ c → c + k ≤ P.stop g →
    Verif.doFrom (fun g c => act (p + segOff P n rows g c) (segRows P n f g c)) g c k (act p (belowRows P n f c) x) =
      act p (belowRows P n f (c + k)) x := by
  intro k
  induction k with
  | zero => intro c _ _; rfl
  | succ k ih =>
    intro c h1 h2
    show Verif.doFrom _ g (c + 1) k (act (p + segOff P n rows g c) (segRows P n f g c) (act p (belowRows P n f c) x)) = _
    have hg : g < conc := by rw [← hqg]; exact h.data q hq hq0
    have e : act (p + segOff P n rows g c) (segRows P n f g c) (act p (belowRows P n f c) x) =
        act p (belowRows P n f (c + 1)) x := by
      rw [h.below_succ hf hq hqg hq0 h1 (by omega), happ]
      by_cases hs : P.seg n g c = []
      · rw [segRows_empty hs, hnil, hnil]
      · rw [h.below_off hf hg hs]
    rw [e, ih (c + 1) (by omega) (by omega), show c + 1 + k = c + (k + 1) by omega]

theorem doFrom_id {put : Nat → Nat → α → α} {g : Nat} (h : ∀ c x, put g c x = x) : ∀ (k c : Nat) (x : α), doFrom put g c k x = x := by
  intro k
  induction k with
  | zero => intro c x; rfl
  | succ k ih => intro c x; simp only [doFrom]; rw [h, ih]

/-- The action of all groups is the action of all rows. -/
theorem PlanOk.doGroups (h : PlanOk n rows conc P) (hf : ∀ r, (f r).length = rows r)
    (hnil : ∀ p x, act p [] x = x)
    (happ : ∀ p a b x, act p (a ++ b) x = act (p + a.length) b (act p a x)) (p : Nat) (x : α) :
    Verif.doGroups (fun g c => act (p + segOff P n rows g c) (segRows P n f g c)) P (List.range (conc + 2)) x =
      act p ((List.range n).flatMap f) x := by
  have key : ∀ g, Verif.doGroups (fun g c => act (p + segOff P n rows g c) (segRows P n f g c)) P (List.range g) x =
      act p (groupsBelow P n f g) x := by
    intro g
    induction g with
    | zero =>
      show x = _
      unfold groupsBelow
      rw [flatMap_none (by intro a _; simp), hnil]
    | succ g ih =>
      rw [List.range_succ, doGroups_append, ih]
      show Verif.doFrom _ g (P.start g) (P.stop g - P.start g) _ = _
      by_cases hex : ∃ q, q < n ∧ P.G q = g ∧ 0 < rows q
      · obtain ⟨q, hq, hqg, hq0⟩ := hex
        have hr := h.range q hq
        rw [hqg] at hr
        have e1 : groupsBelow P n f g = belowRows P n f (P.start g) := by
          apply flatMap_congr'
          intro r hr'
          have hr' := List.mem_range.mp hr'
          by_cases he : f r = []
          · simp [he]
          · have h0 := (nonempty_iff hf).mp he
            have hrr := h.range r hr'
            rcases Nat.lt_trichotomy (P.G r) g with hlt | heq | hgt
            · have := h.gorder r q hr' hq h0 hq0 (by omega)
              rw [hqg] at this
              rw [if_pos hlt, if_pos (by omega)]
            · rw [heq] at hrr
              rw [if_neg (by omega), if_neg (by omega)]
            · have := h.gorder q r hq hr' hq0 h0 (by omega)
              rw [hqg] at this
              rw [if_neg (by omega), if_neg (by omega)]
        have e2 : groupsBelow P n f (g + 1) = belowRows P n f (P.stop g) := by
          apply flatMap_congr'
          intro r hr'
          have hr' := List.mem_range.mp hr'
          by_cases he : f r = []
          · simp [he]
          · have h0 := (nonempty_iff hf).mp he
            have hrr := h.range r hr'
            rcases Nat.lt_trichotomy (P.G r) g with hlt | heq | hgt
            · have := h.gorder r q hr' hq h0 hq0 (by omega)
              rw [hqg] at this
              rw [if_pos (by omega), if_pos (by omega)]
            · rw [heq] at hrr
              rw [if_pos (by omega), if_pos (by omega)]
            · have := h.gorder q r hq hr' hq0 h0 (by omega)
              rw [hqg] at this
              rw [if_neg (by omega), if_neg (by omega)]
        rw [e1, e2, h.doFrom hf hnil happ p hq hqg hq0 x _ _ (Nat.le_refl _) (by omega)]
        congr 2
        omega
      · have hno : ∀ r, r < n → P.G r = g → f r = [] := by
          intro r hr hG
          rcases Nat.eq_zero_or_pos (rows r) with h0 | h0
          · exact List.length_eq_zero_iff.mp (by rw [hf]; exact h0)
          · exact absurd ⟨r, hr, hG, h0⟩ hex
        rw [doFrom_id]
        · congr 1
          apply flatMap_congr'
          intro r hr
          have hr := List.mem_range.mp hr
          rcases Nat.lt_trichotomy (P.G r) g with hlt | heq | hgt
          · rw [if_pos hlt, if_pos (by omega)]
          · rw [hno r hr heq]; simp
          · rw [if_neg (by omega), if_neg (by omega)]
        · intro c x
          have : segRows P n f g c = [] := by
            apply flatMap_none
            intro r hr
            obtain ⟨h1, h2, _⟩ := SegPlan.mem_seg.mp hr
            exact hno r h1 h2
          simp only [this, hnil]
  rw [key]
  congr 1
  apply flatMap_congr'
  intro r hr
  have hr := List.mem_range.mp hr
  rw [if_pos]
  rcases Nat.eq_zero_or_pos (rows r) with h0 | h0
  · rw [h.empty r hr h0]; omega
  · have := h.data r hr h0; omega

/-- The rows of a segment end before the end. -/
theorem seg_end (hf : ∀ r, (f r).length = rows r) {g c : Nat} :
    P.seg n g c ≠ [] → segOff P n rows g c + (segRows P n f g c).length ≤ rowsBefore rows n := by
  intro hne
  unfold segOff
  cases hs : P.seg n g c with
  | nil => exact absurd hs hne
  | cons r0 l =>
    simp only [List.headD_cons]
    have hm : r0 ∈ P.seg n g c := by rw [hs]; simp
    obtain ⟨hr0, hG, hS⟩ := SegPlan.mem_seg.mp hm
    have hsorted : ∀ r, r < r0 → ¬ (P.G r = g ∧ P.S r = c) := by
      intro r hr hc
      have hm' : r ∈ P.seg n g c := SegPlan.mem_seg.mpr ⟨by omega, hc⟩
      have hp : (P.seg n g c).Pairwise (· < ·) := (List.pairwise_lt_range.filter _).filter _
      rw [hs] at hp hm'
      rcases List.mem_cons.mp hm' with e | e
      · omega
      · have := (List.pairwise_cons.mp hp).1 r e; omega
    rw [← rowsBefore_length hf, ← rowsBefore_length hf, segRows_eq]
    have hsplit : List.range n = List.range r0 ++ (List.range' r0 (n - r0)) := by
      rw [List.range_eq_range', List.range_eq_range', show n = r0 + (n - r0) by omega, ← List.range'_append]
      simp
    rw [hsplit, List.flatMap_append, List.flatMap_append, List.length_append, List.length_append]
    rw [flatMap_none (l := List.range r0) (f := fun r => if P.G r = g ∧ P.S r = c then f r else [])]
    · have : ∀ (l : List Nat) (q : Nat → Prop) [DecidablePred q],
          (l.flatMap (fun r => if q r then f r else [])).length ≤ (l.flatMap f).length := by
        intro l q _
        induction l with
        | nil => simp
        | cons a l ih =>
          simp only [List.flatMap_cons, List.length_append]
          by_cases hq : q a
          · rw [if_pos hq]; omega
          · rw [if_neg hq]; simp only [List.length_nil]; omega
      have := this (List.range' r0 (n - r0)) (fun r => P.G r = g ∧ P.S r = c)
      simp only [List.length_nil]
      omega
    · intro r hr
      rw [if_neg (hsorted r (List.mem_range.mp hr))]

/-- Different segments with rows occupy disjoint rows. -/
theorem PlanOk.seg_disjoint (h : PlanOk n rows conc P) (hf : ∀ r, (f r).length = rows r) {g c g' c' : Nat}
    (h0 : segRows P n f g c ≠ []) (h0' : segRows P n f g' c' ≠ []) (hne : ¬ (g = g' ∧ c = c')) :
    segOff P n rows g c + (segRows P n f g c).length ≤ segOff P n rows g' c' ∨
      segOff P n rows g' c' + (segRows P n f g' c').length ≤ segOff P n rows g c := by
  have mem : ∀ {g c : Nat}, segRows P n f g c ≠ [] → ∃ q, q < n ∧ P.G q = g ∧ P.S q = c ∧ 0 < rows q := by
    intro g c hc
    apply Classical.byContradiction
    intro hno
    apply hc
    apply flatMap_none
    intro r hr
    obtain ⟨h1, h2, h3⟩ := SegPlan.mem_seg.mp hr
    rcases Nat.eq_zero_or_pos (rows r) with h0 | h0
    · exact List.length_eq_zero_iff.mp (by rw [hf]; exact h0)
    · exact absurd ⟨r, h1, h2, h3, h0⟩ hno
  obtain ⟨q, hq, hG, hS, hq0⟩ := mem h0
  obtain ⟨q', hq', hG', hS', hq0'⟩ := mem h0'
  have hcc : c ≠ c' := by
    intro e
    have := h.same_seg hq hq' hq0 hq0' (by omega)
    omega
  have hsegne : ∀ {g c : Nat}, segRows P n f g c ≠ [] → P.seg n g c ≠ [] := fun hc e => hc (segRows_empty e)
  have hend : ∀ {g c q : Nat}, q < n → P.G q = g → P.S q = c → 0 < rows q → segRows P n f g c ≠ [] →
      segOff P n rows g c + (segRows P n f g c).length = (belowRows P n f (c + 1)).length ∧
      segOff P n rows g c = (belowRows P n f c).length := by
    intro g c q hq hG hS hq0 hne
    have hr := h.range q hq
    rw [hG, hS] at hr
    have e1 := h.below_off hf (g := g) (c := c) (by rw [← hG]; exact h.data q hq hq0) (hsegne hne)
    have e2 := congrArg List.length (h.below_succ hf hq hG hq0 hr.1 hr.2)
    rw [List.length_append, e1] at e2
    exact ⟨e2.symm, e1.symm⟩
  obtain ⟨a1, a2⟩ := hend hq hG hS hq0 h0
  obtain ⟨b1, b2⟩ := hend hq' hG' hS' hq0' h0'
  rw [a1, a2, b1, b2]
  have mono : ∀ {c c' : Nat}, c ≤ c' → (belowRows P n f c).length ≤ (belowRows P n f c').length := by
    intro c c' hle
    unfold belowRows
    generalize List.range n = l
    induction l with
    | nil => simp
    | cons a l ih =>
      simp only [List.flatMap_cons, List.length_append]
      by_cases h1 : P.S a < c
      · rw [if_pos h1, if_pos (by omega)]; omega
      · rw [if_neg h1]; simp only [List.length_nil]; omega
  rcases Nat.lt_or_gt_of_ne hcc with hlt | hgt
  · exact Or.inl (mono hlt)
  · exact Or.inr (mono hgt)

end

end Verif
