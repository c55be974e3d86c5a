import Verif.Proof.Coll
import Verif.Spec.Mpi
/-!
# The loop over the segments of a group, and the whole collective call, in one particular order

The order is: group after group, in each group segment after segment. What one segment does is a
hypothesis here (`SegAct`); it is proved for writing and for reading elsewhere.
-/

set_option autoImplicit false

namespace Verif

open Spec

/-- Groups and segments of the processes: group and segment of each, and for every group the range of
segments and the leaders. -/
structure SegPlan where
  G : Nat → Nat
  S : Nat → Nat
  start : Nat → Nat
  stop : Nat → Nat
  root : Nat → Nat → Nat

/-- Members of group `g`. -/
def SegPlan.group (P : SegPlan) (n g : Nat) : List Nat := (List.range n).filter (fun r => decide (P.G r = g))

/-- Members of segment `c` of group `g`. -/
def SegPlan.seg (P : SegPlan) (n g c : Nat) : List Nat := (P.group n g).filter (fun r => decide (P.S r = c))

/-- What process `r` knows. -/
def SegPlan.info (P : SegPlan) (n : Nat) (rows : Nat → Nat) (r : Nat) : SegInfo :=
  ⟨P.group n (P.G r), P.seg n (P.G r) (P.S r), P.root (P.G r) (P.S r), P.S r, rowsBefore rows r, rows r⟩

theorem SegPlan.mem_group {P : SegPlan} {n g r : Nat} : r ∈ P.group n g ↔ r < n ∧ P.G r = g := by
  simp [SegPlan.group]

theorem SegPlan.mem_seg {P : SegPlan} {n g c r : Nat} : r ∈ P.seg n g c ↔ r < n ∧ P.G r = g ∧ P.S r = c := by
  simp [SegPlan.seg, SegPlan.group]
  intro _
  exact and_comm

theorem SegPlan.group_nodup {P : SegPlan} {n g : Nat} : (P.group n g).Nodup := List.nodup_range.filter _

/-- What one segment does: if all its members start with the states `R`, then either all end with code
0 in states satisfying `Done`, having changed the files by `put`; or all end with the same nonzero code
and the message of one of them; this happens only if the files are not `Healthy`. -/
def SegAct (env : Env) (wr : Bool) (F : Nat → Nat → Fault) (n : Nat) (P : SegPlan) (rows : Nat → Nat)
    (R : Nat → Rank) (E : Event → Prop) (Inv Healthy : Nodes → Prop) (put : Nat → Nat → Nodes → Nodes)
    (Done : Nat → Rank → Prop) : Prop :=
  ∀ (g c : Nat) (s : Conf (Int × Rank)) (K : Nat → Int × Rank → Prog (Int × Rank)), P.seg n g c ≠ [] →
    (∀ r ∈ P.seg n g c, (s.thr r).prog = (aggregatedP env wr (P.seg n g c) (P.root g c) r
      ((rowsBefore rows ((P.seg n g c).headD 0) : Nat) : Int) (rows r) (R r)).bind (K r)) →
    Inv s.nodes →
    ∃ s', Moves F n (P.seg n g c) E s s' ∧ Inv s'.nodes ∧ ∃ st' : Nat → Rank,
      ((∀ r ∈ P.seg n g c, (s'.thr r).prog = K r (0, st' r) ∧ Done r (st' r)) ∧ s'.nodes = put g c s.nodes) ∨
      (∃ e r0, e ≠ 0 ∧ r0 < n ∧ ¬ Healthy s.nodes ∧
        ∀ r ∈ P.seg n g c, (s'.thr r).prog = K r (e, st' r) ∧ (st' r).err = some (R r0).fail)

/-- `put` for `k` segments from `c` on. -/
def putFrom (put : Nat → Nat → Nodes → Nodes) (g : Nat) : Nat → Nat → Nodes → Nodes
  | _, 0, nd => nd
  | c, k + 1, nd => putFrom put g (c + 1) k (put g c nd)

section
variable {env : Env} {wr : Bool} {F : Nat → Nat → Fault} {n : Nat} {P : SegPlan} {rows : Nat → Nat}
  {R : Nat → Rank} {E : Event → Prop} {Inv Healthy : Nodes → Prop} {put : Nat → Nat → Nodes → Nodes}
  {Done : Nat → Rank → Prop}

/-- The loop after a failure: only errors are exchanged. -/
theorem throttleLoop_bad (hE : ∀ c, E (.coll c)) (g : Nat) (hne : P.group n g ≠ [])
    (K : Nat → Int × Rank → Prog (Int × Rank)) : ∀ (k c : Nat) (rt : Nat → Int) (st : Nat → Rank) (s : Conf (Int × Rank)),
    (∀ r ∈ P.group n g, (s.thr r).prog = (throttleLoop env wr r (P.info n rows r) k c (rt r) (st r)).bind (K r)) →
    (∃ r ∈ P.group n g, rt r ≠ 0) →
    (∀ r ∈ P.group n g, rt r ≠ 0 → ∃ r0, r0 < n ∧ (st r).err = some (R r0).fail) →
    ∃ s', Moves F n (P.group n g) E s s' ∧ s'.nodes = s.nodes ∧ ∃ (rt' : Nat → Int) (st' : Nat → Rank),
      (∀ r ∈ P.group n g, (s'.thr r).prog = K r (rt' r, st' r)) ∧ (∃ r ∈ P.group n g, rt' r ≠ 0) ∧
      (∀ r ∈ P.group n g, rt' r ≠ 0 → ∃ r0, r0 < n ∧ (st' r).err = some (R r0).fail) := by
  intro k
  induction k with
  | zero =>
    intro c rt st s hp h1 h2
    exact ⟨s, Moves.refl _ _ _ _ _, rfl, rt, st, hp, h1, h2⟩
  | succ k ih =>
    intro c rt st s hp h1 h2
    have hlt : ∀ r ∈ P.group n g, r < n := fun r hr => (SegPlan.mem_group.mp hr).1
    have hg : ∀ r ∈ P.group n g, (P.info n rows r).group = P.group n g := by
      intro r hr; simp only [SegPlan.info, (SegPlan.mem_group.mp hr).2]
    let cont : Nat → Int × Option CStr → Prog (Int × Rank) := fun r q =>
      Prog.bind
        (if q.1 ≠ 0 then throttleLoop env wr r (P.info n rows r) k (c + 1) q.1 { st r with err := q.2 }
         else if (P.info n rows r).segment ≠ c then
          throttleLoop env wr r (P.info n rows r) k (c + 1) 0 { st r with err := q.2 }
         else
          Prog.bind (Prog.call ⟨.bcast, .segment, (P.info n rows r).seg⟩ { num := (P.info n rows r).offset })
            fun l => Prog.bind (aggregatedP env wr (P.info n rows r).seg (P.info n rows r).root r (l.getD 0 {}).num
              (P.info n rows r).localsize { st r with err := q.2 })
              fun x => throttleLoop env wr r (P.info n rows r) k (c + 1) x.1 x.2) (K r)
    obtain ⟨s1, hm1, hn1, _, hp1⟩ := coll_run F hE ⟨.barrier, .group, P.group n g⟩ hne (s := s) (fun _ => {})
      (fun r _ => (anyerrorP .group (P.group n g) r (rt r) (st r).err).bind (cont r))
      (fun r hr => ⟨hlt r hr, by
        rw [hp r hr]
        show Prog.coll ⟨.barrier, .group, (P.info n rows r).group⟩ _ _ = _
        rw [hg r hr]
        congr 1
        funext l
        show Prog.bind (Prog.bind (anyerrorP .group (P.group n g) r (rt r) (st r).err) _) _ = _
        rw [Prog.bind_assoc]
        rfl⟩)
    obtain ⟨s2, hm2, hn2, _, hp2⟩ := anyerror_run F hE .group (P.group n g) hne SegPlan.group_nodup rt
      (fun r => (st r).err) (fun r hr hr0 => by
        obtain ⟨r0, _, e⟩ := h2 r hr hr0
        exact ⟨_, e⟩) (s := s1) cont (fun r hr => ⟨hlt r hr, hp1 r hr⟩)
    rcases hp2 with ⟨hall, _⟩ | ⟨r0, hr0, hrt0, hp2⟩
    · obtain ⟨r, hr, h⟩ := h1
      exact absurd (hall r hr) h
    · obtain ⟨r1, hr1, he1⟩ := h2 r0 hr0 hrt0
      obtain ⟨s3, hm3, hn3, rt', st', h3⟩ := ih (c + 1) (fun _ => rt r0) (fun r => { st r with err := (st r0).err }) s2
        (fun r hr => by
          rw [hp2 r hr]
          simp only [cont, if_pos hrt0]) ⟨r0, hr0, hrt0⟩ (fun r hr _ => ⟨r1, hr1, he1⟩)
      exact ⟨s3, (hm1.trans hm2).trans hm3, by rw [hn3, hn2, hn1], rt', st', h3⟩

/-- The loop over the segments of a group. -/
theorem throttleLoop_good (hE : ∀ c, E (.coll c)) (hact : SegAct env wr F n P rows R E Inv Healthy put Done)
    (hput : ∀ g c nd, P.seg n g c = [] → put g c nd = nd)
    (hhealthy : ∀ g c nd, Healthy nd → Healthy (put g c nd)) (g : Nat) (hne : P.group n g ≠ [])
    (K : Nat → Int × Rank → Prog (Int × Rank)) : ∀ (k c : Nat) (st : Nat → Rank) (s : Conf (Int × Rank)),
    (∀ r ∈ P.group n g, (s.thr r).prog = (throttleLoop env wr r (P.info n rows r) k c 0 (st r)).bind (K r)) →
    (∀ r ∈ P.group n g, P.S r < c + k) →
    (∀ r ∈ P.group n g, c ≤ P.S r → st r = R r) →
    (∀ r ∈ P.group n g, P.S r < c → Done r (st r)) →
    Inv s.nodes →
    ∃ s', Moves F n (P.group n g) E s s' ∧ Inv s'.nodes ∧ ∃ (rt' : Nat → Int) (st' : Nat → Rank),
      (∀ r ∈ P.group n g, (s'.thr r).prog = K r (rt' r, st' r)) ∧
      (((∀ r ∈ P.group n g, rt' r = 0 ∧ Done r (st' r)) ∧ s'.nodes = putFrom put g c k s.nodes) ∨
        (¬ Healthy s.nodes ∧ (∃ r ∈ P.group n g, rt' r ≠ 0) ∧
          (∀ r ∈ P.group n g, rt' r ≠ 0 → ∃ r0, r0 < n ∧ (st' r).err = some (R r0).fail))) := by
  intro k
  induction k with
  | zero =>
    intro c st s hp hS hf hd hi
    exact ⟨s, Moves.refl _ _ _ _ _, hi, fun _ => 0, st, hp, Or.inl ⟨fun r hr => ⟨rfl, hd r hr (hS r hr)⟩, rfl⟩⟩
  | succ k ih =>
    intro c st s hp hS hf hd hi
    have hlt : ∀ r ∈ P.group n g, r < n := fun r hr => (SegPlan.mem_group.mp hr).1
    have hg : ∀ r ∈ P.group n g, (P.info n rows r).group = P.group n g := by
      intro r hr; simp only [SegPlan.info, (SegPlan.mem_group.mp hr).2]
    let cont : Nat → Int × Option CStr → Prog (Int × Rank) := fun r q =>
      Prog.bind
        (if q.1 ≠ 0 then throttleLoop env wr r (P.info n rows r) k (c + 1) q.1 { st r with err := q.2 }
         else if (P.info n rows r).segment ≠ c then
          throttleLoop env wr r (P.info n rows r) k (c + 1) 0 { st r with err := q.2 }
         else
          Prog.bind (Prog.call ⟨.bcast, .segment, (P.info n rows r).seg⟩ { num := (P.info n rows r).offset })
            fun l => Prog.bind (aggregatedP env wr (P.info n rows r).seg (P.info n rows r).root r (l.getD 0 {}).num
              (P.info n rows r).localsize { st r with err := q.2 })
              fun x => throttleLoop env wr r (P.info n rows r) k (c + 1) x.1 x.2) (K r)
    obtain ⟨s1, hm1, hn1, _, hp1⟩ := coll_run F hE ⟨.barrier, .group, P.group n g⟩ hne (s := s) (fun _ => {})
      (fun r _ => (anyerrorP .group (P.group n g) r 0 (st r).err).bind (cont r))
      (fun r hr => ⟨hlt r hr, by
        rw [hp r hr]
        show Prog.coll ⟨.barrier, .group, (P.info n rows r).group⟩ _ _ = _
        rw [hg r hr]
        congr 1
        funext l
        show Prog.bind (Prog.bind (anyerrorP .group (P.group n g) r 0 (st r).err) _) _ = _
        rw [Prog.bind_assoc]
        rfl⟩)
    obtain ⟨s2, hm2, hn2, _, hp2⟩ := anyerror_run F hE .group (P.group n g) hne SegPlan.group_nodup (fun _ => 0)
      (fun r => (st r).err) (fun r hr hr0 => absurd rfl hr0) (s := s1) cont (fun r hr => ⟨hlt r hr, hp1 r hr⟩)
    obtain ⟨_, hp2⟩ := hp2.resolve_right (by rintro ⟨_, _, h0, _⟩; exact h0 rfl)
    have hskip : ∀ r ∈ P.group n g, P.S r ≠ c →
        (s2.thr r).prog = (throttleLoop env wr r (P.info n rows r) k (c + 1) 0 (st r)).bind (K r) := by
      intro r hr hc
      rw [hp2 r hr]
      simp only [cont, ne_eq, not_true_eq_false, if_false]
      rw [if_pos (show ¬ (P.info n rows r).segment = c from hc)]
    by_cases hms : P.seg n g c = []
    · obtain ⟨s3, hm3, hi3, rt', st', h3, h4⟩ := ih (c + 1) st s2
        (fun r hr => hskip r hr (fun e => by
          have : r ∈ P.seg n g c := SegPlan.mem_seg.mpr ⟨hlt r hr, (SegPlan.mem_group.mp hr).2, e⟩
          rw [hms] at this; simp at this))
        (fun r hr => by have := hS r hr; omega) (fun r hr h => hf r hr (by omega))
        (fun r hr h => by
          by_cases e : P.S r = c
          · have : r ∈ P.seg n g c := SegPlan.mem_seg.mpr ⟨hlt r hr, (SegPlan.mem_group.mp hr).2, e⟩
            rw [hms] at this; simp at this
          · exact hd r hr (by omega)) (by rw [hn2, hn1]; exact hi)
      refine ⟨s3, (hm1.trans hm2).trans hm3, hi3, rt', st', h3, ?_⟩
      rw [hn2, hn1] at h4
      simp only [putFrom, hput g c _ hms]
      exact h4
    · have hsub : ∀ r ∈ P.seg n g c, r ∈ P.group n g := fun r hr =>
        SegPlan.mem_group.mpr ⟨(SegPlan.mem_seg.mp hr).1, (SegPlan.mem_seg.mp hr).2.1⟩
      have hSc : ∀ r ∈ P.seg n g c, P.S r = c := fun r hr => (SegPlan.mem_seg.mp hr).2.2
      have hGc : ∀ r ∈ P.seg n g c, P.G r = g := fun r hr => (SegPlan.mem_seg.mp hr).2.1
      obtain ⟨s3, hm3, hn3, _, hp3⟩ := coll_run F hE ⟨.bcast, .segment, P.seg n g c⟩ hms (s := s2)
        (fun r => { num := ((rowsBefore rows r : Nat) : Int) })
        (fun r l => (aggregatedP env wr (P.seg n g c) (P.root g c) r (l.getD 0 {}).num (rows r) (R r)).bind
          (fun x => (throttleLoop env wr r (P.info n rows r) k (c + 1) x.1 x.2).bind (K r)))
        (fun r hr => ⟨hlt r (hsub r hr), by
          rw [hp2 r (hsub r hr)]
          simp only [cont, ne_eq, not_true_eq_false, if_false]
          rw [if_neg (show ¬ ¬ (P.info n rows r).segment = c from fun h => h (hSc r hr)), hf r (hsub r hr) (by rw [hSc r hr]; exact Nat.le_refl c)]
          simp only [SegPlan.info, hSc r hr, hGc r hr]
          show Prog.coll _ _ _ = _
          congr 1
          funext l
          show Prog.bind (Prog.bind (aggregatedP _ _ _ _ _ _ _ _) _) _ = _
          rw [Prog.bind_assoc]⟩)
      have hfirst : ∀ l : List Nat, l ≠ [] →
          ((l.map fun r => ({ num := ((rowsBefore rows r : Nat) : Int) } : Msg)).getD 0 {}).num =
            ((rowsBefore rows (l.headD 0) : Nat) : Int) := by
        intro l hl
        cases l with
        | nil => exact absurd rfl hl
        | cons a l => rfl
      obtain ⟨s4, hm4, hi4, st4, h4⟩ := hact g c s3
        (fun r x => (throttleLoop env wr r (P.info n rows r) k (c + 1) x.1 x.2).bind (K r)) hms
        (fun r hr => by rw [hp3 r hr]; simp only; rw [hfirst _ hms]) (by rw [hn3, hn2, hn1]; exact hi)
      have hm : Moves F n (P.group n g) E s s4 :=
        ((hm1.trans hm2).trans (hm3.mono hsub)).trans (hm4.mono hsub)
      have hrest : ∀ r ∈ P.group n g, P.S r ≠ c → (s4.thr r).prog =
          (throttleLoop env wr r (P.info n rows r) k (c + 1) 0 (st r)).bind (K r) := by
        intro r hr hc
        have hnot : r ∉ P.seg n g c := fun h => hc (hSc r h)
        rw [hm4.frame r hnot, hm3.frame r hnot]
        exact hskip r hr hc
      have hin : ∀ r ∈ P.group n g, P.S r = c → r ∈ P.seg n g c := fun r hr h =>
        SegPlan.mem_seg.mpr ⟨hlt r hr, (SegPlan.mem_group.mp hr).2, h⟩
      rw [hn3, hn2, hn1] at h4
      rcases h4 with ⟨hok, hnod⟩ | ⟨e, r0, he, hr0, hbad, hfail⟩
      · obtain ⟨s5, hm5, hi5, rt', st', h5, h6⟩ := ih (c + 1) (fun r => if P.S r = c then st4 r else st r) s4
          (fun r hr => by
            by_cases e : P.S r = c
            · simp only [if_pos e]; exact (hok r (hin r hr e)).1
            · simp only [if_neg e]; exact hrest r hr e)
          (fun r hr => by have := hS r hr; omega)
          (fun r hr h => by
            simp only [if_neg (show ¬ P.S r = c by omega)]; exact hf r hr (by omega))
          (fun r hr h => by
            by_cases e : P.S r = c
            · simp only [if_pos e]; exact (hok r (hin r hr e)).2
            · simp only [if_neg e]; exact hd r hr (by omega)) hi4
        refine ⟨s5, hm.trans hm5, hi5, rt', st', h5, ?_⟩
        rw [hnod] at h6
        rcases h6 with h6 | ⟨h7, h6⟩
        · exact Or.inl h6
        · exact Or.inr ⟨fun hh => h7 (hhealthy g c _ hh), h6⟩
      · obtain ⟨q, hq⟩ := List.exists_mem_of_ne_nil _ hms
        obtain ⟨s5, hm5, hn5, rt', st', h5, h6, h7⟩ := throttleLoop_bad (R := R) (F := F) (E := E) hE g hne K k (c + 1)
          (fun r => if P.S r = c then e else 0) (fun r => if P.S r = c then st4 r else st r) s4
          (fun r hr => by
            by_cases e' : P.S r = c
            · simp only [if_pos e']; exact (hfail r (hin r hr e')).1
            · simp only [if_neg e']; exact hrest r hr e')
          ⟨q, hsub q hq, by simp only [if_pos (hSc q hq)]; exact he⟩
          (fun r hr h => by
            by_cases e' : P.S r = c
            · simp only [if_pos e']; exact ⟨r0, hr0, (hfail r (hin r hr e')).2⟩
            · simp only [if_neg e', ne_eq, not_true_eq_false] at h)
        exact ⟨s5, hm.trans hm5, by rw [hn5]; exact hi4, rt', st', h5, Or.inr ⟨hbad, h6, h7⟩⟩

/-- `put` for the groups of a list. -/
def putGroups (put : Nat → Nat → Nodes → Nodes) (P : SegPlan) : List Nat → Nodes → Nodes
  | [], nd => nd
  | g :: gs, nd => putGroups put P gs (putFrom put g (P.start g) (P.stop g - P.start g) nd)

theorem putFrom_empty (hput : ∀ g c nd, P.seg n g c = [] → put g c nd = nd) {g : Nat} (h : P.group n g = []) :
    ∀ (k c : Nat) (nd : Nodes), putFrom put g c k nd = nd := by
  intro k
  induction k with
  | zero => intro c nd; rfl
  | succ k ih =>
    intro c nd
    simp only [putFrom]
    rw [hput g c nd (by simp [SegPlan.seg, h]), ih]

theorem putFrom_healthy (hhealthy : ∀ g c nd, Healthy nd → Healthy (put g c nd)) (g : Nat) :
    ∀ (k c : Nat) (nd : Nodes), Healthy nd → Healthy (putFrom put g c k nd) := by
  intro k
  induction k with
  | zero => intro c nd h; exact h
  | succ k ih => intro c nd h; exact ih _ _ (hhealthy g c nd h)

/-- The groups one after another. -/
theorem groups_run (hE : ∀ c, E (.coll c)) (hact : SegAct env wr F n P rows R E Inv Healthy put Done)
    (hput : ∀ g c nd, P.seg n g c = [] → put g c nd = nd)
    (hhealthy : ∀ g c nd, Healthy nd → Healthy (put g c nd))
    (hrange : ∀ r, r < n → P.start (P.G r) ≤ P.S r ∧ P.S r < P.stop (P.G r))
    (K : Nat → Int × Rank → Prog (Int × Rank)) : ∀ (gs : List Nat) (s : Conf (Int × Rank)), gs.Nodup →
    (∀ r, r < n → P.G r ∈ gs → (s.thr r).prog = (throttleLoop env wr r (P.info n rows r)
      (P.stop (P.G r) - P.start (P.G r)) (P.start (P.G r)) 0 (R r)).bind (K r)) →
    Inv s.nodes →
    ∃ s', Moves F n (List.range n) E s s' ∧ (∀ r, P.G r ∉ gs → s'.thr r = s.thr r) ∧ Inv s'.nodes ∧
      ∃ (rt' : Nat → Int) (st' : Nat → Rank),
      (∀ r, r < n → P.G r ∈ gs → (s'.thr r).prog = K r (rt' r, st' r)) ∧
      (((∀ r, r < n → P.G r ∈ gs → rt' r = 0 ∧ Done r (st' r)) ∧ s'.nodes = putGroups put P gs s.nodes) ∨
        (¬ Healthy s.nodes ∧ (∃ r, r < n ∧ P.G r ∈ gs ∧ rt' r ≠ 0) ∧
          (∀ r, r < n → P.G r ∈ gs → rt' r ≠ 0 → ∃ r0, r0 < n ∧ (st' r).err = some (R r0).fail))) := by
  intro gs
  induction gs with
  | nil =>
    intro s _ _ hi
    exact ⟨s, Moves.refl _ _ _ _ _, fun _ _ => rfl, hi, fun _ => 0, R, by simp, Or.inl ⟨by simp, rfl⟩⟩
  | cons g gs ih =>
    intro s hnd hp hi
    obtain ⟨hgn, hnd'⟩ := List.nodup_cons.mp hnd
    have hmem : ∀ r ∈ P.group n g, r < n ∧ P.G r = g := fun r hr => SegPlan.mem_group.mp hr
    -- the first group
    obtain ⟨s1, hm1, hi1, rt1, st1, hp1, hd1⟩ : ∃ s1, Moves F n (P.group n g) E s s1 ∧ Inv s1.nodes ∧
        ∃ (rt' : Nat → Int) (st' : Nat → Rank),
        (∀ r ∈ P.group n g, (s1.thr r).prog = K r (rt' r, st' r)) ∧
        (((∀ r ∈ P.group n g, rt' r = 0 ∧ Done r (st' r)) ∧
            s1.nodes = putFrom put g (P.start g) (P.stop g - P.start g) s.nodes) ∨
          (¬ Healthy s.nodes ∧ (∃ r ∈ P.group n g, rt' r ≠ 0) ∧
            (∀ r ∈ P.group n g, rt' r ≠ 0 → ∃ r0, r0 < n ∧ (st' r).err = some (R r0).fail))) := by
      by_cases he : P.group n g = []
      · refine ⟨s, Moves.refl _ _ _ _ _, hi, fun _ => 0, R, by simp [he], Or.inl ⟨by simp [he], ?_⟩⟩
        rw [putFrom_empty hput he]
      · refine throttleLoop_good hE hact hput hhealthy g he K (P.stop g - P.start g) (P.start g) R s ?_ ?_ ?_ ?_ hi
        · intro r hr
          have := hp r (hmem r hr).1 (by rw [(hmem r hr).2]; simp)
          rw [(hmem r hr).2] at this
          exact this
        · intro r hr
          have := hrange r (hmem r hr).1
          rw [(hmem r hr).2] at this
          omega
        · intro r _ _; rfl
        · intro r hr h
          have := hrange r (hmem r hr).1
          rw [(hmem r hr).2] at this
          omega
    -- the others
    obtain ⟨s2, hm2, hf2, hi2, rt2, st2, hp2, hd2⟩ := ih s1 hnd' (fun r hr hg => by
      rw [hm1.frame r (fun h => hgn (by rw [← (hmem r h).2]; exact hg))]
      exact hp r hr (by simp [hg])) hi1
    have hin : ∀ r, r < n → P.G r = g → r ∈ P.group n g := fun r hr h => SegPlan.mem_group.mpr ⟨hr, h⟩
    refine ⟨s2, (hm1.mono (fun r hr => List.mem_range.mpr (hmem r hr).1)).trans hm2, ?_, hi2,
      fun r => if P.G r = g then rt1 r else rt2 r, fun r => if P.G r = g then st1 r else st2 r, ?_, ?_⟩
    · intro r hr
      simp only [List.mem_cons, not_or] at hr
      rw [hf2 r hr.2, hm1.frame r (fun h => hr.1 (hmem r h).2)]
    · intro r hr hg
      by_cases e : P.G r = g
      · simp only [if_pos e]
        rw [hf2 r (by rw [e]; exact hgn)]
        exact hp1 r (hin r hr e)
      · simp only [if_neg e]
        exact hp2 r hr (by simpa [e] using hg)
    · rcases hd1 with ⟨hok1, hn1⟩ | ⟨hb1, ⟨q, hq, hq'⟩, hm1'⟩
      · rcases hd2 with ⟨hok2, hn2⟩ | ⟨hb2, ⟨q, hq, hqg, hq'⟩, hm2'⟩
        · refine Or.inl ⟨?_, by rw [hn2, hn1]; rfl⟩
          intro r hr hg
          by_cases e : P.G r = g
          · simp only [if_pos e]; exact hok1 r (hin r hr e)
          · simp only [if_neg e]; exact hok2 r hr (by simpa [e] using hg)
        · refine Or.inr ⟨fun hh => hb2 (by rw [hn1]; exact putFrom_healthy hhealthy g _ _ _ hh), ⟨q, hq, by simp [hqg], ?_⟩, ?_⟩
          · have : ¬ P.G q = g := fun e => hgn (by rw [← e]; exact hqg)
            simp only [if_neg this]; exact hq'
          · intro r hr hg hrt
            by_cases e : P.G r = g
            · simp only [if_pos e] at hrt; exact absurd (hok1 r (hin r hr e)).1 hrt
            · simp only [if_neg e] at hrt ⊢; exact hm2' r hr (by simpa [e] using hg) hrt
      · refine Or.inr ⟨hb1, ⟨q, (hmem q hq).1, by simp [(hmem q hq).2], ?_⟩, ?_⟩
        · simp only [if_pos (hmem q hq).2]; exact hq'
        · intro r hr hg hrt
          by_cases e : P.G r = g
          · simp only [if_pos e] at hrt ⊢; exact hm1' r (hin r hr e) hrt
          · simp only [if_neg e] at hrt ⊢
            rcases hd2 with ⟨hok2, _⟩ | ⟨_, _, hm2'⟩
            · exact absurd (hok2 r hr (by simpa [e] using hg)).1 hrt
            · exact hm2' r hr (by simpa [e] using hg) hrt

/-- The whole collective call, in one particular order. -/
theorem throttle_run (hE : ∀ c, E (.coll c)) (hact : SegAct env wr F n P rows R E Inv Healthy put Done)
    (hput : ∀ g c nd, P.seg n g c = [] → put g c nd = nd)
    (hhealthy : ∀ g c nd, Healthy nd → Healthy (put g c nd))
    (hrange : ∀ r, r < n → P.start (P.G r) ≤ P.S r ∧ P.S r < P.stop (P.G r))
    {concurrency : Int} {threshold : Nat} (hn : 0 < n)
    (hrows : ∀ r, r < n → (R r).arr.dims.head? = some (rows r))
    (hinfo : ∀ r, r < n → ∃ q : Segmenter, segInfo (useConc n concurrency) threshold ((List.range n).map rows) r =
      some (q, P.info n rows r) ∧ q.segStart = P.start (P.G r) ∧ q.segEnd = P.stop (P.G r))
    (gs : List Nat) (hgs : gs.Nodup) (hcov : ∀ r, r < n → P.G r ∈ gs) (Fin : Nat → Rank → Prop)
    (hseek : ∀ r st, r < n → Done r st → ∃ rc ptr, seekRel st.bb st.ptr ((rowsBefore rows n : Nat) : Int) = some (rc, ptr) ∧
      Fin r { st with ptr := ptr })
    (s : Conf (Int × Rank)) (hs : ∀ r, r < n → (s.thr r).prog = throttleP env wr n concurrency threshold r (R r))
    (hi : Inv s.nodes) :
    ∃ s', Moves F n (List.range n) E s s' ∧ Inv s'.nodes ∧
      (((∀ r, r < n → ∃ st, (s'.thr r).prog = .ret (0, st) ∧ Fin r st) ∧ s'.nodes = putGroups put P gs s.nodes) ∨
        (¬ Healthy s.nodes ∧ ∃ e r0, e ≠ 0 ∧ r0 < n ∧ ∀ r, r < n → ∃ st, (s'.thr r).prog = .ret (e, st) ∧
          st.err = some (R r0).fail)) := by
  have hne : List.range n ≠ [] := by
    intro h
    have := List.length_range (n := n)
    rw [h] at this
    simp at this
    omega
  let fin : Nat → Rank → Int × Option CStr → Prog (Int × Rank) := fun r st q =>
    if q.1 ≠ 0 then .ret (q.1, { st with err := q.2 })
    else Prog.bind (Prog.lift (seekRel st.bb st.ptr ((rowsBefore rows n : Nat) : Int)))
      fun x => .ret (0, { st with err := q.2, ptr := x.2 })
  let K : Nat → Int × Rank → Prog (Int × Rank) := fun r x =>
    (anyerrorP .world (List.range n) r x.1 x.2.err).bind (fin r x.2)
  have hsum : rowsBefore rows n = ((List.range n).map rows).sum := rfl
  have hnum : ∀ l : List Nat, (l.map (fun r => ({ num := ((rows r : Nat) : Int) } : Msg))).map (·.num.toNat) = l.map rows := by
    intro l; simp
  let kont : Nat → List Msg → Prog (Int × Rank) := fun r l =>
    Prog.bind (Prog.lift (segInfo (useConc n concurrency) threshold (l.map (·.num.toNat)) r)) fun qI =>
      Prog.bind (throttleLoop env wr r qI.2 (qI.1.segEnd - qI.1.segStart) qI.1.segStart 0 (R r)) fun x =>
        Prog.bind (anyerrorP .world (List.range n) r x.1 x.2.err) fun y =>
          if y.1 ≠ 0 then .ret (y.1, { x.2 with err := y.2 })
          else Prog.bind (Prog.lift (seekRel x.2.bb x.2.ptr (((l.map (·.num.toNat)).sum : Nat) : Int)))
            fun z => .ret (0, { x.2 with err := y.2, ptr := z.2 })
  obtain ⟨s1, hm1, hn1, _, hp1⟩ := coll_run F hE ⟨.allreduce, .world, List.range n⟩ hne (s := s)
    (fun r => { num := ((rows r : Nat) : Int) })
    (fun r _ => .coll ⟨.allgather, .world, List.range n⟩ { num := ((rows r : Nat) : Int) } (kont r))
    (fun r hr => ⟨List.mem_range.mp hr, by
      rw [hs r (List.mem_range.mp hr)]
      unfold throttleP
      rw [hrows r (List.mem_range.mp hr)]
      rfl⟩)
  obtain ⟨s2, hm2, hn2, _, hp2⟩ := coll_run F hE ⟨.allgather, .world, List.range n⟩ hne (s := s1)
    (fun r => { num := ((rows r : Nat) : Int) }) kont
    (fun r hr => ⟨List.mem_range.mp hr, hp1 r hr⟩)
  simp only at hp2 hm1 hm2
  obtain ⟨s3, hm3, _, hi3, rt', st', hp3, hd3⟩ := groups_run (F := F) hE hact hput hhealthy hrange K gs s2 hgs
    (fun r hr _ => by
      obtain ⟨q, hq, h1, h2⟩ := hinfo r hr
      rw [hp2 r (List.mem_range.mpr hr)]
      simp only [kont, hnum, hq]
      rw [← h1, ← h2]
      rfl) (by rw [hn2, hn1]; exact hi)
  obtain ⟨s4, hm4, hn4, _, hp4⟩ := anyerror_run F hE .world (List.range n) hne List.nodup_range rt'
    (fun r => (st' r).err) (fun r hr hrt => by
      rcases hd3 with ⟨hok, _⟩ | ⟨_, _, hmsg⟩
      · exact absurd (hok r (List.mem_range.mp hr) (hcov r (List.mem_range.mp hr))).1 hrt
      · obtain ⟨r0, _, e⟩ := hmsg r (List.mem_range.mp hr) (hcov r (List.mem_range.mp hr)) hrt
        exact ⟨_, e⟩) (s := s3) (fun r => fin r (st' r))
    (fun r hr => ⟨List.mem_range.mp hr, hp3 r (List.mem_range.mp hr) (hcov r (List.mem_range.mp hr))⟩)
  refine ⟨s4, ((hm1.trans hm2).trans hm3).trans hm4, by rw [hn4]; exact hi3, ?_⟩
  rw [hn2, hn1] at hd3
  rcases hd3 with ⟨hok, hnod⟩ | ⟨hbad, ⟨q, hq, hqg, hq'⟩, hmsg⟩
  · left
    obtain ⟨_, hp4⟩ := hp4.resolve_right (by
      rintro ⟨r0, hr0, h0, _⟩
      exact h0 (hok r0 (List.mem_range.mp hr0) (hcov r0 (List.mem_range.mp hr0))).1)
    refine ⟨fun r hr => ?_, by rw [hn4, hnod]⟩
    obtain ⟨rc, ptr, h1, h2⟩ := hseek r (st' r) hr (hok r hr (hcov r hr)).2
    refine ⟨_, ?_, h2⟩
    rw [hp4 r (List.mem_range.mpr hr)]
    simp only [fin, ne_eq, not_true_eq_false, if_false]
    rw [h1]
    rfl
  · right
    rcases hp4 with ⟨hall, _⟩ | ⟨r0, hr0, h0, hp4⟩
    · exact absurd (hall q (List.mem_range.mpr hq)) hq'
    · obtain ⟨r1, hr1, e1⟩ := hmsg r0 (List.mem_range.mp hr0) (hcov r0 (List.mem_range.mp hr0)) h0
      refine ⟨hbad, rt' r0, r1, h0, hr1, fun r hr => ⟨{ st' r with err := (st' r0).err }, ?_, e1⟩⟩
      rw [hp4 r (List.mem_range.mpr hr)]
      simp only [fin, ne_eq, h0, not_false_eq_true, if_true]

end

end Verif
