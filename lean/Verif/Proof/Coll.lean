import Verif.Model.Mpi
import Verif.Proof.ProcOps
/-!
# Running collective calls: one call, and the exchange of errors
-/

set_option autoImplicit false

namespace Verif

open Spec

variable {α β : Type}

/-- Only the processes `ms` move, and every event satisfies `E`. -/
structure Moves (F : Nat → Nat → Fault) (n : Nat) (ms : List Nat) (E : Event → Prop) (s s' : Conf α) : Prop where
  run : ∃ es, Run F n s es s' ∧ ∀ e ∈ es, E e
  frame : ∀ r, r ∉ ms → s'.thr r = s.thr r

theorem Moves.refl (F : Nat → Nat → Fault) (n : Nat) (ms : List Nat) (E : Event → Prop) (s : Conf α) :
    Moves F n ms E s s := ⟨⟨[], .nil s, by simp⟩, fun _ _ => rfl⟩

theorem Moves.trans {F : Nat → Nat → Fault} {n : Nat} {ms : List Nat} {E : Event → Prop} {s s1 s2 : Conf α}
    (h : Moves F n ms E s s1) (h' : Moves F n ms E s1 s2) : Moves F n ms E s s2 := by
  obtain ⟨⟨es, hr, he⟩, hf⟩ := h
  obtain ⟨⟨es', hr', he'⟩, hf'⟩ := h'
  refine ⟨⟨es ++ es', hr.trans hr', ?_⟩, fun r hr => (hf' r hr).trans (hf r hr)⟩
  intro e h
  rcases List.mem_append.mp h with h | h
  · exact he e h
  · exact he' e h

theorem Moves.mono {F : Nat → Nat → Fault} {n : Nat} {ms ms' : List Nat} {E : Event → Prop} {s s1 : Conf α}
    (h : Moves F n ms E s s1) (hs : ∀ r ∈ ms, r ∈ ms') : Moves F n ms' E s s1 :=
  ⟨h.run, fun r hr => h.frame r (fun h' => hr (hs r h'))⟩

/-- One collective call. -/
theorem coll_run (F : Nat → Nat → Fault) {n : Nat} {E : Event → Prop} (hE : ∀ c, E (.coll c)) (c : Call)
    (hne : c.members ≠ []) {s : Conf α} (v : Nat → Msg) (k : Nat → List Msg → Prog α)
    (h : ∀ r ∈ c.members, r < n ∧ (s.thr r).prog = .coll c (v r) (k r)) :
    ∃ s', Moves F n c.members E s s' ∧ s'.nodes = s.nodes ∧
      (∀ r, (s'.thr r).clock = (s.thr r).clock) ∧
      ∀ r ∈ c.members, (s'.thr r).prog = k r (c.members.map v) := by
  have hoff : (c.members.map fun q => (s.thr q).prog.offer) = c.members.map v := by
    apply List.map_congr_left
    intro q hq
    rw [(h q hq).2]
    rfl
  refine ⟨s.meet c, ⟨⟨[.coll c], .cons (.coll s c hne ?_) (.nil _), ?_⟩, ?_⟩, rfl, ?_, ?_⟩
  · intro r hr
    obtain ⟨h1, h2⟩ := h r hr
    exact ⟨h1, by rw [h2]; rfl⟩
  · intro e he
    rw [List.mem_singleton.mp he]
    exact hE c
  · intro r hr
    simp only [Conf.meet, if_neg hr]
  · intro r
    simp only [Conf.meet]
    split <;> rfl
  · intro r hr
    simp only [Conf.meet, if_pos hr]
    rw [hoff, (h r hr).2]
    rfl

theorem foldl_imax_ge (l : List Int) (a : Int) : a ≤ l.foldl max a ∧ ∀ x ∈ l, x ≤ l.foldl max a := by
  induction l generalizing a with
  | nil => simp
  | cons y l ih =>
    simp only [List.foldl_cons]
    obtain ⟨h1, h2⟩ := ih (max a y)
    refine ⟨by omega, ?_⟩
    intro x hx
    rcases List.mem_cons.mp hx with rfl | hx
    · omega
    · exact h2 x hx

theorem foldl_imax_mem (l : List Int) (a : Int) : l.foldl max a = a ∨ l.foldl max a ∈ l := by
  induction l generalizing a with
  | nil => simp
  | cons y l ih =>
    simp only [List.foldl_cons]
    rcases ih (max a y) with h | h
    · rcases Int.le_total a y with hc | hc
      · right; rw [h, Int.max_eq_right hc]; simp
      · left; rw [h, Int.max_eq_left hc]
    · right; exact List.mem_cons_of_mem _ h

/-- The exchange of errors: if nobody failed everybody gets 0 and keeps its message; otherwise everybody
gets code and message of one process that failed. -/
theorem anyerror_run (F : Nat → Nat → Fault) {n : Nat} {E : Event → Prop} (hE : ∀ c, E (.coll c)) (c : CommName)
    (ms : List Nat) (hne : ms ≠ []) (hnd : ms.Nodup) (rt : Nat → Int) (err : Nat → Option CStr)
    (hmsg : ∀ r ∈ ms, rt r ≠ 0 → ∃ t, err r = some t) {s : Conf α} (K : Nat → Int × Option CStr → Prog α)
    (h : ∀ r ∈ ms, r < n ∧ (s.thr r).prog = (anyerrorP c ms r (rt r) (err r)).bind (K r)) :
    ∃ s', Moves F n ms E s s' ∧ s'.nodes = s.nodes ∧ (∀ r, (s'.thr r).clock = (s.thr r).clock) ∧
      (((∀ r ∈ ms, rt r = 0) ∧ ∀ r ∈ ms, (s'.thr r).prog = K r (0, err r)) ∨
        ∃ r0 ∈ ms, rt r0 ≠ 0 ∧ ∀ r ∈ ms, (s'.thr r).prog = K r (rt r0, err r0)) := by
  let v : Nat → Msg := fun r => { num := if rt r ≠ 0 then ((ms.idxOf r + 1 : Nat) : Int) else 0 }
  obtain ⟨s1, hm1, hn1, hc1, hp1⟩ := coll_run F hE ⟨.allreduce, c, ms⟩ hne (s := s) v _ (fun r hr => h r hr)
  simp only at hm1 hp1
  have hmax := foldl_imax_ge ((ms.map v).map (·.num)) 0
  have hmem := foldl_imax_mem ((ms.map v).map (·.num)) 0
  generalize hroot : ((ms.map v).map (·.num)).foldl max 0 = root at hmax hmem
  by_cases hz : root = 0
  · refine ⟨s1, hm1, hn1, hc1, Or.inl ⟨?_, ?_⟩⟩
    · intro r hr
      have := hmax.2 (v r).num (List.mem_map.mpr ⟨v r, List.mem_map.mpr ⟨r, hr, rfl⟩, rfl⟩)
      simp only [v] at this
      by_cases hrt : rt r = 0
      · exact hrt
      · rw [if_pos hrt] at this; omega
    · intro r hr
      rw [hp1 r hr]
      show Prog.bind (ite (List.foldl max 0 ((ms.map v).map (·.num)) = 0) _ _) (K r) = _
      rw [hroot, if_pos hz]
      rfl
  · obtain ⟨r0, hr0, hv0⟩ : ∃ r0 ∈ ms, (v r0).num = root := by
      rcases hmem with e | hmem
      · exact absurd e hz
      · obtain ⟨m, hm, e⟩ := List.mem_map.mp hmem
        obtain ⟨r0, hr0, e'⟩ := List.mem_map.mp hm
        exact ⟨r0, hr0, by rw [e', e]⟩
    have hrt0 : rt r0 ≠ 0 := by
      intro e
      simp only [v, e, ne_eq, not_true_eq_false, if_false] at hv0
      exact hz hv0.symm
    have hroot' : (root - 1).toNat = ms.idxOf r0 := by
      simp only [v, if_pos hrt0] at hv0
      omega
    obtain ⟨t, ht⟩ := hmsg r0 hr0 hrt0
    have hidx : ∀ r ∈ ms, (ms.idxOf r = ms.idxOf r0 ↔ r = r0) := by
      intro r hr
      constructor
      · intro e
        have h1 := List.idxOf_lt_length_of_mem hr
        have h2 := List.idxOf_lt_length_of_mem hr0
        have := List.getElem_idxOf h1
        rw [← this, ← List.getElem_idxOf h2]
        congr 1
      · rintro rfl; rfl
    let tx : Nat → CStr := fun r => if ms.idxOf r = ms.idxOf r0 then t else []
    have htx : ∀ r ∈ ms, (if ms.idxOf r = ms.idxOf r0 then err r else some []) = some (tx r) := by
      intro r hr
      simp only [tx]
      by_cases e : ms.idxOf r = ms.idxOf r0
      · rw [if_pos e, if_pos e, (hidx r hr).mp e]; exact ht
      · rw [if_neg e, if_neg e]
    have hget : ∀ g : Nat → Msg, (ms.map g).getD (ms.idxOf r0) {} = g r0 := by
      intro g
      have h2 := List.idxOf_lt_length_of_mem hr0
      rw [List.getD_eq_getElem?_getD, List.getElem?_map, List.getElem?_eq_getElem h2, List.getElem_idxOf h2]
      rfl
    -- the three broadcasts
    obtain ⟨s2, hm2, hn2, hc2, hp2⟩ := coll_run F hE ⟨.bcast, c, ms⟩ hne (s := s1)
      (fun r => { num := (tx r).length })
      (fun r _ => (Prog.call ⟨.bcast, c, ms⟩ { bytes := tx r }).bind fun l =>
        (Prog.call ⟨.bcast, c, ms⟩ { num := rt r }).bind fun l' =>
          K r ((l'.getD (ms.idxOf r0) {}).num,
            if ms.idxOf r = ms.idxOf r0 then err r else some (l.getD (ms.idxOf r0) {}).bytes))
      (fun r hr => ⟨(h r hr).1, by
        rw [hp1 r hr]
        show Prog.bind (ite (List.foldl max 0 ((ms.map v).map (·.num)) = 0) _ _) (K r) = _
        simp only [hroot]
        rw [if_neg hz, hroot']
        show Prog.bind (Prog.bind (Prog.lift _) _) _ = _
        rw [htx r hr]
        rfl⟩)
    obtain ⟨s3, hm3, hn3, hc3, hp3⟩ := coll_run F hE ⟨.bcast, c, ms⟩ hne (s := s2)
      (fun r => { bytes := tx r }) _ (fun r hr => ⟨(h r hr).1, hp2 r hr⟩)
    obtain ⟨s4, hm4, hn4, hc4, hp4⟩ := coll_run F hE ⟨.bcast, c, ms⟩ hne (s := s3)
      (fun r => { num := rt r }) _ (fun r hr => ⟨(h r hr).1, hp3 r hr⟩)
    refine ⟨s4, ((hm1.trans hm2).trans hm3).trans hm4, by rw [hn4, hn3, hn2, hn1],
      fun r => by rw [hc4, hc3, hc2, hc1], Or.inr ⟨r0, hr0, hrt0, ?_⟩⟩
    intro r hr
    rw [hp4 r hr]
    show K r (((ms.map fun r => ({ num := rt r } : Msg)).getD (ms.idxOf r0) {}).num,
      if ms.idxOf r = ms.idxOf r0 then err r
      else some ((ms.map fun r => ({ bytes := tx r } : Msg)).getD (ms.idxOf r0) {}).bytes) = _
    rw [hget, hget]
    congr 2
    by_cases e : ms.idxOf r = ms.idxOf r0
    · rw [if_pos e, (hidx r hr).mp e]
    · rw [if_neg e, ht]
      simp only [tx, if_true]

end Verif
