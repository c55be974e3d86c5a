import Verif.Proof.CopyMay
import Verif.Proof.Sample
/-!
# Sampling while file operations fail
-/

set_option autoImplicit false

namespace Verif

open Spec

variable {env : Env} {K : Kind} {A : Content} {w : World} {bb : Block} {S : Durable}

/-- A piece of work is: read, select, then write the selected rows. -/
theorem sampleDo_step (draw : Nat → Nat → Nat → Nat) (wk : Work) (buf abuf : Int) (bn : Block) (mem : Mem) (sw : Nat) :
    sampleDo env bb draw wk buf abuf bn mem = (do
      let anew ← M.lift (arrayInit env.m buf bb.dtype [wk.nsel, u64 bb.nmemb] none)
      let r ← readSimple env bb wk.offset wk.chunksize none abuf mem
      match r.2.1 with
      | none => pure (.failed, bn, r.2.2)
      | some a =>
        let s := sampleSelect (draw wk.seed) (u64 (itemsize env.m bb.dtype * bb.nmemb)) wk.chunksize 0 wk.chunksize wk.nsel buf a.data r.2.2
        if s.1 ≠ 0 then pure (.aborted, bn, s.2)
        else do
          let x ← runBOp env bn (.write wk.offsetnew anew s.2 sw)
          pure (if x.1.rc ≠ 0 then .failed else .done, x.2, x.1.mem)) := by
  unfold sampleDo
  refine bind_congr fun anew => ?_
  refine bind_congr fun r => ?_
  obtain ⟨rc, arr, mem1⟩ := r
  cases arr with
  | none => rfl
  | some a =>
    dsimp only
    generalize sampleSelect (draw wk.seed) (u64 (itemsize env.m bb.dtype * bb.nmemb)) wk.chunksize 0 wk.chunksize wk.nsel buf a.data mem1 = s
    obtain ⟨left, mem2⟩ := s
    dsimp only
    by_cases hl : left ≠ 0
    · rw [if_pos hl, if_pos hl]
    rw [if_neg hl, if_neg hl]
    funext w
    unfold runBOp
    simp only [bind, M.bind]
    cases hq : seek bn ⟨0, 0, 0⟩ (wk.offsetnew : Int) with
    | none => rfl
    | some q =>
      obtain ⟨rc, ptr⟩ := q
      simp only [M.lift, M.pure]
      by_cases hrc : rc ≠ 0
      · simp only [if_pos hrc, pure, M.pure]
      · simp only [if_neg hrc, M.bind]
        cases blockWrite env bn ptr anew mem2 w with
        | ok x w1 => rfl
        | crash w1 => rfl
        | ub => rfl
        | hang => rfl

theorem sampleDo_may {bn : Block} (hs : Holds env K bb w.fs A) (hd : HoldsD env K bn w.fs S)
    (hfull : A.full) (draw : Nat → Nat → Nat → Nat) (hdr : ∀ seed, FairDraw (draw seed)) (wk : Work)
    (h1 : wk.offset + wk.chunksize ≤ A.size) (h2 : wk.nsel ≤ wk.chunksize) (h3 : wk.offsetnew + wk.nsel ≤ S.now.size)
    (buf abuf : Int) (mem : Mem)
    (hdis : buf + ((wk.nsel * (K.nm * K.w) : Nat) : Int) ≤ abuf ∨ abuf + ((wk.chunksize * (K.nm * K.w) : Nat) : Int) ≤ buf) :
    wpc (sampleDo env bb draw wk buf abuf bn mem) w
      (fun r w' => w'.faults = w.faults ∧ SameOutside bn.basename w.fs w'.fs ∧ (r.1 = .done ∨ r.1 = .failed) ∧
        r.2.1.basename = bn.basename ∧ (r.1 = .done → HoldsD env K r.2.1 w'.fs { S with now := A.worked draw S.now wk }))
      (fun w' => SameOutside bn.basename w.fs w'.fs) := by
  have hbs := hs.size
  have hnm := hs.ok.memb0
  have hszA : A.size < 9223372036854775808 := by
    have h4 := hs.ok.layout.small
    have h5 := hs.ok.layout.size
    omega
  have hszB : S.now.size < 9223372036854775808 := by
    have h4 := hd.ok.layout.small
    have h5 := hd.ok.layout.size
    have h6 := hd.size
    omega
  have hbytesC : wk.chunksize * K.nm * K.w < 9223372036854775808 := by
    have q1 := hs.ok.offs
    have q2 := hs.ok.layout.size
    have q3 : wk.chunksize * (K.w * K.nm) ≤ bb.fsize.sum * (K.w * K.nm) := Nat.mul_le_mul_right _ (by omega)
    rw [Nat.mul_assoc, Nat.mul_comm K.nm]
    omega
  have hbytesN : wk.nsel * K.nm * K.w < 9223372036854775808 := by
    have q3 : wk.nsel * K.nm * K.w ≤ wk.chunksize * K.nm * K.w := Nat.mul_le_mul_right _ (Nat.mul_le_mul_right _ h2)
    omega
  have hsize : min wk.chunksize (bb.size - wk.offset) = wk.chunksize := by omega
  have einit := hs.ok.freshInit bb.dtype wk.nsel K.w buf hs.ok.item hs.ok.item0 hbytesN
  have hstep : u64 (itemsize env.m bb.dtype * bb.nmemb) = K.nm * K.w := by
    have := hs.ok.felInt
    rw [hs.ok.item, hs.ok.memb, ← Int.natCast_mul, u64_of_nat (by omega), Nat.mul_comm]
  have hcount : (picksOf draw wk).length = wk.nsel := samplePicks_count _ (hdr _) _ _ _ h2
  obtain ⟨p1, _, _⟩ := samplePicks_range (draw wk.seed) wk.chunksize 0 wk.chunksize wk.nsel
  rw [sampleDo_step (sw := K.w), einit, M.lift_some_bind, hstep, wpc_bind]
  refine wpc_mono (C58_read_simple_partial env bb K.w K.nm K.w none wk.offset wk.chunksize abuf mem w
    (elemOfRows env.m w.fs bb wk.offset K.w K.nm) hs.ok hs.ok.item hs.ok.item0 (by omega) (by omega) (by rw [hsize]; exact hbytesC)
    (fun _ => convertible_same _ _ _) (fun e _ _ => convElem_same _ _ _ _)) ?_ (fun w1 h1 => by rw [h1.1]; exact SameOutside.refl _ _)
  rintro ⟨rc, arr, mem1⟩ w1 r1
  rw [hsize] at r1
  by_cases hrc : rc = 0
  · obtain ⟨ha, _, hm⟩ := r1.done hrc
    simp only at ha
    subst ha
    dsimp only
    rw [show (freshArr env.m (Option.getD none bb.dtype) wk.chunksize K.nm K.w abuf).data = abuf from rfl]
    obtain ⟨s1, _, s3⟩ := sampleSelect_spec (draw wk.seed) (K.nm * K.w) buf abuf wk.nsel wk.chunksize hdis wk.chunksize 0 wk.chunksize
      wk.nsel buf mem1 (by omega) (by omega) (by omega)
    rw [Nat.zero_mul, Int.natCast_zero, Int.add_zero] at s1 s3
    change (sampleSelect _ _ _ _ _ _ _ _ _).1 = wk.nsel - (picksOf draw wk).length at s1
    rw [hcount, Nat.sub_self] at s1
    generalize hmem2 : sampleSelect (draw wk.seed) (K.nm * K.w) wk.chunksize 0 wk.chunksize wk.nsel buf abuf mem1 = sel at s1 s3
    obtain ⟨left, mem2⟩ := sel
    simp only at s1 s3
    subst s1
    have s3 : ∀ j (hj : j < (picksOf draw wk).length), peek mem2 (buf + ((j * (K.nm * K.w) : Nat) : Int)) (K.nm * K.w) =
        peek mem1 (abuf + (((picksOf draw wk)[j] * (K.nm * K.w) : Nat) : Int)) (K.nm * K.w) := s3
    dsimp only
    rw [if_neg (fun h => h rfl)]
    have hrow : ∀ i (hi : i < wk.nsel), ∀ bytes, A.rows (wk.offset + (picksOf draw wk).getD i 0) = some bytes →
        arrayRow env K (freshArr env.m bb.dtype wk.nsel K.nm K.w buf) mem2 K.w i = bytes := by
      intro i hi bytes hb
      have hi' : i < (picksOf draw wk).length := by rw [hcount]; exact hi
      have hg : (picksOf draw wk).getD i 0 = (picksOf draw wk)[i] := by
        rw [List.getD_eq_getElem?_getD, List.getElem?_eq_getElem hi', Option.getD_some]
      rw [hg] at hb
      have hlt : 0 ≤ (picksOf draw wk)[i] ∧ (picksOf draw wk)[i] < 0 + wk.chunksize := p1 _ (List.getElem_mem hi')
      rw [arrayRow_fresh bb.dtype hs.kind wk.nsel buf mem2 i hi, s3 i hi',
        ← arrayRow_fresh bb.dtype hs.kind wk.chunksize abuf mem1 ((picksOf draw wk)[i]) (by omega)]
      exact chunk_row hs wk.offset wk.chunksize abuf mem1 hm ((picksOf draw wk)[i]) (by omega) bytes hb
    have hd1 := hd
    rw [← r1.fs] at hd1
    by_cases hn0 : wk.nsel = 0
    · obtain ⟨q, hq, _⟩ := (seek_row hd.ok.layout wk.offsetnew (by omega)).1 (by rw [hd.size]; omega)
      have e2 : blockWrite env bn q (freshArr env.m bb.dtype wk.nsel K.nm K.w buf) mem2 = pure ⟨0, bn, q, mem2⟩ := by
        unfold blockWrite blockWriteFuel
        rw [if_pos (by show wk.nsel * K.nm = 0; rw [hn0, Nat.zero_mul])]
      unfold runBOp
      dsimp only
      rw [hq, M.lift_some_bind]
      simp only [ne_eq, not_true_eq_false, if_false]
      rw [e2, wpc_bind, wpc_bind, wpc_pure, wpc_pure, wpc_pure]
      refine ⟨r1.faults, by rw [r1.fs]; exact SameOutside.refl _ _, Or.inl (by simp), rfl, fun _ => ?_⟩
      have : A.worked draw S.now wk = S.now := by
        unfold Content.worked
        cases S.now
        simp only [Content.mk.injEq, true_and, and_true]
        funext r
        rw [if_neg (by omega)]
      rw [this]
      exact hd1
    · have hrows : (freshArr env.m bb.dtype wk.nsel K.nm K.w buf).size / K.nm = wk.nsel := freshArr_rows _ _ _ _ _ _ hnm
      have hx := hs.ok.fresh bb.dtype wk.nsel K.w buf (by omega) hs.ok.item hs.ok.item0 hbytesN
      have hao : ArrayOk env (freshArr env.m bb.dtype wk.nsel K.nm K.w buf) K.w := ⟨hx.arr, hx.asize, hx.anorm, hx.aitem, hx.aitem0, hx.abytes⟩
      have hconv : ∀ e, (toBlock env K (freshArr env.m bb.dtype wk.nsel K.nm K.w buf) mem2 K.w e).isSome = true := by
        intro e
        unfold toBlock
        show (convElem env.m env.fo K.dtype (dtypeNormalize env.m bb.dtype) _).isSome = true
        rw [hs.kind, convElem_same]
        rfl
      have htouch : Touches bn.basename (runBOp env bn (.write wk.offsetnew (freshArr env.m bb.dtype wk.nsel K.nm K.w buf) mem2 K.w)) := by
        unfold runBOp
        refine Touches.bind (Touches.lift _) fun q => ?_
        obtain ⟨rc, ptr⟩ := q
        dsimp only
        split
        · exact Touches.pure _
        · exact Touches.bind (blockWrite_touches env _ bn ptr _ mem2) fun x => Touches.pure _
      rw [wpc_bind]
      refine wpc_mono (wpc_wlp (write_may hd1 wk.offsetnew (freshArr env.m bb.dtype wk.nsel K.nm K.w buf) mem2 K.w
        ⟨by omega, hao, fun _ => freshArr_disjoint _ _ _ _ _ _, fun _ e _ => hconv e⟩) (htouch w1)) ?_ ?_
      · rintro ⟨x, bn'⟩ w2 ⟨⟨t1, t2, S', t3, t4⟩, ho⟩
        rw [r1.fs] at ho
        have hin : wk.offsetnew + (freshArr env.m bb.dtype wk.nsel K.nm K.w buf).size / K.nm ≤ S.now.size := by rw [hrows]; exact h3
        dsimp only at t1 t3 t4 ⊢
        rw [wpc_pure]
        have hf2 : w2.faults = w.faults := t2.trans r1.faults
        by_cases hrc2 : x.rc ≠ 0
        · rw [if_pos hrc2]
          exact ⟨hf2, ho, Or.inr rfl, t1, by intro h; cases h⟩
        · rw [if_neg hrc2]
          refine ⟨hf2, ho, Or.inl rfl, t1, fun _ => ?_⟩
          have hS' : S' = { S with now := A.worked draw S.now wk } := by
            cases t3 with
            | write _ _ _ _ _ h1 => rw [h1] at hrc2; exact absurd (by decide) hrc2
            | done _ _ _ =>
              simp only [Durable.next, Content.next]
              rw [if_pos hin, hrows]
              unfold Content.worked
              congr 2
              funext r
              by_cases hr : wk.offsetnew ≤ r ∧ r < wk.offsetnew + wk.nsel
              · rw [if_pos hr, if_pos hr]
                have hi' : r - wk.offsetnew < (picksOf draw wk).length := by rw [hcount]; omega
                have hg : (picksOf draw wk).getD (r - wk.offsetnew) 0 = (picksOf draw wk)[r - wk.offsetnew] := by
                  rw [List.getD_eq_getElem?_getD, List.getElem?_eq_getElem hi', Option.getD_some]
                have hlt := p1 _ (List.getElem_mem hi')
                obtain ⟨bytes, hb⟩ := Option.isSome_iff_exists.mp (hfull (wk.offset + (picksOf draw wk).getD (r - wk.offsetnew) 0) (by
                  rw [hg]; omega))
                rw [hb, hrow (r - wk.offsetnew) (by omega) bytes hb]
              · rw [if_neg hr, if_neg hr]
          rw [hS'] at t4
          exact t4
      · rintro w2 ⟨_, ho⟩
        rw [r1.fs] at ho
        exact ho
  · obtain ⟨_, ha⟩ := r1.failed hrc
    simp only at ha
    subst ha
    exact ⟨r1.faults, by rw [r1.fs]; exact SameOutside.refl _ _, Or.inr rfl, rfl, by intro h; cases h⟩

/-- All pieces of work, in any order. -/
theorem sampleRun_may {dst : CStr} (hap : Apart bb.basename dst) (hfull : A.full) (draw : Nat → Nat → Nat → Nat)
    (hdr : ∀ seed, FairDraw (draw seed)) (buf abuf : Int) :
    ∀ (ws : List Work) (bn : Block) (S : Durable) (mem : Mem) (w : World), Holds env K bb w.fs A → HoldsD env K bn w.fs S →
    bn.basename = dst →
    (∀ wk ∈ ws, wk.offset + wk.chunksize ≤ A.size ∧ wk.nsel ≤ wk.chunksize ∧ wk.offsetnew + wk.nsel ≤ S.now.size ∧
      (buf + ((wk.nsel * (K.nm * K.w) : Nat) : Int) ≤ abuf ∨ abuf + ((wk.chunksize * (K.nm * K.w) : Nat) : Int) ≤ buf)) →
    wpc (sampleRun env bb draw buf abuf ws bn mem) w
      (fun r w' => w'.faults = w.faults ∧ SameOutside dst w.fs w'.fs ∧ (r.1 = .done ∨ r.1 = .failed) ∧
        r.2.1.basename = dst ∧ (r.1 = .done → HoldsD env K r.2.1 w'.fs { S with now := ws.foldl (A.worked draw) S.now }))
      (fun w' => SameOutside dst w.fs w'.fs) := by
  intro ws
  induction ws with
  | nil =>
    intro bn S mem w hs hd hb _
    unfold sampleRun
    rw [wpc_pure]
    exact ⟨rfl, SameOutside.refl _ _, Or.inl rfl, hb, fun _ => hd⟩
  | cons wk ws ih =>
    intro bn S mem w hs hd hb h
    obtain ⟨h1, h2, h3, h4⟩ := h wk (by simp)
    unfold sampleRun
    rw [wpc_bind]
    refine wpc_mono (sampleDo_may hs hd hfull draw hdr wk h1 h2 h3 buf abuf mem h4) ?_ (fun w1 o => by rw [← hb]; exact o)
    rintro ⟨e, b1, m1⟩ w1 ⟨f1, o1, c1, b1', d1⟩
    dsimp only at c1 b1' d1 ⊢
    rw [hb] at o1 b1'
    by_cases he : e ≠ .done
    · rw [if_pos he, wpc_pure]
      exact ⟨f1, o1, c1, b1', fun h => absurd h he⟩
    · rw [if_neg he]
      rw [ne_eq, Decidable.not_not] at he
      refine wpc_mono (ih b1 _ m1 w1 (hs.outside hap o1) (d1 he) b1' (fun w' hw' => h w' (by simp [hw']))) ?_ ?_
      · rintro r w2 ⟨f2, o2, c2⟩
        exact ⟨f2.trans f1, o1.trans o2, c2⟩
      · exact fun w2 o2 => o1.trans o2

end Verif
