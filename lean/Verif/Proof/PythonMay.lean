import Verif.Proof.CopyMay
import Verif.Props.Python
/-!
# Python functions while file operations fail
-/

set_option autoImplicit false

namespace Verif

open Spec

variable {env : Env} {K : Kind} {A : Content} {w : World} {bb : Block} {S : Durable}

/-! ## What was written is marked -/

theorem writeLoop_dirty (felsize : Int) (CHUNK_SIZE : Nat) (chunkArr : Arr) : ∀ (fuel : Nat) (bb : Block) (ptr : Ptr) (it : Iter)
    (towrite : Int) (mem : Mem) (w : World), bb.dirty = true →
    wlp (writeLoop env felsize CHUNK_SIZE chunkArr fuel bb ptr it towrite mem) w (fun x _ => x.bb.dirty = true) (fun _ => True) := by
  intro fuel
  induction fuel with
  | zero => intros; trivial
  | succ fuel ih =>
    intro bb ptr it towrite mem w h
    unfold writeLoop
    rw [wlp_bind]
    refine wlp_lift _ _ _ _ fun e => ?_
    split
    · exact h
    · rw [wlp_bind]
      refine wlp_lift _ _ _ _ fun chunk => ?_
      rw [wlp_bind]
      refine wlp_lift _ _ _ _ fun r => ?_
      split
      · exact h
      · rw [wlp_bind]
        refine wlp_lift _ _ _ _ fun old => ?_
        dsimp only
        rw [wlp_bind]
        have htriv : ∀ {α : Type} (m : M α) (w : World), wlp m w (fun _ _ => True) (fun _ => True) := by
          intro α m w
          unfold wlp
          cases m w <;> trivial
        refine wlp_mono (htriv _ _) ?_ (fun _ h => h)
        intro ok w1 _
        split
        · exact h
        · rw [wlp_bind]
          refine wlp_lift _ _ _ _ fun q => ?_
          obtain ⟨rc, ptr⟩ := q
          dsimp only
          split
          · exact h
          · exact ih _ _ _ _ _ _ h

theorem write_dirty (p : Nat) (a : Arr) (mem : Mem) (sw : Nat) (w : World) (ha : a.size ≠ 0) :
    wlp (runBOp env bb (.write p a mem sw)) w (fun r _ => r.1.rc = 0 → r.2.dirty = true) (fun _ => True) := by
  unfold runBOp
  dsimp only
  rw [wlp_bind]
  refine wlp_lift _ _ _ _ fun q => ?_
  obtain ⟨rc, ptr⟩ := q
  dsimp only
  split
  · rename_i h
    exact fun h0 => absurd h0 h
  · rw [wlp_bind]
    have key : wlp (blockWrite env bb ptr a mem) w (fun x _ => x.bb.dirty = true) (fun _ => True) := by
      unfold blockWrite blockWriteFuel
      rw [if_neg ha]
      dsimp only
      rw [wlp_bind]
      refine wlp_lift _ _ _ _ fun es => ?_
      obtain ⟨n1, n2, n3⟩ := es
      dsimp only
      rw [wlp_bind]
      refine wlp_lift _ _ _ _ fun ca => ?_
      rw [wlp_bind]
      refine wlp_lift _ _ _ _ fun fo => ?_
      split
      · rfl
      · exact writeLoop_dirty _ _ _ _ _ _ _ _ _ _ rfl
    refine wlp_mono key ?_ (fun _ h => h)
    intro x w1 h
    exact fun _ => h

theorem write_touches (p : Nat) (a : Arr) (mem : Mem) (sw : Nat) : Touches bb.basename (runBOp env bb (.write p a mem sw)) := by
  unfold runBOp
  refine Touches.bind (Touches.lift _) fun q => ?_
  obtain ⟨rc, ptr⟩ := q
  dsimp only
  split
  · exact Touches.pure _
  · exact Touches.bind (blockWrite_touches env _ bb ptr _ mem) fun x => Touches.pure _

/-- `pyWrite` is a write by row. -/
theorem pyWrite_eq (p : Nat) (a : Arr) (mem : Mem) (sw : Nat) :
    pyWrite env bb p a mem = (do
      let x ← runBOp env bb (.write p a mem sw)
      pure (if x.1.rc ≠ 0 then .error .error else .ok (), x.2, x.1.mem)) := by
  funext w
  unfold pyWrite runBOp
  simp only [bind, M.bind]
  cases hq : seek bb ⟨0, 0, 0⟩ (p : Int) with
  | none => rfl
  | some q =>
    obtain ⟨rc, ptr⟩ := q
    simp only [M.lift, M.pure]
    by_cases hrc : rc ≠ 0
    · simp only [if_pos hrc, pure, M.pure]
    · simp only [if_neg hrc, M.bind]
      cases blockWrite env bb ptr a mem w with
      | ok x w1 =>
        simp only [pure, M.pure]
        by_cases h : x.rc ≠ 0
        · simp only [if_pos h, M.pure]
        · simp only [if_neg h, M.pure]
      | crash w1 => rfl
      | ub => rfl
      | hang => rfl

/-- Writing through Python. -/
theorem pyWrite_may (h : HoldsD env K bb w.fs S) (p : Nat) (a : Arr) (mem : Mem) (sw : Nat)
    (hl : S.now.legal env K (.write p a mem sw)) (hin : p + a.size / K.nm ≤ S.now.size) (ha0 : a.size ≠ 0) :
    wpc (pyWrite env bb p a mem) w
      (fun r w' => w'.faults = w.faults ∧ SameOutside bb.basename w.fs w'.fs ∧ r.2.1.basename = bb.basename ∧
        (r.1 = .ok () ∧ r.2.1.dirty = true ∧ HoldsD env K r.2.1 w'.fs (S.next env K (.write p a mem sw)) ∨
          r.1 = .error .error ∧ HoldsD env K r.2.1 w'.fs { S with now := S.now.forget p (a.size / K.nm) }))
      (fun w' => SameOutside bb.basename w.fs w'.fs ∧ KilledMay env K bb S (.write p a mem sw) w') := by
  rw [pyWrite_eq p a mem sw, wpc_bind]
  refine wpc_mono (wpc_wlp (wpc_wlp (write_may h p a mem sw hl) (write_touches p a mem sw w)) (write_dirty p a mem sw w ha0)) ?_
    (fun w1 h1 => ⟨h1.1.2, h1.1.1⟩)
  rintro ⟨x, b1⟩ w1 ⟨⟨⟨s1, s2, S', s3, s4⟩, ho⟩, hd⟩
  rw [wpc_pure]
  refine ⟨s2, ho, s1, ?_⟩
  dsimp only at hd s3 s4 ⊢
  cases s3 with
  | write _ _ _ _ _ h1 =>
    right
    exact ⟨by rw [if_pos (by rw [h1]; decide)], s4⟩
  | done _ _ hans =>
    left
    have : x.rc = 0 := by
      simp only [Content.answers] at hans
      rw [if_pos hin] at hans
      exact hans.1
    exact ⟨by rw [if_neg (by simp [this])], hd this, s4⟩

/-! ## The loop of `create_from_array` -/

theorem pyWriteChunks_may {src : PySource} (hs : SourceOk env K src) (L : Nat) (hL : 0 < L) (buf : Int) (A : Content)
    (hA : A.size = src.size) (st : Option (Nat × Nat)) (base : CStr) (m : Nat) (hm : m = (src.size + L - 1) / L) :
    ∀ (k j : Nat) (bb : Block) (mem : Mem) (w : World), j + k = m →
      HoldsD env K bb w.fs ⟨A.upTo src (min (j * L) src.size), st, true, true⟩ → bb.basename = base →
      wpc (pyWriteChunks env src L buf ((List.range' j k).map (· * L)) bb mem) w
        (fun r w' => w'.faults = w.faults ∧ SameOutside base w.fs w'.fs ∧ r.2.1.basename = base ∧
          (r.1 = .ok () ∧ (k = 0 ∧ r.2.1 = bb ∧ w'.fs = w.fs ∨ r.2.1.dirty = true) ∧
              HoldsD env K r.2.1 w'.fs ⟨A.upTo src src.size, st, true, true⟩ ∨
            (∃ e, r.1 = .error e) ∧ ∃ B, HoldsD env K r.2.1 w'.fs ⟨B, st, true, true⟩))
        (fun w' => SameOutside base w.fs w'.fs) := by
  intro k
  induction k with
  | zero =>
    intro j bb mem w hj h hb
    have : min (j * L) src.size = src.size := by
      apply Nat.min_eq_right
      rw [show j = (src.size + L - 1) / L by omega]
      have h1 := Nat.div_add_mod (src.size + L - 1) L
      have h2 := Nat.mod_lt (src.size + L - 1) hL
      rw [Nat.mul_comm] at h1
      omega
    rw [this] at h
    exact ⟨rfl, SameOutside.refl _ _, hb, Or.inl ⟨rfl, Or.inl ⟨rfl, rfl, rfl⟩, h⟩⟩
  | succ k ih =>
    intro j bb mem w hj h hb
    have hjL : j * L < src.size := by
      have h1 : j + 1 ≤ (src.size + L - 1) / L := by omega
      have h2 := (Nat.le_div_iff_mul_le hL).mp h1
      rw [Nat.add_mul, Nat.one_mul] at h2
      omega
    have hL' := h.ok.layout
    have hsz : bb.size = src.size := by rw [h.size]; exact hA
    have hnm := h.ok.memb0
    rw [Nat.min_eq_left (by omega)] at h
    generalize hn : min L (src.size - j * L) = n
    have hn0 : 0 < n := by omega
    have hbytes : n * K.nm * K.w < 9223372036854775808 := by
      have h1 := h.ok.offs
      rw [← hL'.size, hsz] at h1
      have h2 : n * (K.w * K.nm) ≤ src.size * (K.w * K.nm) := Nat.mul_le_mul_right _ (by omega)
      rw [Nat.mul_assoc, Nat.mul_comm K.nm K.w]
      omega
    have hsm : src.size < 9223372036854775808 := by
      have := hL'.small
      rw [← hL'.size] at this
      omega
    obtain ⟨a, ea, ha⟩ := pyArr_ok (env := env) (dt := src.dtype) (n := n) (buf := buf) hs.inner hs.item h.ok.item0 hnm hbytes
    have hrw : a.size / K.nm = n := by rw [ha.size, Nat.mul_div_cancel _ hnm]
    have ha0 : a.size ≠ 0 := by
      rw [ha.size]
      exact Nat.ne_of_gt (Nat.mul_pos hn0 hnm)
    have hrow := piece_row ha hs.dtype mem (fun i => src.row (j * L + i)) (fun i hi => hs.rows _ (by omega))
    have hA' : (A.upTo src (j * L)).size = src.size := hA
    have hnext : (A.upTo src (j * L)).next env K (.write (j * L) a (poke mem buf (flatN (fun i => src.row (j * L + i)) n)) K.w) =
        A.upTo src (min ((j + 1) * L) src.size) := by
      simp only [Content.next]
      rw [if_pos (by rw [hrw, hA']; omega), hrw]
      unfold Content.upTo
      dsimp only
      congr 1
      funext r
      have hend : min ((j + 1) * L) src.size = j * L + n := by
        rw [Nat.add_mul, Nat.one_mul]
        omega
      rw [hend]
      by_cases h1 : j * L ≤ r ∧ r < j * L + n
      · rw [if_pos h1, if_pos h1.2, hrow (r - j * L) (by omega)]
        congr 2
        omega
      · rw [if_neg h1]
        by_cases h2 : r < j * L
        · rw [if_pos h2, if_pos (by omega)]
        · rw [if_neg h2, if_neg (by omega)]
    rw [List.range'_succ, List.map_cons]
    unfold pyWriteChunks
    dsimp only
    rw [hn, ea, flatMap_range, M.lift_some_bind, wpc_bind]
    refine wpc_mono (pyWrite_may h (j * L) a (poke mem buf (flatN (fun i => src.row (j * L + i)) n)) K.w
      ⟨by omega, ha.ok hn0, fun _ => ha.disjoint, fun _ e _ => by
        unfold toBlock
        rw [ha.dtype, hs.dtype, convElem_same]
        rfl⟩ (by rw [hrw]; show _ ≤ (A.upTo src (j * L)).size; rw [hA']; omega) ha0) ?_ (fun w1 h1 => by rw [← hb]; exact h1.1)
    rintro ⟨r, b1, m1⟩ w1 ⟨f1, o1, hb1, hr⟩
    dsimp only at hb1 hr
    rw [hb] at o1
    rcases hr with ⟨rfl, hd, h1⟩ | ⟨rfl, h1⟩
    · dsimp only
      have h1 : HoldsD env K b1 w1.fs ⟨A.upTo src (min ((j + 1) * L) src.size), st, true, true⟩ := by
        rw [← hnext]
        exact h1
      refine wpc_mono (ih (j + 1) b1 m1 w1 (by omega) h1 (hb1.trans hb)) ?_ (fun w2 o2 => o1.trans o2)
      rintro ⟨r2, b2, m2⟩ w2 ⟨f2, o2, hb2, hr2⟩
      refine ⟨f2.trans f1, o1.trans o2, hb2, ?_⟩
      rcases hr2 with ⟨q1, q2, q3⟩ | q
      · refine Or.inl ⟨q1, Or.inr ?_, q3⟩
        rcases q2 with ⟨_, q2, _⟩ | q2
        · simp only at q2 ⊢
          rw [q2]
          exact hd
        · exact q2
      · exact Or.inr q
    · exact ⟨f1, o1, hb1.trans hb, Or.inr ⟨⟨_, rfl⟩, _, h1⟩⟩

/-! ## The new header -/

theorem createBlock_header {bf name dt : CStr} {nmemb : Int} {fsize : List Nat} {b : Block} {w' : World}
    (hlen : (pathJoin bf name).length ≤ 8192) (hmeta : isMeta (pathJoin bf name) = false) (hns : NoSilent w.faults)
    (e : createBlock env bf name (some dt) nmemb fsize w = .ok (0, some b) w') :
    w'.fs.node (fileKey (pathJoin bf name) .header) = some (.file (headerText b)) := by
  have key : wpc (createBlock env bf name (some dt) nmemb fsize) w
      (fun r w' => r = (-1, none) ∨ ∃ b, r = (0, some b) ∧ w'.fs.node (fileKey (pathJoin bf name) .header) = some (.file (headerText b)))
      (fun _ => True) := by
    unfold createBlock
    rw [wpc_bind]
    refine wpc_mono (wpc_mksubdirR_depth bf name w) ?_ (fun _ _ => trivial)
    rintro rc w1 ⟨f1, _⟩
    split
    · exact Or.inl rfl
    · refine wpc_mono (wpc_blockCreate (env := env) (dt := dt) (nmemb := nmemb) (fsize := fsize) (w := w1) hlen hmeta) ?_ (fun _ _ => trivial)
      rintro r w2 ⟨_, _, k3, _⟩
      rcases k3 with k | ⟨k, _, k4⟩
      · exact Or.inl k
      · refine Or.inr ⟨_, k, ?_⟩
        rw [k4 (by rw [f1]; exact hns)]
        unfold createFS
        rw [truncFS_other]
        · unfold flushFS
          dsimp only
          have hb : (newBlock env (pathJoin bf name) dt nmemb fsize).basename = pathJoin bf name := rfl
          have hd : (newBlock env (pathJoin bf name) dt nmemb fsize).dirty = true := rfl
          rw [hb, hd, if_pos rfl]
          split
          · rw [FS.set_other _ _ _ _ (fileKey_ne (by simp)), FS.set_node]
            rfl
          · rw [FS.set_node]
            rfl
        · intro f _ _
          exact fileKey_ne (by simp)
  obtain h | ⟨b', h, h'⟩ := wpc_ok key e
  · cases h
  · cases h
    exact h'

end Verif
