import Verif.Spec.Sample
import Verif.Proof.Copy
/-!
# Sampling
-/

set_option autoImplicit false

namespace Verif

open Spec

/-- The rows that the loop selects. -/
def samplePicks (draw : Nat → Nat → Nat) : Nat → Nat → Nat → Nat → List Nat
  | 0, _, _, _ => []
  | k + 1, i, leftover, nsel =>
    if draw i leftover < nsel then
      i :: (if nsel - 1 = 0 then [] else samplePicks draw k (i + 1) (leftover - 1) (nsel - 1))
    else if nsel = 0 then [] else samplePicks draw k (i + 1) (leftover - 1) nsel

theorem samplePicks_range (draw : Nat → Nat → Nat) : ∀ k i leftover nsel,
    (∀ r ∈ samplePicks draw k i leftover nsel, i ≤ r ∧ r < i + k) ∧ (samplePicks draw k i leftover nsel).Pairwise (· < ·) ∧
      (samplePicks draw k i leftover nsel).length ≤ nsel := by
  intro k
  induction k with
  | zero => intro i l n; simp [samplePicks]
  | succ k ih =>
    intro i l n
    unfold samplePicks
    split
    · rename_i hr
      split
      · simp; omega
      · obtain ⟨h1, h2, h3⟩ := ih (i + 1) (l - 1) (n - 1)
        refine ⟨?_, ?_, ?_⟩
        · intro r hr
          rcases List.mem_cons.mp hr with rfl | hr
          · omega
          · have := h1 r hr; omega
        · rw [List.pairwise_cons]
          exact ⟨fun r hr => by have := h1 r hr; omega, h2⟩
        · simp only [List.length_cons]; omega
    · split
      · simp
      · obtain ⟨h1, h2, h3⟩ := ih (i + 1) (l - 1) n
        refine ⟨fun r hr => ?_, h2, h3⟩
        have := h1 r hr
        omega

theorem samplePicks_few (draw : Nat → Nat → Nat) : ∀ k i leftover nsel, (samplePicks draw k i leftover nsel).length ≤ k := by
  intro k
  induction k with
  | zero => intro i l n; simp [samplePicks]
  | succ k ih =>
    intro i l n
    unfold samplePicks
    have h1 := ih (i + 1) (l - 1) (n - 1)
    have h2 := ih (i + 1) (l - 1) n
    split
    · split <;> simp; omega
    · split
      · simp
      · omega

theorem samplePicks_count (draw : Nat → Nat → Nat) (hd : FairDraw draw) : ∀ k i nsel, nsel ≤ k →
    (samplePicks draw k i k nsel).length = nsel := by
  intro k
  induction k with
  | zero => intro i n h; simp [samplePicks]; omega
  | succ k ih =>
    intro i n h
    unfold samplePicks
    have := hd i (k + 1) (by omega)
    split
    · rename_i hr
      split
      · simp; omega
      · simp only [List.length_cons, Nat.add_sub_cancel]
        rw [ih (i + 1) (n - 1) (by omega)]
        omega
    · split
      · simp; omega
      · simp only [Nat.add_sub_cancel]
        exact ih (i + 1) n (by omega)

/-- What the loop does to the memory. -/
theorem sampleSelect_spec (draw : Nat → Nat → Nat) (step : Nat) (p0 q0 : Int) (N C : Nat)
    (hdis : p0 + ((N * step : Nat) : Int) ≤ q0 ∨ q0 + ((C * step : Nat) : Int) ≤ p0) : ∀ k i leftover nsel p mem,
    i + k ≤ C → p0 ≤ p → p + ((nsel * step : Nat) : Int) ≤ p0 + ((N * step : Nat) : Int) →
    (sampleSelect draw step k i leftover nsel p (q0 + ((i * step : Nat) : Int)) mem).1 =
        nsel - (samplePicks draw k i leftover nsel).length ∧
      (∀ x, x < p ∨ p + ((nsel * step : Nat) : Int) ≤ x →
        (sampleSelect draw step k i leftover nsel p (q0 + ((i * step : Nat) : Int)) mem).2 x = mem x) ∧
      ∀ j (hj : j < (samplePicks draw k i leftover nsel).length),
        peek (sampleSelect draw step k i leftover nsel p (q0 + ((i * step : Nat) : Int)) mem).2 (p + ((j * step : Nat) : Int)) step =
          peek mem (q0 + (((samplePicks draw k i leftover nsel)[j] * step : Nat) : Int)) step := by
  intro k
  induction k with
  | zero => intro i l n p mem _ _ _; simp [samplePicks, sampleSelect]
  | succ k ih =>
    intro i l n p mem hk hp hpn
    have hiC : (i + 1) * step ≤ C * step := Nat.mul_le_mul_right _ (by omega)
    have hq : q0 + ((i * step : Nat) : Int) + (step : Int) = q0 + (((i + 1) * step : Nat) : Int) := by
      rw [Nat.add_mul]; omega
    rw [Nat.add_mul, Nat.one_mul] at hiC
    by_cases hr : draw i l < n
    · have hn : n * step = (n - 1) * step + step := by
        rw [← Nat.succ_mul, Nat.succ_eq_add_one, show n - 1 + 1 = n by omega]
      have hlen : (peek mem (q0 + ((i * step : Nat) : Int)) step).length = step := peek_length _ _ _
      by_cases hz : n - 1 = 0
      · have e1 : sampleSelect draw step (k + 1) i l n p (q0 + ((i * step : Nat) : Int)) mem =
            (0, poke mem p (peek mem (q0 + ((i * step : Nat) : Int)) step)) := by
          unfold sampleSelect
          simp only [hr, if_true, hz]
        have e2 : samplePicks draw (k + 1) i l n = [i] := by
          unfold samplePicks
          rw [if_pos hr, if_pos hz]
        rw [e1, e2]
        refine ⟨by simp; omega, ?_, ?_⟩
        · intro x hx
          exact poke_outside _ _ _ _ (by rw [hlen]; omega)
        · intro j hj
          have hj0 : j = 0 := by simp at hj; omega
          subst hj0
          simp only [List.getElem_cons_zero, Nat.zero_mul, Int.natCast_zero, Int.add_zero]
          have := peek_poke_same mem p (peek mem (q0 + ((i * step : Nat) : Int)) step)
          rw [hlen] at this
          exact this
      · have e1 : sampleSelect draw step (k + 1) i l n p (q0 + ((i * step : Nat) : Int)) mem =
            sampleSelect draw step k (i + 1) (l - 1) (n - 1) (p + step) (q0 + (((i + 1) * step : Nat) : Int))
              (poke mem p (peek mem (q0 + ((i * step : Nat) : Int)) step)) := by
          rw [← hq]
          conv => lhs; unfold sampleSelect
          simp only [hr, if_true, hz, if_false]
        have e2 : samplePicks draw (k + 1) i l n = i :: samplePicks draw k (i + 1) (l - 1) (n - 1) := by
          conv => lhs; unfold samplePicks
          rw [if_pos hr, if_neg hz]
        obtain ⟨g1, g2, g3⟩ := ih (i + 1) (l - 1) (n - 1) (p + step) (poke mem p (peek mem (q0 + ((i * step : Nat) : Int)) step))
          (by omega) (by omega) (by omega)
        have hle := (samplePicks_range draw k (i + 1) (l - 1) (n - 1)).2.2
        have hin := (samplePicks_range draw k (i + 1) (l - 1) (n - 1)).1
        rw [e1]
        simp only [e2]
        refine ⟨?_, ?_, ?_⟩
        · rw [g1]; simp only [List.length_cons]; omega
        · intro x hx
          rw [g2 x (by omega)]
          exact poke_outside _ _ _ _ (by rw [hlen]; omega)
        · intro j hj
          cases j with
          | zero =>
            simp only [List.getElem_cons_zero, Nat.zero_mul, Int.natCast_zero, Int.add_zero]
            have h1 := peek_poke_same mem p (peek mem (q0 + ((i * step : Nat) : Int)) step)
            rw [hlen] at h1
            refine Eq.trans ?_ h1
            apply peek_ext
            intro t ht
            exact g2 _ (by omega)
          | succ j =>
            simp only [List.getElem_cons_succ]
            have hj' : j < (samplePicks draw k (i + 1) (l - 1) (n - 1)).length := by simpa using hj
            have h1 := g3 j hj'
            rw [show p + (step : Int) + ((j * step : Nat) : Int) = p + (((j + 1) * step : Nat) : Int) by rw [Nat.add_mul]; omega] at h1
            rw [h1]
            have hb := hin _ (List.getElem_mem hj')
            generalize (samplePicks draw k (i + 1) (l - 1) (n - 1))[j] = s at *
            have hs1 : (s + 1) * step ≤ C * step := Nat.mul_le_mul_right _ (by omega)
            rw [Nat.add_mul, Nat.one_mul] at hs1
            apply peek_poke_disjoint
            rw [hlen]
            omega
    · by_cases hz : n = 0
      · have e1 : sampleSelect draw step (k + 1) i l n p (q0 + ((i * step : Nat) : Int)) mem = (0, mem) := by
          unfold sampleSelect
          simp [hz]
        have e2 : samplePicks draw (k + 1) i l n = [] := by
          unfold samplePicks
          rw [if_neg hr, if_pos hz]
        rw [e1, e2]
        refine ⟨by simp [hz], fun _ _ => rfl, fun j hj => by simp at hj⟩
      · have e1 : sampleSelect draw step (k + 1) i l n p (q0 + ((i * step : Nat) : Int)) mem =
            sampleSelect draw step k (i + 1) (l - 1) n p (q0 + (((i + 1) * step : Nat) : Int)) mem := by
          rw [← hq]
          conv => lhs; unfold sampleSelect
          simp only [hr, hz, if_false]
        have e2 : samplePicks draw (k + 1) i l n = samplePicks draw k (i + 1) (l - 1) n := by
          conv => lhs; unfold samplePicks
          rw [if_neg hr, if_neg hz]
        rw [e1]
        simp only [e2]
        exact ih (i + 1) (l - 1) n p mem (by omega) hp hpn

/-! ## The pieces of work -/

theorem chunk_pos {offset size : Nat} (h : offset < size) :
    0 < (if offset + sampleChunkRows ≥ size then size - offset else sampleChunkRows) ∧
      offset + (if offset + sampleChunkRows ≥ size then size - offset else sampleChunkRows) ≤ size ∧
      (if offset + sampleChunkRows ≥ size then size - offset else sampleChunkRows) ≤ sampleChunkRows := by
  unfold sampleChunkRows
  split <;> omega

/-- The pieces of work cover the block from `offset` on, and the new one from `offsetnew` on. -/
inductive WorkFrom (size : Nat) : Nat → Nat → List Work → Nat → Prop where
  | nil {new : Nat} : WorkFrom size size new [] new
  | cons {off new stop : Nat} {wk : Work} {ws : List Work} (h1 : wk.offset = off) (h2 : wk.offsetnew = new) (h3 : 0 < wk.chunksize)
      (h4 : off + wk.chunksize ≤ size) (h5 : wk.chunksize ≤ sampleChunkRows) (h : WorkFrom size (off + wk.chunksize) (new + wk.nsel) ws stop) :
      WorkFrom size off new (wk :: ws) stop

theorem sampleLoops_agree (g : Rng) (all : Bool) (size : Nat) : ∀ fuel off new s, off ≤ size → size - off < fuel →
    WorkFrom size off new (sampleWorkLoop g all size fuel off new s) (sampleSizeLoop g all size fuel off new s) := by
  intro fuel
  induction fuel with
  | zero => intro off new s h1 h2; omega
  | succ fuel ih =>
    intro off new s h1 h2
    unfold sampleWorkLoop sampleSizeLoop
    by_cases hlt : off < size
    · rw [if_pos hlt, if_pos hlt]
      obtain ⟨c1, c2, c3⟩ := chunk_pos hlt
      dsimp only
      exact .cons rfl rfl c1 c2 c3 (ih _ _ _ c2 (by dsimp only; omega))
    · rw [if_neg hlt, if_neg hlt]
      have : off = size := by omega
      subst this
      exact .nil

theorem sampleWork_from (g : Rng) (all : Bool) (size : Nat) :
    WorkFrom size 0 0 (sampleWork g all size) (sampleSize g all size) :=
  sampleLoops_agree g all size _ _ _ _ (Nat.zero_le _) (by omega)

theorem WorkFrom.bounds {size off new stop : Nat} {ws : List Work} (h : WorkFrom size off new ws stop) :
    off ≤ size ∧ new ≤ stop ∧ ∀ wk ∈ ws, off ≤ wk.offset ∧ wk.offset + wk.chunksize ≤ size ∧ 0 < wk.chunksize ∧ new ≤ wk.offsetnew ∧
      wk.offsetnew + wk.nsel ≤ stop ∧ wk.chunksize ≤ sampleChunkRows := by
  induction h with
  | nil => exact ⟨Nat.le_refl _, Nat.le_refl _, fun _ h => by cases h⟩
  | cons h1 h2 h3 h4 h5 h ih =>
    obtain ⟨i1, i2, i3⟩ := ih
    refine ⟨by omega, by omega, fun wk hwk => ?_⟩
    rcases List.mem_cons.mp hwk with rfl | hwk
    · omega
    · have := i3 wk hwk
      omega

/-- Two pieces of work write different rows. -/
def WorkApart (a b : Work) : Prop := a.offsetnew + a.nsel ≤ b.offsetnew ∨ b.offsetnew + b.nsel ≤ a.offsetnew

theorem WorkFrom.apart {size off new stop : Nat} {ws : List Work} (h : WorkFrom size off new ws stop) : ws.Pairwise WorkApart := by
  induction h with
  | nil => exact List.Pairwise.nil
  | cons h1 h2 h3 h4 h5 h ih =>
    rw [List.pairwise_cons]
    refine ⟨fun wk hwk => Or.inl ?_, ih⟩
    have := h.bounds.2.2 wk hwk
    omega

/-- The rows selected by a piece of work. -/
def picksOf (draw : Nat → Nat → Nat → Nat) (wk : Work) : List Nat := samplePicks (draw wk.seed) wk.chunksize 0 wk.chunksize wk.nsel

theorem WorkFrom.choice {size off new stop : Nat} {ws : List Work} (h : WorkFrom size off new ws stop) (draw : Nat → Nat → Nat → Nat)
    (hd : ∀ seed, FairDraw (draw seed)) (hn : ∀ wk ∈ ws, wk.nsel ≤ wk.chunksize) :
    (ws.flatMap fun wk => (picksOf draw wk).map (wk.offset + ·)).length = stop - new ∧
    (ws.flatMap fun wk => (picksOf draw wk).map (wk.offset + ·)).Pairwise (· < ·) ∧
    (∀ r ∈ ws.flatMap fun wk => (picksOf draw wk).map (wk.offset + ·), off ≤ r ∧ r < size) := by
  induction h with
  | nil => simp
  | @cons off new stop wk ws h1 h2 h3 h4 h5 h ih =>
    obtain ⟨i1, i2, i3⟩ := ih (fun w hw => hn w (by simp [hw]))
    have hb := h.bounds.2.1
    have hw := hn wk (by simp)
    have hc : (picksOf draw wk).length = wk.nsel := samplePicks_count _ (hd _) _ _ _ hw
    obtain ⟨p1, p2, _⟩ := samplePicks_range (draw wk.seed) wk.chunksize 0 wk.chunksize wk.nsel
    have hm : ∀ r ∈ (picksOf draw wk).map (wk.offset + ·), off ≤ r ∧ r < off + wk.chunksize := by
      intro r hr
      obtain ⟨x, hx, rfl⟩ := List.mem_map.mp hr
      have := p1 x hx
      omega
    rw [List.flatMap_cons]
    refine ⟨?_, ?_, ?_⟩
    · rw [List.length_append, List.length_map, hc, i1]; omega
    · rw [List.pairwise_append]
      refine ⟨?_, i2, fun a ha b hb => ?_⟩
      · rw [List.pairwise_map]
        exact p2.imp (fun h => by omega)
      · have := hm a ha
        have := i3 b hb
        omega
    · intro r hr
      rcases List.mem_append.mp hr with hr | hr
      · have := hm r hr; omega
      · have := i3 r hr; omega

theorem WorkFrom.tiles {size off new stop : Nat} {ws : List Work} (h : WorkFrom size off new ws stop) :
    List.range' new (stop - new) = ws.flatMap fun wk => List.range' wk.offsetnew wk.nsel := by
  induction h with
  | nil => simp
  | @cons off new stop wk ws h1 h2 h3 h4 h5 h ih =>
    rw [List.flatMap_cons, ← ih, h2]
    have hb := h.bounds.2.1
    have := List.range'_append (s := new) (m := wk.nsel) (n := stop - (new + wk.nsel)) (step := 1)
    rw [Nat.one_mul] at this
    rw [this]
    congr 1
    omega

/-! ## One piece of work -/

variable {env : Env} {K : Kind} {bb : Block} {w : World} {A : Content}

theorem arrayRow_fresh (dt : CStr) (hdt : dtypeNormalize env.m dt = K.dtype) (n : Nat) (buf : Int) (mem : Mem) (i : Nat) (hi : i < n) :
    arrayRow env K (freshArr env.m dt n K.nm K.w buf) mem K.w i = peek mem (buf + ((i * (K.nm * K.w) : Nat) : Int)) (K.nm * K.w) := by
  have hconv : ∀ e, toBlock env K (freshArr env.m dt n K.nm K.w buf) mem K.w e =
      some (peek mem (elemAddr (freshArr env.m dt n K.nm K.w buf) e) K.w) := by
    intro e
    unfold toBlock
    show convElem env.m env.fo K.dtype (dtypeNormalize env.m dt) _ = _
    rw [hdt]
    exact convElem_same _ _ _ _
  unfold arrayRow rowOfElems
  rw [peek_flatN]
  apply flatN_congr
  intro j hj
  have he : i * K.nm + j < n * K.nm := by
    calc i * K.nm + j < i * K.nm + K.nm := by omega
      _ = (i + 1) * K.nm := (Nat.succ_mul _ _).symm
      _ ≤ _ := Nat.mul_le_mul_right _ hi
  dsimp only
  rw [hconv, Option.getD_some, freshArr_addr _ _ _ _ _ _ _ he]
  congr 1
  rw [Nat.add_mul, Nat.mul_assoc]
  omega

/-- What the new block holds after a piece of work. -/
def Spec.Content.worked (A : Content) (draw : Nat → Nat → Nat → Nat) (B : Content) (wk : Work) : Content :=
  { B with rows := fun r => if wk.offsetnew ≤ r ∧ r < wk.offsetnew + wk.nsel
      then A.rows (wk.offset + (picksOf draw wk).getD (r - wk.offsetnew) 0) else B.rows r }

/-- The steps of a piece of work. -/
theorem sample_chunk {bn : Block} {B : Content} (hs : Holds env K bb w.fs A) (hd : Holds env K bn w.fs B) (hnf : w.faults = noFaults)
    (hfull : A.full) (draw : Nat → Nat → Nat → Nat) (hdr : ∀ seed, FairDraw (draw seed)) (wk : Work)
    (h1 : wk.offset + wk.chunksize ≤ A.size) (h2 : wk.nsel ≤ wk.chunksize) (h3 : wk.offsetnew + wk.nsel ≤ B.size)
    (buf abuf : Int) (mem : Mem)
    (hdis : buf + ((wk.nsel * (K.nm * K.w) : Nat) : Int) ≤ abuf ∨ abuf + ((wk.chunksize * (K.nm * K.w) : Nat) : Int) ≤ buf) :
    ∃ mem1 w1 mem2 ptr x w2,
      arrayInit env.m buf bb.dtype [wk.nsel, u64 bb.nmemb] none = some (freshArr env.m bb.dtype wk.nsel K.nm K.w buf) ∧
      readSimple env bb wk.offset wk.chunksize none abuf mem w = .ok (0, some (freshArr env.m bb.dtype wk.chunksize K.nm K.w abuf), mem1) w1 ∧
      sampleSelect (draw wk.seed) (u64 (itemsize env.m bb.dtype * bb.nmemb)) wk.chunksize 0 wk.chunksize wk.nsel buf abuf mem1 = (0, mem2) ∧
      seek bn ⟨0, 0, 0⟩ wk.offsetnew = some (0, ptr) ∧
      blockWrite env bn ptr (freshArr env.m bb.dtype wk.nsel K.nm K.w buf) mem2 w1 = .ok x w2 ∧ x.rc = 0 ∧
      w2.faults = noFaults ∧ SameShape bn x.bb ∧ x.bb.attrset = bn.attrset ∧ SameOutside bn.basename w.fs w2.fs ∧
      Holds env K x.bb w2.fs (A.worked draw B wk) ∧
      w2.fs = putRows env.m bn w.fs wk.offsetnew (fun i => ((A.worked draw B wk).rows (wk.offsetnew + i)).getD []) wk.nsel ∧
      (∀ f, x.bb.fchecksum.getD f 0 = (bn.fchecksum.getD f 0 +
        rowsSum bn wk.offsetnew (fun i => ((A.worked draw B wk).rows (wk.offsetnew + i)).getD []) f wk.nsel) % 4294967296) ∧
      x.bb.dirty = (decide (0 < wk.nsel) || bn.dirty) ∧
      (∀ i, i < wk.nsel → ∃ bytes, (A.worked draw B wk).rows (wk.offsetnew + i) = some bytes) := by
  have hbs := hs.size
  have hnm := hs.ok.memb0
  have hszA : A.size < 9223372036854775808 := by
    have h4 := hs.ok.layout.small
    have h5 := hs.ok.layout.size
    omega
  have hszB : B.size < 9223372036854775808 := by
    have h4 := hd.ok.layout.small
    have h5 := hd.ok.layout.size
    have h6 := hd.size
    omega
  have hbytesC : wk.chunksize * K.nm * K.w < 9223372036854775808 := by
    have q1 := hs.ok.offs
    have q2 := hs.ok.layout.size
    have q3 : wk.chunksize * (K.w * K.nm) ≤ bb.fsize.sum * (K.w * K.nm) := Nat.mul_le_mul_right _ (by omega)
    rw [Nat.mul_assoc, Nat.mul_comm K.nm]
    omega
  have hbytesN : wk.nsel * K.nm * K.w < 9223372036854775808 := by
    have q3 : wk.nsel * K.nm * K.w ≤ wk.chunksize * K.nm * K.w := Nat.mul_le_mul_right _ (Nat.mul_le_mul_right _ h2)
    omega
  have hsize : min wk.chunksize (bb.size - wk.offset) = wk.chunksize := by omega
  -- the arrays
  have einit := hs.ok.freshInit bb.dtype wk.nsel K.w buf hs.ok.item hs.ok.item0 hbytesN
  have hstep : u64 (itemsize env.m bb.dtype * bb.nmemb) = K.nm * K.w := by
    have := hs.ok.felInt
    rw [hs.ok.item, hs.ok.memb, ← Int.natCast_mul, u64_of_nat (by omega), Nat.mul_comm]
  -- read
  obtain ⟨⟨rc, arr, mem1⟩, w1, e1, r1⟩ := wpc_returns (C58_read_simple_partial env bb K.w K.nm K.w none wk.offset wk.chunksize abuf mem w
    (elemOfRows env.m w.fs bb wk.offset K.w K.nm) hs.ok hs.ok.item hs.ok.item0 (by omega) (by omega) (by rw [hsize]; exact hbytesC)
    (fun _ => convertible_same _ _ _) (fun e _ _ => convElem_same _ _ _ _)) (fun _ hc => hc.2 hnf)
  rw [hsize] at r1
  have hstored : ∀ i, i < wk.chunksize → Stored env.m w.fs bb (wk.offset + i) := by
    intro i hi
    obtain ⟨bytes, hb⟩ := Option.isSome_iff_exists.mp (hfull (wk.offset + i) (by omega))
    exact (hs.rows _ _ hb).2.2
  have hrc : rc = 0 := r1.succeeds hnf hstored
  subst hrc
  obtain ⟨ha, _, hm⟩ := r1.done rfl
  simp only at ha
  subst ha
  have hnf1 : w1.faults = noFaults := r1.faults.trans hnf
  have hd1 : Holds env K bn w1.fs B := by rw [r1.fs]; exact hd
  -- select
  have hcount : (picksOf draw wk).length = wk.nsel := samplePicks_count _ (hdr _) _ _ _ h2
  obtain ⟨p1, _, _⟩ := samplePicks_range (draw wk.seed) wk.chunksize 0 wk.chunksize wk.nsel
  obtain ⟨s1, _, s3⟩ := sampleSelect_spec (draw wk.seed) (K.nm * K.w) buf abuf wk.nsel wk.chunksize hdis wk.chunksize 0 wk.chunksize
    wk.nsel buf mem1 (by omega) (by omega) (by omega)
  rw [Nat.zero_mul, Int.natCast_zero, Int.add_zero] at s1 s3
  change (sampleSelect _ _ _ _ _ _ _ _ _).1 = wk.nsel - (picksOf draw wk).length at s1
  rw [hcount, Nat.sub_self] at s1
  generalize hmem2 : sampleSelect (draw wk.seed) (K.nm * K.w) wk.chunksize 0 wk.chunksize wk.nsel buf abuf mem1 = sel at s1 s3
  obtain ⟨left, mem2⟩ := sel
  simp only at s1 s3
  subst s1
  have s3 : ∀ j (hj : j < (picksOf draw wk).length), peek mem2 (buf + ((j * (K.nm * K.w) : Nat) : Int)) (K.nm * K.w) =
      peek mem1 (abuf + (((picksOf draw wk)[j] * (K.nm * K.w) : Nat) : Int)) (K.nm * K.w) := s3
  -- rows
  have hrow : ∀ i (hi : i < wk.nsel), ∀ bytes, A.rows (wk.offset + (picksOf draw wk).getD i 0) = some bytes →
      arrayRow env K (freshArr env.m bb.dtype wk.nsel K.nm K.w buf) mem2 K.w i = bytes := by
    intro i hi bytes hb
    have hi' : i < (picksOf draw wk).length := by rw [hcount]; exact hi
    have hg : (picksOf draw wk).getD i 0 = (picksOf draw wk)[i] := by
      rw [List.getD_eq_getElem?_getD, List.getElem?_eq_getElem hi', Option.getD_some]
    rw [hg] at hb
    have hlt : 0 ≤ (picksOf draw wk)[i] ∧ (picksOf draw wk)[i] < 0 + wk.chunksize := p1 _ (List.getElem_mem hi')
    rw [arrayRow_fresh bb.dtype hs.kind wk.nsel buf mem2 i hi, s3 i hi',
      ← arrayRow_fresh bb.dtype hs.kind wk.chunksize abuf mem1 ((picksOf draw wk)[i]) (by omega)]
    exact chunk_row hs wk.offset wk.chunksize abuf mem1 hm ((picksOf draw wk)[i]) (by omega) bytes hb
  -- seek
  obtain ⟨q, hq, hpt⟩ := (seek_row hd.ok.layout wk.offsetnew (by omega)).1 (by rw [hd.size]; omega)
  have hsome : ∀ i, i < wk.nsel → ∃ bytes, (A.worked draw B wk).rows (wk.offsetnew + i) = some bytes ∧
      arrayRow env K (freshArr env.m bb.dtype wk.nsel K.nm K.w buf) mem2 K.w i = bytes := by
    intro i hi
    have hi' : i < (picksOf draw wk).length := by rw [hcount]; exact hi
    have hg : (picksOf draw wk).getD i 0 = (picksOf draw wk)[i] := by
      rw [List.getD_eq_getElem?_getD, List.getElem?_eq_getElem hi', Option.getD_some]
    have hlt := p1 _ (List.getElem_mem hi')
    obtain ⟨bytes, hb⟩ := Option.isSome_iff_exists.mp (hfull (wk.offset + (picksOf draw wk).getD i 0) (by rw [hg]; omega))
    refine ⟨bytes, ?_, hrow i hi bytes hb⟩
    unfold Content.worked
    dsimp only
    rw [if_pos (by omega), show wk.offsetnew + i - wk.offsetnew = i by omega]
    exact hb
  by_cases hn0 : wk.nsel = 0
  · have e2 : blockWrite env bn q (freshArr env.m bb.dtype wk.nsel K.nm K.w buf) mem2 w1 = .ok ⟨0, bn, q, mem2⟩ w1 := by
      unfold blockWrite blockWriteFuel
      rw [if_pos (by show wk.nsel * K.nm = 0; rw [hn0, Nat.zero_mul])]
      rfl
    refine ⟨mem1, w1, mem2, q, _, w1, einit, e1, by rw [hstep]; exact hmem2, hq, e2, rfl, hnf1, .rfl' _, rfl, by rw [r1.fs]; exact SameOutside.refl _ _,
      ?_, ?_, ?_, by rw [hn0]; rfl, fun i hi => ⟨_, (hsome i hi).choose_spec.1⟩⟩
    · have : A.worked draw B wk = B := by
        unfold Content.worked
        cases B
        simp only [Content.mk.injEq, true_and, and_true]
        funext r
        rw [if_neg (by omega)]
      rw [this]
      exact hd1
    · rw [r1.fs, hn0]; rfl
    · intro f
      rw [hn0]
      show bn.fchecksum.getD f 0 = (bn.fchecksum.getD f 0 + 0) % 4294967296
      by_cases hf : f < bn.fchecksum.length
      · have h5 := hd.ok.layout.ck32 (bn.fchecksum[f]) (List.getElem_mem hf)
        rw [List.getD_eq_getElem?_getD, List.getElem?_eq_getElem hf]
        simp only [Option.getD_some]
        omega
      · rw [List.getD_eq_getElem?_getD, List.getElem?_eq_none (by omega)]
        rfl
  · have hrows : (freshArr env.m bb.dtype wk.nsel K.nm K.w buf).size / K.nm = wk.nsel := freshArr_rows _ _ _ _ _ _ hnm
    have hx := hs.ok.fresh bb.dtype wk.nsel K.w buf (by omega) hs.ok.item hs.ok.item0 hbytesN
    have hao : ArrayOk env (freshArr env.m bb.dtype wk.nsel K.nm K.w buf) K.w := ⟨hx.arr, hx.asize, hx.anorm, hx.aitem, hx.aitem0, hx.abytes⟩
    have hconv : ∀ e, (toBlock env K (freshArr env.m bb.dtype wk.nsel K.nm K.w buf) mem2 K.w e).isSome = true := by
      intro e
      unfold toBlock
      show (convElem env.m env.fo K.dtype (dtypeNormalize env.m bb.dtype) _).isSome = true
      rw [hs.kind, convElem_same]
      rfl
    obtain ⟨ans, bn', w2, e2, st⟩ := write_step hd1 hnf1 wk.offsetnew _ mem2 K.w
      ⟨by omega, hao, fun _ => freshArr_disjoint _ _ _ _ _ _, fun _ e _ => hconv e⟩
    have hin : wk.offsetnew + (freshArr env.m bb.dtype wk.nsel K.nm K.w buf).size / K.nm ≤ B.size := by rw [hrows]; exact h3
    have hw : LegalWrite env bn q (freshArr env.m bb.dtype wk.nsel K.nm K.w buf) mem2 wk.offsetnew K.w K.w K.nm
        (fun e => (toBlock env K (freshArr env.m bb.dtype wk.nsel K.nm K.w buf) mem2 K.w e).getD []) := by
      refine ⟨hao.xferOk hd.ok, fun _ => freshArr_disjoint _ _ _ _ _ _, hpt, by rw [hd.size]; exact hin, fun e he => ?_⟩
      obtain ⟨b, hb⟩ := Option.isSome_iff_exists.mp (hconv e)
      show _ = some ((toBlock env K (freshArr env.m bb.dtype wk.nsel K.nm K.w buf) mem2 K.w e).getD [])
      rw [hb, hd.kind]
      exact hb
    obtain ⟨x, w3, e3, d⟩ := wpc_returns (hw.spec w1) (fun _ hc => hc.2 hnf1)
    have hrun : runBOp env bn (.write wk.offsetnew (freshArr env.m bb.dtype wk.nsel K.nm K.w buf) mem2 K.w) w1 = .ok (⟨x.rc, x.mem, none⟩, x.bb) w3 := by
      unfold runBOp
      show M.bind (M.lift _) _ w1 = _
      rw [hq]
      show M.bind (blockWrite env bn q _ mem2) _ w1 = _
      unfold M.bind
      rw [e3]
      rfl
    rw [hrun] at e2
    injection e2 with e2 e2'
    injection e2 with e2 e2''
    subst e2' e2''
    have hrc := d.succeeds hnf1 hd1.data
    have hrowi : ∀ i, i < wk.nsel → rowOfElems (fun e => (toBlock env K (freshArr env.m bb.dtype wk.nsel K.nm K.w buf) mem2 K.w e).getD []) K.nm i =
        ((A.worked draw B wk).rows (wk.offsetnew + i)).getD [] := by
      intro i hi
      obtain ⟨bytes, hb1, hb2⟩ := hsome i hi
      rw [hb1]
      exact hb2
    refine ⟨mem1, w1, mem2, q, x, w3, einit, e1, by rw [hstep]; exact hmem2, hq, e3, hrc, st.faults, d.shape, d.attrs, ?_, ?_, ?_, ?_, ?_,
      fun i hi => ⟨_, (hsome i hi).choose_spec.1⟩⟩
    · rw [← r1.fs]
      exact wlp_ok (blockWrite_touches env _ bn q _ mem2 w1) e3
    · have hnx : B.next env K (.write wk.offsetnew (freshArr env.m bb.dtype wk.nsel K.nm K.w buf) mem2 K.w) = A.worked draw B wk := by
        simp only [Content.next]
        rw [if_pos hin, hrows]
        unfold Content.worked
        congr 1
        funext r
        by_cases hr : wk.offsetnew ≤ r ∧ r < wk.offsetnew + wk.nsel
        · rw [if_pos hr, if_pos hr]
          obtain ⟨bytes, hb1, hb2⟩ := hsome (r - wk.offsetnew) (by omega)
          rw [show wk.offsetnew + (r - wk.offsetnew) = r by omega] at hb1
          unfold Content.worked at hb1
          dsimp only at hb1
          rw [if_pos hr] at hb1
          rw [hb1, hb2]
        · rw [if_neg hr, if_neg hr]
      rw [← hnx]
      exact st.holds
    · rw [(d.done hrc).1, r1.fs, hrows]
      exact putRows_congr hrowi
    · intro f
      rw [d.cksum hrc f, hrows, rowsSum_congr hrowi]
    · rw [d.dirty]; simp; omega

theorem sampleDo_holds {bn : Block} {B : Content} (hs : Holds env K bb w.fs A) (hd : Holds env K bn w.fs B) (hnf : w.faults = noFaults)
    (hfull : A.full) (draw : Nat → Nat → Nat → Nat) (hdr : ∀ seed, FairDraw (draw seed)) (wk : Work)
    (h1 : wk.offset + wk.chunksize ≤ A.size) (h2 : wk.nsel ≤ wk.chunksize) (h3 : wk.offsetnew + wk.nsel ≤ B.size)
    (buf abuf : Int) (mem : Mem)
    (hdis : buf + ((wk.nsel * (K.nm * K.w) : Nat) : Int) ≤ abuf ∨ abuf + ((wk.chunksize * (K.nm * K.w) : Nat) : Int) ≤ buf) :
    ∃ bn' mem' w', sampleDo env bb draw wk buf abuf bn mem w = .ok (.done, bn', mem') w' ∧ w'.faults = noFaults ∧
      bn'.basename = bn.basename ∧ SameOutside bn.basename w.fs w'.fs ∧ Holds env K bn' w'.fs (A.worked draw B wk) := by
  obtain ⟨mem1, w1, mem2, q, x, w2, einit, e1, hsel, hq, e2, hrc, hnf2, hsh, _, ho, hh, _⟩ :=
    sample_chunk hs hd hnf hfull draw hdr wk h1 h2 h3 buf abuf mem hdis
  refine ⟨x.bb, x.mem, w2, ?_, hnf2, hsh.base, ho, hh⟩
  unfold sampleDo
  simp only [bind, M.bind]
  rw [einit]
  simp only [M.lift, M.pure]
  rw [e1]
  dsimp only
  rw [show (freshArr env.m bb.dtype wk.chunksize K.nm K.w abuf).data = abuf from rfl, hsel]
  simp only [ne_eq, not_true_eq_false, if_false]
  rw [hq]
  simp only [M.bind, M.pure, not_true_eq_false, if_false]
  rw [e2]
  simp [hrc, pure, M.pure]

/-- All pieces of work, in any order. -/
theorem sampleRun_holds {dst : CStr} (hap : Apart bb.basename dst) (hfull : A.full) (draw : Nat → Nat → Nat → Nat)
    (hdr : ∀ seed, FairDraw (draw seed)) (buf abuf : Int) :
    ∀ (ws : List Work) (bn : Block) (B : Content) (mem : Mem) (w : World), Holds env K bb w.fs A → Holds env K bn w.fs B →
    w.faults = noFaults → bn.basename = dst →
    (∀ wk ∈ ws, wk.offset + wk.chunksize ≤ A.size ∧ wk.nsel ≤ wk.chunksize ∧ wk.offsetnew + wk.nsel ≤ B.size ∧
      (buf + ((wk.nsel * (K.nm * K.w) : Nat) : Int) ≤ abuf ∨ abuf + ((wk.chunksize * (K.nm * K.w) : Nat) : Int) ≤ buf)) →
    ∃ bn' mem' w', sampleRun env bb draw buf abuf ws bn mem w = .ok (.done, bn', mem') w' ∧ w'.faults = noFaults ∧
      bn'.basename = dst ∧ SameOutside dst w.fs w'.fs ∧ Holds env K bb w'.fs A ∧
      Holds env K bn' w'.fs (ws.foldl (A.worked draw) B) := by
  intro ws
  induction ws with
  | nil =>
    intro bn B mem w hs hd hnf hb _
    exact ⟨bn, mem, w, rfl, hnf, hb, SameOutside.refl _ _, hs, hd⟩
  | cons wk ws ih =>
    intro bn B mem w hs hd hnf hb h
    obtain ⟨h1, h2, h3, h4⟩ := h wk (by simp)
    obtain ⟨b1, m1, w1, e1, nf1, hb1, o1, hh1⟩ := sampleDo_holds hs hd hnf hfull draw hdr wk h1 h2 h3 buf abuf mem h4
    rw [hb] at o1 hb1
    have hs1 : Holds env K bb w1.fs A := hs.outside hap o1
    obtain ⟨b2, m2, w2, e2, nf2, hb2, o2, hs2, hh2⟩ := ih b1 (A.worked draw B wk) m1 w1 hs1 hh1 nf1 hb1
      (fun w' hw' => h w' (by simp [hw']))
    refine ⟨b2, m2, w2, ?_, nf2, hb2, o1.trans o2, hs2, hh2⟩
    unfold sampleRun
    simp only [bind, M.bind]
    rw [e1]
    exact e2

/-- Work on other rows does not matter. -/
theorem worked_other {B : Content} (draw : Nat → Nat → Nat → Nat) (ws : List Work) (r : Nat)
    (h : ∀ wk ∈ ws, ¬ (wk.offsetnew ≤ r ∧ r < wk.offsetnew + wk.nsel)) : (ws.foldl (A.worked draw) B).rows r = B.rows r := by
  induction ws generalizing B with
  | nil => rfl
  | cons wk ws ih =>
    rw [List.foldl_cons, ih (fun w hw => h w (by simp [hw]))]
    unfold Content.worked
    dsimp only
    rw [if_neg (h wk (by simp))]

theorem worked_rows {B : Content} (draw : Nat → Nat → Nat → Nat) (ws : List Work) (hp : ws.Pairwise WorkApart) (wk : Work) (hw : wk ∈ ws) (r : Nat)
    (hr : wk.offsetnew ≤ r ∧ r < wk.offsetnew + wk.nsel) :
    (ws.foldl (A.worked draw) B).rows r = A.rows (wk.offset + (picksOf draw wk).getD (r - wk.offsetnew) 0) := by
  induction ws generalizing B with
  | nil => cases hw
  | cons w ws ih =>
    rw [List.pairwise_cons] at hp
    rw [List.foldl_cons]
    rcases List.mem_cons.mp hw with rfl | hw
    · rw [worked_other draw ws r (fun w' hw' => by have := hp.1 w' hw'; unfold WorkApart at this; omega)]
      unfold Content.worked
      dsimp only
      rw [if_pos hr]
    · exact ih hp.2 hw

theorem worked_shape {B : Content} (draw : Nat → Nat → Nat → Nat) (ws : List Work) :
    (ws.foldl (A.worked draw) B).size = B.size ∧ (ws.foldl (A.worked draw) B).nfile = B.nfile ∧
    (ws.foldl (A.worked draw) B).attrs = B.attrs := by
  induction ws generalizing B with
  | nil => exact ⟨rfl, rfl, rfl⟩
  | cons w ws ih => rw [List.foldl_cons]; exact ih

end Verif
