import Verif.Proof.KillJobs
import Verif.Proof.SampleFiles
/-!
# Copying and sampling a range when operations fail
-/

set_option autoImplicit false

namespace Verif

open Spec

variable {env : Env} {K : Kind} {A B : Content} {bb bd : Block}

/-! ## Every failure is noticed -/

theorem readChunkP_picky (bb : Block) (fileid : Nat) (off fel : Int) (chunk : Nat) (hf : 0 < fel.toNat) :
    (readChunkP bb fileid off fel chunk).Picky (fun d => d = none) := by
  unfold readChunkP
  refine ⟨fun r hr => ?_, fun r => ?_⟩
  · show Prog.Ends _ (if r.isOk = true then _ else _)
    rw [if_neg (by rw [show r.isOk = false from hr]; simp)]
    rfl
  · show Prog.Picky _ (if r.isOk = true then _ else _)
    split
    · split
      · trivial
      · refine ⟨fun d hd => ?_, fun _ => trivial⟩
        show (if d.bytes.length / fel.toNat = chunk then some d.bytes else none) = none
        rw [if_neg]
        intro e
        have h1 : d.bytes.length < chunk * fel.toNat := hd
        rw [← Nat.div_lt_iff_lt_mul hf] at h1
        omega
    · trivial

theorem writeChunkP_picky (bb : Block) (fileid : Nat) (off fel : Int) (chunk : Nat) (bytes : List Byte) (hf : 0 < fel.toNat)
    (hb : bytes.length = chunk * fel.toNat) : (writeChunkP bb fileid off fel chunk bytes).Picky (fun b => b = false) := by
  unfold writeChunkP
  refine ⟨fun r hr => ?_, fun r => ?_⟩
  · show Prog.Ends _ (if r.isOk = true then _ else _)
    rw [if_neg (by rw [show r.isOk = false from hr]; simp)]
    rfl
  · show Prog.Picky _ (if r.isOk = true then _ else _)
    split
    · split
      · trivial
      · refine ⟨fun d hd => ?_, fun _ => trivial⟩
        show decide (d.num / fel.toNat = chunk) = false
        rw [decide_eq_false_iff_not]
        intro e
        have h1 : d.num < bytes.length := hd
        rw [hb, ← Nat.div_lt_iff_lt_mul hf] at h1
        omega
    · trivial

theorem readLoopP_picky (env : Env) (fel : Int) (cs : Nat) (ca : Arr) (hf : 0 < fel.toNat) :
    ∀ (fuel : Nat) (bb : Block) (ptr : Ptr) (it : Iter) (n : Int) (mem : Mem),
    (readLoopP env fel cs ca fuel bb ptr it n mem).Picky (fun x => x.rc ≠ 0) := by
  intro fuel
  induction fuel with
  | zero => intros; trivial
  | succ fuel ih =>
    intro bb ptr it n mem
    unfold readLoopP
    refine Prog.Picky.lift_bind fun e _ => ?_
    split
    · trivial
    refine Prog.Picky.lift_bind fun chunk _ => ?_
    split
    · trivial
    refine Prog.Picky.bind (readChunkP_picky _ _ _ _ _ hf) (fun d hd => ?_) fun d => ?_
    · subst hd
      show (-1 : Int) ≠ 0
      decide
    cases d with
    | none => trivial
    | some d =>
      refine Prog.Picky.lift_bind fun r _ => ?_
      split
      · trivial
      refine Prog.Picky.lift_bind fun q _ => ?_
      obtain ⟨rc, ptr'⟩ := q
      simp only
      split
      · trivial
      · exact ih _ _ _ _ _

theorem writeLoopP_picky (env : Env) (fel : Int) (cs : Nat) (ca : Arr) (hf : 0 < fel.toNat) :
    ∀ (fuel : Nat) (bb : Block) (ptr : Ptr) (it : Iter) (n : Int) (mem : Mem),
    (writeLoopP env fel cs ca fuel bb ptr it n mem).Picky (fun x => x.rc ≠ 0) := by
  intro fuel
  induction fuel with
  | zero => intros; trivial
  | succ fuel ih =>
    intro bb ptr it n mem
    unfold writeLoopP
    refine Prog.Picky.lift_bind fun e _ => ?_
    split
    · trivial
    refine Prog.Picky.lift_bind fun chunk _ => ?_
    refine Prog.Picky.lift_bind fun r _ => ?_
    split
    · trivial
    dsimp only
    refine Prog.Picky.lift_bind fun old _ => ?_
    refine Prog.Picky.bind (writeChunkP_picky _ _ _ _ _ _ hf (peek_length _ _ _)) (fun d hd => ?_) fun d => ?_
    · subst hd
      show (-1 : Int) ≠ 0
      decide
    split
    · trivial
    refine Prog.Picky.lift_bind fun q _ => ?_
    obtain ⟨rc, ptr'⟩ := q
    simp only
    split
    · trivial
    · exact ih _ _ _ _ _

theorem Spec.BlockOk.fel {w nm : Nat} (h : BlockOk env bb w nm) {q : Int × Int × Nat} (hq : elemSizes env bb = some q) : 0 < q.2.1.toNat := by
  have h1 := h.memb0
  have h2 := h.item0
  have h3 := h.felInt
  have hx := h.fresh bb.dtype 1 w 0 (by omega) h.item h.item0 (by rw [Nat.one_mul, Nat.mul_comm]; omega)
  have := hq.symm.trans hx.elemSizes
  cases this
  dsimp only
  rw [Int.toNat_natCast]
  exact Nat.mul_pos h2 h1

theorem blockReadP_picky {w nm : Nat} (h : BlockOk env bb w nm) (ptr : Ptr) (a : Arr) (mem : Mem) :
    (blockReadP env bb ptr a mem).Picky (fun x => x.rc ≠ 0) := by
  unfold blockReadP
  refine Prog.Picky.lift_bind fun q hq => ?_
  have hf := h.fel hq
  obtain ⟨nmemb, fel, cs⟩ := q
  dsimp only at hf ⊢
  refine Prog.Picky.lift_bind fun ca _ => ?_
  refine Prog.Picky.lift_bind fun fo _ => ?_
  split
  · trivial
  · exact readLoopP_picky _ _ _ _ hf _ _ _ _ _ _

theorem blockWriteP_picky {w nm : Nat} (h : BlockOk env bb w nm) (ptr : Ptr) (a : Arr) (mem : Mem) :
    (blockWriteP env bb ptr a mem).Picky (fun x => x.rc ≠ 0) := by
  unfold blockWriteP
  split
  · trivial
  refine Prog.Picky.lift_bind fun q hq => ?_
  have hf := h.fel (bb := bb) hq
  obtain ⟨nmemb, fel, cs⟩ := q
  dsimp only at hf ⊢
  refine Prog.Picky.lift_bind fun ca _ => ?_
  refine Prog.Picky.lift_bind fun fo _ => ?_
  split
  · trivial
  · exact writeLoopP_picky _ _ _ _ hf _ _ _ _ _ _

theorem readSimpleP_picky {w nm : Nat} (h : BlockOk env bb w nm) (start size : Int) (dtype : Option CStr) (buf : Int) (mem : Mem) :
    (readSimpleP env bb start size dtype buf mem).Picky (fun x => x.2.1 = none) := by
  unfold readSimpleP
  refine Prog.Picky.lift_bind fun q _ => ?_
  obtain ⟨rc, ptr⟩ := q
  dsimp only
  split
  · trivial
  generalize (if u64 (start + size) > bb.size then i64 (bb.size - start) else size) = sz
  split
  · trivial
  refine Prog.Picky.lift_bind fun a _ => ?_
  refine Prog.Picky.bind (blockReadP_picky h _ _ _) (fun x hx => ?_) fun x => ?_
  · rw [if_pos hx]; rfl
  · split <;> trivial

theorem copyRangeP_picky {w nm w' nm' : Nat} (h : BlockOk env bb w nm) (buf : Int) (o k : Nat) (x : Worker) (hx : BlockOk env x.bb w' nm') :
    (copyRangeP env bb buf o k x).Picky (fun y => y.rc ≠ 0) := by
  unfold copyRangeP
  refine Prog.Picky.bind (readSimpleP_picky h _ _ _ _ _) (fun v hv => ?_) fun v => ?_
  · obtain ⟨rc, arr, mem⟩ := v
    dsimp only at hv ⊢
    subst hv
    show (-1 : Int) ≠ 0
    decide
  · obtain ⟨rc, arr, mem⟩ := v
    dsimp only
    cases arr with
    | none => trivial
    | some a =>
      refine Prog.Picky.lift_bind fun q _ => ?_
      obtain ⟨rc', ptr⟩ := q
      dsimp only
      split
      · trivial
      refine Prog.Picky.bind (blockWriteP_picky hx _ _ _) (fun y hy => ?_) fun y => ?_
      · rw [if_pos hy]
        show (-1 : Int) ≠ 0
        decide
      · split <;> trivial

theorem sampleP_picky {w nm w' nm' : Nat} (h : BlockOk env bb w nm) (draw : Nat → Nat → Nat → Nat) (buf abuf : Int) (wk : Work) (x : Worker)
    (hx : BlockOk env x.bb w' nm') : (sampleP env bb draw buf abuf wk x).Picky (fun y => y.rc ≠ 0) := by
  unfold sampleP
  refine Prog.Picky.lift_bind fun anew _ => ?_
  refine Prog.Picky.bind (readSimpleP_picky h _ _ _ _ _) (fun v hv => ?_) fun v => ?_
  · obtain ⟨rc, arr, mem⟩ := v
    dsimp only at hv ⊢
    subst hv
    show (-1 : Int) ≠ 0
    decide
  · obtain ⟨rc, arr, mem⟩ := v
    dsimp only
    cases arr with
    | none => trivial
    | some a =>
      dsimp only
      split
      · trivial
      refine Prog.Picky.lift_bind fun q _ => ?_
      obtain ⟨rc', ptr⟩ := q
      dsimp only
      split
      · trivial
      refine Prog.Picky.bind (blockWriteP_picky hx _ _ _) (fun y hy => ?_) fun y => ?_
      · rw [if_pos hy]
        show (-1 : Int) ≠ 0
        decide
      · split <;> trivial

/-! ## What they return -/

theorem HandleOk.size {b : Block} (h : HandleOk env K bd b) : b.size = bd.size := h.shape.size

/-- Writing rows. -/
theorem write_fresh {b : Block} (hb : HandleOk env K bd b) (hk : dtypeNormalize env.m bd.dtype = K.dtype) {dt : CStr}
    (hdt : dtypeNormalize env.m dt = K.dtype) (hit : itemsize env.m dt = K.w) {off n : Nat} (hn : 0 < n) (hin : off + n ≤ bd.size)
    (hbytes : n * K.nm * K.w < 9223372036854775808) (buf : Int) (mem : Mem) (rows : Nat → List Byte)
    (hrow : ∀ i, i < n → arrayRow env K (freshArr env.m dt n K.nm K.w buf) mem K.w i = rows i) {q : Ptr} (hpt : PointsTo b q off) (w : World) :
    wpc (blockWrite env b q (freshArr env.m dt n K.nm K.w buf) mem) w
      (fun y w' => HandleOk env K bd y.bb ∧ (y.rc = 0 → ∀ i, i < n → row env.m w'.fs bd (off + i) = rows i)) (fun _ => True) := by
  have hx := hb.ok.fresh dt n K.w buf hn hit hb.ok.item0 hbytes
  have hrows : (freshArr env.m dt n K.nm K.w buf).size / K.nm = n := freshArr_rows _ _ _ _ _ _ hb.ok.memb0
  have hw : LegalWrite env b q (freshArr env.m dt n K.nm K.w buf) mem off K.w K.w K.nm
      (fun e => (toBlock env K (freshArr env.m dt n K.nm K.w buf) mem K.w e).getD []) := by
    refine ⟨hx, fun _ => freshArr_disjoint _ _ _ _ _ _, hpt, by rw [hrows, hb.size]; exact hin, fun e he => ?_⟩
    rw [hb.shape.dtype, hk]
    unfold toBlock
    show convElem env.m env.fo K.dtype (dtypeNormalize env.m dt) _ = some ((convElem env.m env.fo K.dtype (dtypeNormalize env.m dt) _).getD [])
    rw [hdt, convElem_same]
    rfl
  refine wpc_mono (hw.spec w) ?_ fun _ _ => trivial
  intro y w' d
  have hlen := fun i hi => hw.row_length i hi
  rw [hrows] at d hlen
  refine ⟨⟨⟨d.layout, by rw [d.shape.dtype]; exact hb.ok.item, hb.ok.item0, by rw [d.shape.nmemb]; exact hb.ok.memb, hb.ok.memb0, hb.ok.felInt,
    hb.ok.buf, hb.ok.bufMax, by rw [d.shape.fsize]; exact hb.ok.offs⟩, hb.shape.trans d.shape⟩, fun hrc i hi => ?_⟩
  obtain ⟨hfs, hfile, _⟩ := d.done hrc
  have := row_putRows_in env.m b w.fs off _ _ hlen hfile i hi
  rw [← hfs, hb.shape.row] at this
  rw [this]
  exact hrow i hi

/-- Copying a range, whatever fails. -/
theorem copyRange_may (hc : CopySide env K A bb bd B) (hk : dtypeNormalize env.m bd.dtype = K.dtype) (hbd : bd.size = B.size) (buf : Int)
    {o k : Nat} (hk0 : 0 < k) (ho : o + k ≤ A.size) : JobMay env K A A bb bd (copyRangeP env bb buf) (o, k) o k where
  picky := fun x h hx => copyRangeP_picky h buf o k x hx.ok
  rets := by
    intro w x hs hx
    have hbs := hs.size
    have hsm := hc.small
    have hsz := hc.size
    have hbytes : k * K.nm * K.w < 9223372036854775808 := by
      have q1 := hs.ok.offs
      have q2 := hs.ok.layout.size
      have q3 : k * (K.w * K.nm) ≤ bb.fsize.sum * (K.w * K.nm) := Nat.mul_le_mul_right _ (by omega)
      rw [Nat.mul_assoc, Nat.mul_comm K.nm]
      omega
    have hmin : min k (bb.size - o) = k := by omega
    unfold copyRangeP
    rw [i64_of_range (by omega) (by omega)]
    rw [show ∀ (p : Prog (Int × Option Arr × Mem)) (f : Int × Option Arr × Mem → Prog Worker), (p >>= f).interp = p.interp >>= fun a => (f a).interp from
      Prog.interp_bind, interp_readSimple, wpc_bind]
    refine wpc_mono (C58_read_simple_partial env bb K.w K.nm K.w none o k buf x.mem w
      (elemOfRows env.m w.fs bb o K.w K.nm) hs.ok hs.ok.item hs.ok.item0 (by omega) (by omega) (by rw [hmin]; exact hbytes)
      (fun _ => convertible_same _ _ _) (fun e _ _ => convElem_same _ _ _ _)) ?_ fun _ _ => trivial
    rintro ⟨rc, arr, mem1⟩ w1 r1
    rw [hmin] at r1
    by_cases hrc : rc = 0
    · obtain ⟨ha, _, hm⟩ := r1.done hrc
      simp only at ha
      subst ha
      dsimp only
      obtain ⟨q, hq, hpt⟩ := (seek_row hx.ok.layout o (by omega)).1 (by rw [hx.size]; omega)
      rw [hq]
      show wpc (Prog.bind (blockWriteP env x.bb q (freshArr env.m bb.dtype k K.nm K.w buf) mem1) _).interp w1 _ _
      rw [Prog.interp_bind, interp_blockWrite]
      show wpc (_ >>= _) w1 _ _
      rw [wpc_bind]
      refine wpc_mono (write_fresh hx hk hs.kind hs.ok.item hk0 (show o + k ≤ bd.size by omega) hbytes buf mem1
        (fun i => (A.rows (o + i)).getD []) (fun i hi => ?_) hpt w1) ?_ fun _ _ => trivial
      · obtain ⟨bytes, hb⟩ := Option.isSome_iff_exists.mp (hc.full (o + i) (by omega))
        rw [hb]
        exact chunk_row hs o k buf mem1 hm i hi bytes hb
      · rintro y w2 ⟨hy, hrows⟩
        split
        · exact ⟨hy, fun h => by cases h⟩
        · rename_i hrc
          exact ⟨hy, fun _ => hrows (by simpa using hrc)⟩
    · obtain ⟨_, ha⟩ := r1.failed hrc
      simp only at ha
      subst ha
      exact ⟨hx, fun h => by cases h⟩

/-- Sampling, whatever fails. -/
theorem sample_may {draw : Nat → Nat → Nat → Nat} {buf abuf : Int} {ws : List Work} (hc : SampleSide K A bb bd B draw buf abuf ws)
    (hk : dtypeNormalize env.m bd.dtype = K.dtype) (hbd : bd.size = B.size) {i k : Nat} {wk : Work} (hi : ws[i]? = some wk) :
    JobMay env K A (A.sampled draw B ws) bb bd (sampleJob env bb draw buf abuf ws) (wk.offsetnew, wk.nsel) i k := by
  have hw : wk ∈ ws := List.mem_of_getElem? hi
  obtain ⟨_, h1, h2, _, h3, _⟩ := hc.work.bounds.2.2 wk hw
  have h4 := hc.few wk hw
  have hjob : ∀ x, sampleJob env bb draw buf abuf ws i k x = sampleP env bb draw buf abuf wk x := by
    intro x
    unfold sampleJob
    rw [hi]
  refine ⟨fun w x hs hx => ?_, fun x h hx => by rw [hjob]; exact sampleP_picky h draw buf abuf wk x hx.ok⟩
  rw [hjob]
  have hbs := hs.size
  have hnm := hs.ok.memb0
  have hsm := hs.ok.layout.small
  have hls := hs.ok.layout.size
  have hsm' := hx.ok.layout.small
  have hls' := hx.ok.layout.size
  have hxs := hx.size
  have hbytesC : wk.chunksize * K.nm * K.w < 9223372036854775808 := by
    have q1 := hs.ok.offs
    have q3 : wk.chunksize * (K.w * K.nm) ≤ bb.fsize.sum * (K.w * K.nm) := Nat.mul_le_mul_right _ (by omega)
    rw [Nat.mul_assoc, Nat.mul_comm K.nm]
    omega
  have hbytesN : wk.nsel * K.nm * K.w < 9223372036854775808 := by
    have q3 : wk.nsel * K.nm * K.w ≤ wk.chunksize * K.nm * K.w := Nat.mul_le_mul_right _ (Nat.mul_le_mul_right _ h4)
    omega
  have hsize : min wk.chunksize (bb.size - wk.offset) = wk.chunksize := by omega
  have einit := hs.ok.freshInit bb.dtype wk.nsel K.w buf hs.ok.item hs.ok.item0 hbytesN
  have hstep : u64 (itemsize env.m bb.dtype * bb.nmemb) = K.nm * K.w := by
    have := hs.ok.felInt
    rw [hs.ok.item, hs.ok.memb, ← Int.natCast_mul, u64_of_nat (by omega), Nat.mul_comm]
  have hcount : (picksOf draw wk).length = wk.nsel := samplePicks_count _ (hc.fair _) _ _ _ h4
  obtain ⟨p1, _, _⟩ := samplePicks_range (draw wk.seed) wk.chunksize 0 wk.chunksize wk.nsel
  unfold sampleP
  rw [einit, hstep]
  show wpc (Prog.bind (readSimpleP env bb wk.offset wk.chunksize none abuf x.mem) _).interp w _ _
  rw [Prog.interp_bind, interp_readSimple]
  show wpc (_ >>= _) w _ _
  rw [wpc_bind]
  refine wpc_mono (C58_read_simple_partial env bb K.w K.nm K.w none wk.offset wk.chunksize abuf x.mem w
    (elemOfRows env.m w.fs bb wk.offset K.w K.nm) hs.ok hs.ok.item hs.ok.item0 (by omega) (by omega) (by rw [hsize]; exact hbytesC)
    (fun _ => convertible_same _ _ _) (fun e _ _ => convElem_same _ _ _ _)) ?_ fun _ _ => trivial
  rintro ⟨rc, arr, mem1⟩ w1 r1
  rw [hsize] at r1
  by_cases hrc : rc = 0
  · obtain ⟨ha, _, hm⟩ := r1.done hrc
    simp only at ha
    subst ha
    dsimp only
    rw [show (freshArr env.m (Option.getD none bb.dtype) wk.chunksize K.nm K.w abuf).data = abuf from rfl]
    obtain ⟨s1, _, s3⟩ := sampleSelect_spec (draw wk.seed) (K.nm * K.w) buf abuf wk.nsel wk.chunksize (hc.dis hw) wk.chunksize 0 wk.chunksize
      wk.nsel buf mem1 (by omega) (by omega) (by omega)
    rw [Nat.zero_mul, Int.natCast_zero, Int.add_zero] at s1 s3
    change (sampleSelect _ _ _ _ _ _ _ _ _).1 = wk.nsel - (picksOf draw wk).length at s1
    rw [hcount, Nat.sub_self] at s1
    generalize hmem2 : sampleSelect (draw wk.seed) (K.nm * K.w) wk.chunksize 0 wk.chunksize wk.nsel buf abuf mem1 = sel at s1 s3
    obtain ⟨left, mem2⟩ := sel
    simp only at s1 s3
    subst s1
    have s3 : ∀ j (hj : j < (picksOf draw wk).length), peek mem2 (buf + ((j * (K.nm * K.w) : Nat) : Int)) (K.nm * K.w) =
        peek mem1 (abuf + (((picksOf draw wk)[j] * (K.nm * K.w) : Nat) : Int)) (K.nm * K.w) := s3
    dsimp only
    rw [if_neg (fun h => h rfl)]
    have hrow : ∀ i, i < wk.nsel → arrayRow env K (freshArr env.m bb.dtype wk.nsel K.nm K.w buf) mem2 K.w i =
        ((A.sampled draw B ws).rows (wk.offsetnew + i)).getD [] := by
      intro i hi
      have hi' : i < (picksOf draw wk).length := by rw [hcount]; exact hi
      have hg : (picksOf draw wk).getD i 0 = (picksOf draw wk)[i] := by
        rw [List.getD_eq_getElem?_getD, List.getElem?_eq_getElem hi', Option.getD_some]
      have hlt : 0 ≤ (picksOf draw wk)[i] ∧ (picksOf draw wk)[i] < 0 + wk.chunksize := p1 _ (List.getElem_mem hi')
      obtain ⟨bytes, hb⟩ := Option.isSome_iff_exists.mp (hc.full (wk.offset + (picksOf draw wk).getD i 0) (by rw [hg]; omega))
      have hT : (A.sampled draw B ws).rows (wk.offsetnew + i) = some bytes := by
        unfold Content.sampled
        rw [worked_rows draw ws hc.work.apart wk hw (wk.offsetnew + i) (by omega), show wk.offsetnew + i - wk.offsetnew = i by omega]
        exact hb
      rw [hT, Option.getD_some]
      rw [hg] at hb
      rw [arrayRow_fresh bb.dtype hs.kind wk.nsel buf mem2 i hi, s3 i hi',
        ← arrayRow_fresh bb.dtype hs.kind wk.chunksize abuf mem1 ((picksOf draw wk)[i]) (by omega)]
      exact chunk_row hs wk.offset wk.chunksize abuf mem1 hm ((picksOf draw wk)[i]) (by omega) bytes hb
    obtain ⟨q, hq, hpt⟩ := (seek_row hx.ok.layout wk.offsetnew (by omega)).1 (by omega)
    rw [hq]
    show wpc (Prog.bind (blockWriteP env x.bb q (freshArr env.m bb.dtype wk.nsel K.nm K.w buf) mem2) _).interp w1 _ _
    by_cases hn0 : wk.nsel = 0
    · have e : blockWriteP env x.bb q (freshArr env.m bb.dtype wk.nsel K.nm K.w buf) mem2 = .ret ⟨0, x.bb, q, mem2⟩ := by
        unfold blockWriteP
        rw [if_pos (by show wk.nsel * K.nm = 0; rw [hn0, Nat.zero_mul])]
        rfl
      rw [e]
      refine ⟨hx, fun _ i hi => ?_⟩
      omega
    · rw [Prog.interp_bind, interp_blockWrite]
      show wpc (_ >>= _) w1 _ _
      rw [wpc_bind]
      refine wpc_mono (write_fresh hx hk hs.kind hs.ok.item (by omega) (show wk.offsetnew + wk.nsel ≤ bd.size by omega) hbytesN buf mem2 _
        hrow hpt w1) ?_ fun _ _ => trivial
      rintro y w2 ⟨hy, hrows⟩
      split
      · exact ⟨hy, fun h => by cases h⟩
      · rename_i hrc
        exact ⟨hy, fun _ => hrows (by simpa using hrc)⟩
  · obtain ⟨_, ha⟩ := r1.failed hrc
    simp only at ha
    subst ha
    exact ⟨hx, fun h => by cases h⟩

end Verif
