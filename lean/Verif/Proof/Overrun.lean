import Verif.Spec.Overrun
import Verif.Proof.Alike
import Verif.Proof.MpiWrite
import Verif.Proof.AggRead
/-!
# Collective transfers that run past the end of the block
-/

set_option autoImplicit false

namespace Verif

open Spec

/-- A segment that starts in the block and ends after it. -/
def Crossing (size p off tot : Nat) : Prop := p + off ≤ size ∧ size < p + off + tot

/-- Where a segment is written: if it starts after the end of the block, its leader cannot move there and
writes from the first row of the call on. -/
def landing (size p off : Nat) : Nat := if p + off ≤ size then p + off else p

section
variable {env : Env} {bb : Block} {w nm : Nat}

theorem blockWriteP_range {b : Block} {a : Arr} {sw : Nat} (h : XferOk env b a w sw nm) {ptr : Ptr} {p : Nat} (mem : Mem)
    (hp : PointsTo b ptr p) (hpe : p ≤ b.fsize.sum) (hpn : b.fsize.sum < p + a.size / nm) :
    blockWriteP env b ptr a mem = .ret ⟨-1, { b with dirty := true }, ptr, mem⟩ := by
  have hpos := h.arr.pos
  have has := h.asize
  have hsh : SameShape b { b with dirty := true } := ⟨rfl, rfl, rfl, rfl, rfl, rfl, rfl⟩
  have h' : XferOk env { b with dirty := true } a w sw nm := hsh.xferOk h h.layout.nck h.layout.ck32
  have hdl := Nat.div_le_self a.size nm
  obtain ⟨fo, hfo, hrange⟩ := range_check h.layout hp hpe (show a.size / nm < 9223372036854775808 by omega)
  have hfo' : ({ b with dirty := true } : Block).foffset[ptr.fileid]? = some fo := hfo
  have hnr : u64 (i64 ((fo : Int) + ptr.roffset + ((a.size / nm : Nat) : Int))) > b.size := by
    rw [hrange]; have := h.layout.size; omega
  unfold blockWriteP
  rw [if_neg (by omega)]
  dsimp only
  rw [h'.elemSizes]
  have hbi : ∃ x, arrayInit env.m 0 b.dtype [env.chunkBytes / (w * nm), u64 b.nmemb] none = some x := ⟨_, h'.bufInit⟩
  obtain ⟨x, hbi⟩ := hbi
  simp only [bind, Prog.lift, Prog.bind, hbi, hfo, h.rows_i64, if_pos hnr]
  rfl

/-- Moving a pointer past the end of the block: it stays. -/
theorem seekRel_beyond {b : Block} (hL : Layout b) {ptr : Ptr} {p off : Nat} (hp : PointsTo b ptr p)
    (h : b.size < p + off) (hs : p + off < 9223372036854775808) : seekRel b ptr (off : Int) = some (-1, ptr) := by
  have hsz := hL.size
  have hi : IsI64 ((p : Int) + (off : Int)) := ⟨by omega, by omega⟩
  rw [seekRel_spec b hL ptr p hp off hi]
  exact seek_out b hL ptr _ hi (Or.inr (by omega))

/-- Where the pointer of a leader goes. -/
theorem seek_landing {st : Rank} (hb : BlockOk env st.bb w nm) (hsh : SameShape bb st.bb) {p off : Nat}
    (hp : PointsTo bb st.ptr p) (hoff : p + off < 9223372036854775808) :
    ∃ rc ptr1, seekRel st.bb st.ptr (off : Int) = some (rc, ptr1) ∧ PointsTo st.bb ptr1 (landing bb.size p off) := by
  have hL := hb.layout
  unfold landing
  by_cases hin : p + off ≤ bb.size
  · obtain ⟨ptr1, h1, h2⟩ := seekRel_forward hL (hsh.pointsTo hp) (off := off) (by rw [hsh.size]; omega)
    exact ⟨0, ptr1, h1, by rw [if_pos hin]; exact h2⟩
  · exact ⟨-1, st.ptr, seekRel_beyond hL (hsh.pointsTo hp) (by rw [hsh.size]; omega) hoff,
      by rw [if_neg hin]; exact hsh.pointsTo hp⟩

/-- The leader of a segment, wherever it lies. -/
theorem leadWrite_over {F : Nat → Nat → Fault} (hF : NoCrash F) {n r : Nat} (hr : r < n) {E : Event → Prop}
    {st : Rank} (hb : BlockOk env st.bb w nm) (hsh : SameShape bb st.bb) {p off tot : Nat}
    (hp : PointsTo bb st.ptr p) (hpe : p ≤ bb.size) (hbytes : tot * nm * w < 9223372036854775808)
    (hoff : p + off < 9223372036854775808)
    (hE : ∀ op f, WriteIn env.m bb p (bb.size - p) op → E (.file r op f))
    (l : List (List Byte)) (hl : l.length = tot) (hlen : ∀ x ∈ l, x.length = w * nm)
    {s : Conf (Int × Rank)} {K : Int × Block → Prog (Int × Rank)}
    (hs : (s.thr r).prog = (leadWrite env st (off : Int) tot l.flatten).bind K) :
    ∃ s' e bb', Moves F n [r] E s s' ∧ (s'.thr r).prog = K (e, bb') ∧ SameShape bb bb' ∧ BlockOk env bb' w nm ∧
      (e = 0 → ¬ Crossing bb.size p off tot ∧ s'.nodes = putList env.m bb (landing bb.size p off) l s.nodes) := by
  have hL := hb.layout
  have hsz := hL.size
  have hw := hb.item0
  have hnm := hb.memb0
  have hg := hb.freshInit st.bb.dtype tot w 0 hb.item hw hbytes
  obtain ⟨rc, ptr1, hsk, hpt⟩ := seek_landing hb hsh hp hoff
  have hland : p ≤ landing bb.size p off ∧ landing bb.size p off ≤ bb.size := by
    unfold landing; split <;> omega
  rw [leadWrite_eq st off tot l.flatten hg hsk, Prog.bind_assoc] at hs
  by_cases hfit : landing bb.size p off + tot ≤ bb.size
  · obtain ⟨s', e, bb', h1, h2, h3, h4, _, h5, _⟩ := leadWrite_at hF hr hb hsh hpt hfit
      (fun op f _ hw => hE op f (hw.sub (by omega) (by omega))) l hl hlen hs
    refine ⟨s', e, bb', h1, h2, h3, h4, fun he => ⟨?_, (h5 he).2.1⟩⟩
    intro hc
    unfold landing at hfit
    rw [if_pos hc.1] at hfit
    exact absurd hc.2 (by omega)
  · have h0 : 0 < tot := by omega
    have hx : XferOk env st.bb (freshArr env.m st.bb.dtype tot nm w 0) w w nm :=
      hb.fresh st.bb.dtype tot w 0 h0 hb.item hw hbytes
    have hrows : (freshArr env.m st.bb.dtype tot nm w 0).size / nm = tot := freshArr_rows _ _ _ _ _ _ hnm
    rw [blockWriteP_range hx _ hpt (by rw [← hsz, hsh.size]; omega) (by rw [hrows, ← hsz, hsh.size]; omega)] at hs
    exact ⟨s, -1, _, Moves.refl _ _ _ _ _, hs, hsh.trans ⟨rfl, rfl, rfl, rfl, rfl, rfl, rfl⟩,
      hb.reshape ⟨rfl, rfl, rfl, rfl, rfl, rfl, rfl⟩ ⟨hL.nfile, hL.nck, hL.foff, hL.size, hL.small, hL.ck32⟩,
      fun h => absurd h (by decide)⟩

end

section
variable {env : Env} {bb : Block} {w nm n : Nat} {R : Nat → Rank} {p : Nat} {rows sw : Nat → Nat}
  {stored : Nat → Nat → List Byte}

theorem Spec.Overrun.rowBytes (h : Overrun env bb w nm n R p rows sw) {k : Nat} (hk : k ≤ rowsBefore rows n) :
    k * nm * w < 9223372036854775808 := by
  have h1 := Nat.mul_le_mul_right w (Nat.mul_le_mul_right nm hk)
  have := h.bytes
  omega

theorem Spec.OverrunWrite.stored_length (h : OverrunWrite env bb w nm n R p rows sw stored) {r : Nat} (hr : r < n)
    {e : Nat} (he : e < rows r * nm) : (stored r e).length = w := by
  have h0 : 0 < rows r := by
    rcases Nat.eq_zero_or_pos (rows r) with h0 | h0
    · rw [h0, Nat.zero_mul] at he; omega
    · exact h0
  have hx := h.arr r hr h0
  refine convElem_length env.m env.fo _ _ w (normalize_idem _ _) hx.anorm ?_ _ _ ?_ (h.conv r hr e he)
  · rw [itemsize_normalize, ← (h.shape r hr).dtype]; exact hx.item
  · rw [peek_length, hx.aitem]

theorem Spec.OverrunWrite.row_length (h : OverrunWrite env bb w nm n R p rows sw stored) {r : Nat} (hr : r < n) :
    ∀ x ∈ rankRows rows nm stored r, x.length = w * nm := by
  intro x hx
  obtain ⟨i, hi, rfl⟩ := List.mem_map.mp hx
  have hi := List.mem_range.mp hi
  unfold rowOfElems
  rw [flatN_length _ nm w, Nat.mul_comm]
  intro j hj
  apply h.stored_length hr
  have := Nat.mul_le_mul_right nm (show i + 1 ≤ rows r from hi)
  rw [Nat.add_mul] at this
  omega

theorem Spec.Overrun.elems (h : Overrun env bb w nm n R p rows sw) {r : Nat} (hr : r < n) :
    u64 ((rows r : Int) * (R r).bb.nmemb) = rows r * nm := by
  have hb := h.block r hr
  rw [hb.memb]
  have h1 := h.rowBytes (k := rows r) (by have := rows_le rows hr; omega)
  have h2 : rows r * nm ≤ rows r * nm * w := Nat.le_mul_of_pos_right _ hb.item0
  rw [show ((rows r : Int) * (nm : Int)) = ((rows r * nm : Nat) : Int) by simp]
  exact u64_of_nat (by omega)

theorem Spec.Overrun.elsize (h : Overrun env bb w nm n R p rows sw) {r : Nat} (hr : r < n) :
    aggElsize env (R r).bb = w * nm := by
  have hb := h.block r hr
  unfold aggElsize
  rw [hb.item, hb.memb]
  have := hb.felInt
  rw [show ((w : Int) * (nm : Int)) = ((w * nm : Nat) : Int) by simp]
  exact u64_of_nat (by omega)

theorem Spec.OverrunWrite.convert (h : OverrunWrite env bb w nm n R p rows sw stored) {r : Nat} (hr : r < n) :
    ∃ q, dtypeConvert env.m env.fo (iterInit env.m (freshArr env.m (R r).bb.dtype (rows r) nm w 0))
        (iterInit env.m (R r).arr) (u64 ((rows r : Int) * (R r).bb.nmemb)) env.junk (R r).mem = some q ∧
      peek q.dm 0 (rows r * aggElsize env (R r).bb) = (rankRows rows nm stored r).flatten ∧
      SourceAfter env.m (R r).arr (sw r) (R r).mem q.sm := by
  rw [h.toOverrun.elems hr, h.toOverrun.elsize hr]
  exact rank_convert (h.block r hr) (h.shape r hr).dtype (h.size r hr) (h.strides r hr) (h.arr r hr)
    (h.toOverrun.rowBytes (by have := rows_le rows hr; omega)) (h.dis r hr) (fun e he => h.stored_length hr he)
    (h.conv r hr)

/-- The events of a collective write that runs past the end. -/
def OverEvent (m : Machine) (bb : Block) (p : Nat) : Event → Prop
  | .coll _ => True
  | .file _ op _ => WriteIn m bb p (bb.size - p) op

theorem WriteIn.blind {m : Machine} {b : Block} {p k : Nat} {op : FOp} (h : WriteIn m b p k op) : op.Blind := by
  cases op with
  | fread path off len => exact h
  | fopen path mode => cases mode <;> exact h
  | fwrite path off bs => trivial

theorem OverEvent.blind {m : Machine} {b : Block} {p : Nat} {e : Event} (h : OverEvent m b p e) : e.Blind := by
  cases e with
  | coll c => trivial
  | file r op f => exact WriteIn.blind h

theorem run_blind {α : Type} {F : Nat → Nat → Fault} {n : Nat} {s s' : Conf α} {es : List Event} (h : Run F n s es s')
    (hb : ∀ e ∈ es, e.Blind) : SameFiles s.nodes s'.nodes := by
  induction h with
  | nil s => exact SameFiles.refl _
  | cons hs _ ih => exact (hs.files (hb _ (by simp))).trans (ih (fun e h => hb e (by simp [h])))

/-- What a process has after its segment was written although the whole does not fit. -/
structure OverDone (env : Env) (bb : Block) (w nm n : Nat) (R : Nat → Rank) (p : Nat) (rows : Nat → Nat) (P : SegPlan)
    (r : Nat) (st : Rank) : Prop where
  fits : ¬ Crossing bb.size p (segOff P n rows (P.G r) (P.S r)) (segRows P n (fun q => List.range (rows q)) (P.G r) (P.S r)).length
  shape : SameShape bb st.bb
  block : BlockOk env st.bb w nm
  ptr : st.ptr = (R r).ptr

/-- One segment. -/
theorem segAct_over (h : OverrunWrite env bb w nm n R p rows sw stored) {conc : Nat} {P : SegPlan}
    (hP : PlanOk n rows conc P) {F : Nat → Nat → Fault} (hF : NoCrash F) (nd0 : Nodes) :
    SegAct env true F n P rows R (OverEvent env.m bb p) (SameFiles nd0) (fun _ => False)
      (fun g c => putList env.m bb (landing bb.size p (segOff P n rows g c)) (segRows P n (rankRows rows nm stored) g c))
      (OverDone env bb w nm n R p rows P) := by
  intro g c s K hne hs hinv
  have hE : ∀ c, OverEvent env.m bb p (.coll c) := fun _ => trivial
  have hroot := hP.root g c hne
  let ms := P.seg n g c
  have hmem : ∀ r ∈ ms, r < n ∧ P.G r = g ∧ P.S r = c := fun r hr => SegPlan.mem_seg.mp hr
  have hlt : ∀ r ∈ ms, r < n := fun r hr => (hmem r hr).1
  let f := rankRows rows nm stored
  have hf : ∀ r, (f r).length = rows r := rankRows_length rows nm stored
  let off := segOff P n rows g c
  let l := segRows P n f g c
  have htot := seg_end (P := P) (n := n) hf hne
  have hcnt := h.count
  have hrow : ∀ r, r ∈ ms → rows r < 2147483648 := by
    intro r hr
    have := rows_le rows (hlt r hr)
    omega
  -- what everybody contributes
  have hconv : ∀ r, r ∈ ms → ∃ q, dtypeConvert env.m env.fo (iterInit env.m (freshArr env.m (R r).bb.dtype (rows r) nm w 0))
        (iterInit env.m (R r).arr) (u64 ((rows r : Int) * (R r).bb.nmemb)) env.junk (R r).mem = some q ∧
      peek q.dm 0 (rows r * aggElsize env (R r).bb) = (f r).flatten ∧
      SourceAfter env.m (R r).arr (sw r) (R r).mem q.sm := fun r hr => h.convert (hlt r hr)
  have hinit : ∀ r, r ∈ ms → arrayInit env.m 0 (R r).bb.dtype [rows r, u64 (R r).bb.nmemb] none =
      some (freshArr env.m (R r).bb.dtype (rows r) nm w 0) := by
    intro r hr
    have hb := h.block r (hlt r hr)
    exact hb.freshInit _ _ _ _ hb.item hb.item0
      (h.toOverrun.rowBytes (by have := rows_le rows (hlt r hr); omega))
  let mem' : Nat → Mem := fun r => match dtypeConvert env.m env.fo
      (iterInit env.m (freshArr env.m (R r).bb.dtype (rows r) nm w 0))
      (iterInit env.m (R r).arr) (u64 ((rows r : Int) * (R r).bb.nmemb)) env.junk (R r).mem with
    | some q => q.sm
    | none => (R r).mem
  have hmem' : ∀ r, r ∈ ms → SourceAfter env.m (R r).arr (sw r) (R r).mem (mem' r) := by
    intro r hr
    obtain ⟨q, h1, _, h3⟩ := hconv r hr
    simp only [mem', h1]
    exact h3
  let st : Nat → Rank := fun r => { R r with mem := mem' r }
  let cs : List Msg := ms.map (fun r => ({ num := ((rows r : Nat) : Int) } : Msg))
  have hcs : cs.map (·.num.toNat) = ms.map rows := by simp [cs]
  have hsum : (ms.map rows).sum = l.length := map_rows_sum ms rows nm stored
  obtain ⟨s1, hm1, hn1, _, hp1⟩ := coll_run F hE ⟨.allgather, .segment, ms⟩ hne (s := s)
    (fun r => { num := ((rows r : Nat) : Int) })
    (fun r cs => .coll ⟨.allreduce, .segment, ms⟩ { num := ((rows r : Nat) : Int) } fun _ =>
      (aggWriteMid env ms (P.root g c) r ((off : Nat) : Int) (st r) (f r).flatten cs).bind (K r))
    (fun r hr => ⟨hlt r hr, by
      rw [hs r hr]
      obtain ⟨q, h1, h2, _⟩ := hconv r hr
      show Prog.bind (aggWrite env ms (P.root g c) r _ (rows r) (R r)) (K r) = _
      rw [aggWrite_eq ms (P.root g c) r _ (rows r) (R r) (hrow r hr) (hinit r hr) h1, h2]
      have : st r = { R r with mem := q.sm } := by simp only [st, mem', h1]
      rw [this]
      rfl⟩)
  obtain ⟨s2, hm2, hn2, _, hp2⟩ := coll_run F hE ⟨.allreduce, .segment, ms⟩ hne (s := s1)
    (fun r => { num := ((rows r : Nat) : Int) })
    (fun r _ => (aggWriteMid env ms (P.root g c) r ((off : Nat) : Int) (st r) (f r).flatten cs).bind (K r))
    (fun r hr => ⟨hlt r hr, hp1 r hr⟩)
  obtain ⟨s3, hm3, hn3, _, hp3⟩ := coll_run F hE ⟨.gatherv, .segment, ms⟩ hne (s := s2)
    (fun r => { bytes := (f r).flatten })
    (fun r parts => (aggWriteTail env ms (P.root g c) r ((off : Nat) : Int) (st r) (ms.map rows) parts).bind (K r))
    (fun r hr => ⟨hlt r hr, by
      rw [hp2 r hr]
      unfold aggWriteMid
      rw [hcs, if_pos (by rw [hsum]; have : (segRows P n f g c).length = l.length := rfl; omega)]
      rfl⟩)
  simp only at hm1 hm2 hm3
  -- the leader
  let lead := P.leader n g c
  have hleadm : lead ∈ ms := SegPlan.leader_mem hroot
  have hel : ∀ r ∈ ms, aggElsize env bb = aggElsize env (R r).bb := fun r hr => by
    have hs := h.shape r (hlt r hr)
    unfold aggElsize
    rw [hs.dtype, hs.nmemb]
  have hparts : gathervBytes (aggElsize env (st lead).bb) (ms.map rows) (ms.map fun r => ({ bytes := (f r).flatten } : Msg)) =
      l.flatten := by
    rw [gathervBytes_eq _ rows (fun r => (f r).flatten) ms (fun r hr => by
      obtain ⟨q, _, h2, _⟩ := hconv r hr
      rw [peek_length_of h2, ← hel r hr]
      show _ = rows r * aggElsize env (R lead).bb
      rw [← hel lead hleadm])]
    exact flatten_flatMap ms f
  have hidx : ∀ r, r ∈ ms → (ms.idxOf r = P.root g c ↔ r = lead) := fun r hr => SegPlan.leader_iff hroot hr
  let KL : Int × Block → Prog (Int × Rank) := fun x =>
    Prog.bind (anyerrorP .segment ms lead x.1 (if x.1 ≠ 0 then some (st lead).fail else (st lead).err)) fun y =>
      K lead (y.1, { st lead with bb := x.2, err := y.2 })
  have hbl := h.block lead (hlt lead hleadm)
  have hsl := h.shape lead (hlt lead hleadm)
  obtain ⟨s4, e, bb', hm4, hp4, hsh', hbo', hok⟩ := leadWrite_over (env := env) (bb := bb) (w := w) (nm := nm) hF
    (hlt lead hleadm) (E := OverEvent env.m bb p) (st := st lead) hbl hsl (p := p) (off := off) (tot := l.length)
    (h.points lead (hlt lead hleadm)) h.inside
    (h.toOverrun.rowBytes (by have : off + l.length ≤ rowsBefore rows n := htot; omega))
    (by have : off + l.length ≤ rowsBefore rows n := htot
        have := h.small; omega)
    (fun op fl hw => hw)
    l rfl (by
      intro x hx
      obtain ⟨r, hr, hx⟩ := List.mem_flatMap.mp hx
      exact h.row_length (hlt r hr) x hx) (s := s3) (K := KL) (by
      rw [hp3 lead hleadm]
      unfold aggWriteTail
      rw [if_pos ((hidx lead hleadm).mpr rfl), hparts, hsum, Prog.bind_assoc]
      congr 1
      funext x
      simp only [KL]
      rw [Prog.bind_assoc]
      rfl)
  -- the exchange of errors
  let rt : Nat → Int := fun r => if r = lead then e else 0
  let err : Nat → Option CStr := fun r => if r = lead then (if e ≠ 0 then some (R r).fail else (R r).err) else (R r).err
  let bb1 : Nat → Block := fun r => if r = lead then bb' else (R r).bb
  obtain ⟨s5, hm5, hn5, _, hp5⟩ := anyerror_run F hE .segment ms hne SegPlan.seg_nodup rt err
    (fun r hr hrt => by
      by_cases hl : r = lead
      · simp only [rt, if_pos hl] at hrt
        simp only [err, if_pos hl, if_pos hrt]
        exact ⟨_, rfl⟩
      · simp only [rt, if_neg hl, ne_eq, not_true_eq_false] at hrt) (s := s4)
    (fun r y => K r (y.1, { st r with bb := bb1 r, err := y.2 }))
    (fun r hr => ⟨hlt r hr, by
      by_cases hl : r = lead
      · subst hl
        rw [hp4]
        simp only [KL, rt, err, bb1, if_true]
        rfl
      · rw [hm4.frame r (by simpa using hl), hp3 r hr]
        unfold aggWriteTail
        rw [if_neg (fun hc => hl ((hidx r hr).mp hc))]
        simp only [rt, err, bb1, if_neg hl]
        rw [Prog.bind_assoc]
        rfl⟩)
  have hmoves := (((hm1.trans hm2).trans hm3).trans (hm4.mono (by
    intro r hr; rw [List.mem_singleton.mp hr]; exact hleadm))).trans hm5
  refine ⟨s5, hmoves, fun k => ?_, ?_⟩
  · obtain ⟨es, hr, he⟩ := hmoves.run
    exact ((run_blind hr (fun e h => (he e h).blind)) k).trans (hinv k)
  have hnod : s3.nodes = s.nodes := by rw [hn3, hn2, hn1]
  by_cases he : e = 0
  · obtain ⟨_, hp5⟩ := hp5.resolve_right (by
      rintro ⟨r0, _, h0, _⟩
      apply h0
      simp only [rt, he]
      split <;> rfl)
    obtain ⟨h0, h1⟩ := hok he
    refine ⟨fun r => { st r with bb := bb1 r, err := err r }, Or.inl ⟨fun r hr => ⟨hp5 r hr, ?_⟩, by rw [hn5, h1, hnod]⟩⟩
    obtain ⟨hrn, hG, hS⟩ := hmem r hr
    refine ⟨?_, ?_, ?_, rfl⟩
    · rw [hG, hS]
      have e1 : (segRows P n (fun q => List.range (rows q)) g c).length = l.length :=
        segRows_length (fun r => by rw [hf]; simp) P n g c
      rw [e1]
      exact h0
    · simp only [bb1]; split
      · exact hsh'
      · exact h.shape r hrn
    · simp only [bb1]; split
      · exact hbo'
      · exact h.block r hrn
  · obtain ⟨r0, hr0, h0, hp5⟩ := hp5.resolve_left (by
      rintro ⟨hall, _⟩
      have := hall lead hleadm
      simp only [rt, if_true] at this
      exact he this)
    have hr0l : r0 = lead := by
      apply Classical.byContradiction
      intro hc
      simp only [rt, if_neg hc, ne_eq, not_true_eq_false] at h0
    subst hr0l
    refine ⟨fun r => { st r with bb := bb1 r, err := err lead }, Or.inr ⟨e, lead, he, hlt _ hleadm, fun h => h, fun r hr => ⟨?_, ?_⟩⟩⟩
    · rw [hp5 r hr]
      simp only [rt, if_true]
    · simp only [err, if_true, if_pos he]

/-- If the whole does not fit, some segment starts in the block and ends after it. -/
theorem crossing_exists (h : Overrun env bb w nm n R p rows sw) {conc : Nat} {P : SegPlan} (hP : PlanOk n rows conc P) :
    ∃ r, r < n ∧ Crossing bb.size p (segOff P n rows (P.G r) (P.S r))
      (segRows P n (fun q => List.range (rows q)) (P.G r) (P.S r)).length := by
  apply Classical.byContradiction
  intro hno
  have hall : ∀ g c, ¬ Crossing bb.size p (segOff P n rows g c) (segRows P n (fun q => List.range (rows q)) g c).length := by
    intro g c hc
    cases hs : P.seg n g c with
    | nil =>
      have := hc.2
      rw [segRows_empty hs] at this
      have := hc.1
      simp at *
      omega
    | cons r l =>
      obtain ⟨h1, h2, h3⟩ := SegPlan.mem_seg.mp (show r ∈ P.seg n g c by rw [hs]; simp)
      exact hno ⟨r, h1, by rw [h2, h3]; exact hc⟩
  have := hP.doGroups (act := fun q (l : List Nat) (x : Prop) => x ∧ ¬ (q ≤ bb.size ∧ bb.size < q + l.length))
    (f := fun q => List.range (rows q)) (by intro r; simp) (by intro q x; simp) (by
      intro q a b x
      apply propext
      rw [List.length_append]
      constructor
      · rintro ⟨h1, h2⟩; exact ⟨⟨h1, by omega⟩, by omega⟩
      · rintro ⟨⟨h1, h2⟩, h3⟩; exact ⟨h1, by omega⟩) p True
  have h2 := this.mp (doGroups_true (fun g c x hx => ⟨hx, hall g c⟩) P _ True trivial)
  apply h2.2
  rw [rowsBefore_length (f := fun q => List.range (rows q)) (rows := rows) (by intro r; simp) n]
  exact ⟨h.inside, h.over⟩

theorem allRefused_finished {s : Conf (Int × Rank)} (h : AllRefused n R s) : s.Finished n := by
  obtain ⟨rc, r0, _, _, hall⟩ := h
  intro r hr
  obtain ⟨st, h1, _⟩ := hall r hr
  exact ⟨_, h1⟩

/-- One run of a collective write that runs past the end. -/
theorem over_run (h : OverrunWrite env bb w nm n R p rows sw stored) (concurrency : Int) (threshold : Nat)
    (hc : concurrency < 2147483648) {F : Nat → Nat → Fault} (hF : NoCrash F) (fs : FS) :
    ∃ (es : List Event) (s : Conf (Int × Rank)), Run F n (startWrite env n concurrency threshold R fs) es s ∧
      (∀ e ∈ es, OverEvent env.m bb p e) ∧ AllRefused n R s := by
  let conc := useConc n concurrency
  have hconc : 0 < conc ∧ conc < 2147483648 := by
    have := h.procs
    simp only [conc, useConc]
    split
    · exact this
    · omega
  have hcnt := h.count
  obtain ⟨hP, hinfo⟩ := planOf_ok conc threshold n rows hconc.1 hconc.2 h.procs.2 (by omega)
  generalize hPe : planOf conc threshold ((List.range n).map rows) = P at hP hinfo
  let s0 := startWrite env n concurrency threshold R fs
  obtain ⟨s', hm, _, hout⟩ := throttle_run (F := F) (E := OverEvent env.m bb p) (fun _ => trivial)
    (segAct_over h hP hF fs.node)
    (by
      intro g c nd hs
      show putList env.m bb _ (segRows P n (rankRows rows nm stored) g c) nd = nd
      rw [segRows_empty hs, putList_nil])
    (by intro g c nd hh; exact hh)
    hP.range (concurrency := concurrency) (threshold := threshold) h.procs.1 h.dims hinfo
    (List.range (conc + 2)) List.nodup_range
    (by
      intro r hr
      apply List.mem_range.mpr
      rcases Nat.eq_zero_or_pos (rows r) with h0 | h0
      · rw [hP.empty r hr h0]; omega
      · have := hP.data r hr h0; omega)
    (fun r _ => ¬ Crossing bb.size p (segOff P n rows (P.G r) (P.S r)) (segRows P n (fun q => List.range (rows q)) (P.G r) (P.S r)).length)
    (by
      intro r st hr hd
      have hpt := h.points r hr
      rw [← hd.ptr] at hpt
      have hL := hd.block.layout
      exact ⟨_, _, seekRel_beyond hL (hd.shape.pointsTo hpt) (by rw [hd.shape.size]; exact h.over) h.small, hd.fits⟩)
    s0 (fun r _ => rfl) (SameFiles.refl _)
  obtain ⟨es, hrun, hev⟩ := hm.run
  refine ⟨es, s', hrun, hev, ?_⟩
  rcases hout with ⟨hall, _⟩ | ⟨_, e, r0, he, hr0, hall⟩
  · obtain ⟨r, hr, hcr⟩ := crossing_exists h.toOverrun hP
    obtain ⟨_, _, hno⟩ := hall r hr
    exact absurd hcr hno
  · exact ⟨e, r0, he, hr0, hall⟩

/-- Every run. -/
theorem over_runs (h : OverrunWrite env bb w nm n R p rows sw stored) (concurrency : Int) (threshold : Nat)
    (hc : concurrency < 2147483648) {F : Nat → Nat → Fault} (hF : NoCrash F) (fs : FS) :
    ∃ B, ∀ es s, Run F n (startWrite env n concurrency threshold R fs) es s → es.length ≤ B ∧
      RowsTouched env.m bb fs s.nodes p (bb.size - p) ∧ (s.Stuck F n → AllRefused n R s) := by
  obtain ⟨es0, s0, hrun, hev, hout⟩ := over_run h concurrency threshold hc hF fs
  refine ⟨es0.length, fun es s hr => ?_⟩
  obtain ⟨h1, h2, h3⟩ := hrun.unique_alike hF (allRefused_finished hout) (fun e he => (hev e he).blind) hr
  refine ⟨h1, ?_, fun hs => ?_⟩
  · have hrs : 0 < rowSize env.m bb := by
      have hb := h.block 0 h.procs.1
      have hs := h.shape 0 h.procs.1
      have := hb.dummy.rowSize
      have e : rowSize env.m bb = rowSize env.m (R 0).bb := by unfold rowSize; rw [hs.dtype, hs.nmemb]
      rw [e, this]
      exact Nat.mul_pos hb.item0 hb.memb0
    refine rowsTouched_run hr hrs ?_ ⟨fun _ _ _ => rfl, fun _ _ => rfl⟩
    intro e he r op fl hee
    have := hev e (h2 e he)
    rw [hee] at this
    exact this
  · unfold AllRefused
    rw [h3 hs]
    exact hout

end

section
variable {env : Env} {bb : Block} {w nm : Nat}

theorem blockReadP_range {b : Block} {a : Arr} {sw : Nat} (h : XferOk env b a w sw nm) {ptr : Ptr} {p : Nat} (mem : Mem)
    (hp : PointsTo b ptr p) (hpe : p ≤ b.fsize.sum) (hpn : b.fsize.sum < p + a.size / nm) :
    blockReadP env b ptr a mem = .ret ⟨-1, b, ptr, mem⟩ := by
  have hpos := h.arr.pos
  have has := h.asize
  have hdl := Nat.div_le_self a.size nm
  obtain ⟨fo, hfo, hrange⟩ := range_check h.layout hp hpe (show a.size / nm < 9223372036854775808 by omega)
  have hnr : u64 (i64 ((fo : Int) + ptr.roffset + ((a.size / nm : Nat) : Int))) > b.size := by
    rw [hrange]; have := h.layout.size; omega
  unfold blockReadP
  rw [h.elemSizes]
  have hbi : ∃ x, arrayInit env.m 0 b.dtype [env.chunkBytes / (w * nm), u64 b.nmemb] none = some x := ⟨_, h.bufInit⟩
  obtain ⟨x, hbi⟩ := hbi
  simp only [bind, Prog.lift, Prog.bind, hbi, hfo, h.rows_i64, if_pos hnr]
  rfl

/-- The leader of a segment, wherever it lies. -/
theorem leadRead_over {F : Nat → Nat → Fault} (hF : NoCrash F) {n r : Nat} (hr : r < n) {E : Event → Prop}
    {st : Rank} (hb : BlockOk env st.bb w nm) (hsh : SameShape bb st.bb) {p off tot : Nat}
    (hp : PointsTo bb st.ptr p) (hpe : p ≤ bb.size) (hbytes : tot * nm * w < 9223372036854775808)
    (hoff : p + off < 9223372036854775808)
    (hE : ∀ op f, ReadOnly op → E (.file r op f)) (hel : aggElsize env st.bb = w * nm) (fs : FS)
    {s : Conf (Int × Rank)} (hnod : s.nodes = fs.node) {K : Int × List Byte → Prog (Int × Rank)}
    (hs : (s.thr r).prog = (leadRead env st (off : Int) tot).bind K) :
    ∃ s' e bytes, Moves F n [r] E s s' ∧ s'.nodes = s.nodes ∧ (s'.thr r).prog = K (e, bytes) ∧
      bytes.length = tot * nm * w ∧ (e = 0 → ¬ Crossing bb.size p off tot) := by
  have hL := hb.layout
  have hsz := hL.size
  have hw := hb.item0
  have hnm := hb.memb0
  have hg := hb.freshInit st.bb.dtype tot w 0 hb.item hw hbytes
  obtain ⟨rc, ptr1, hsk, hpt⟩ := seek_landing hb hsh hp hoff
  have hland : p ≤ landing bb.size p off ∧ landing bb.size p off ≤ bb.size := by
    unfold landing; split <;> omega
  rw [leadRead_eq st off tot hg hsk, Prog.bind_assoc, hel, mul3 tot w nm] at hs
  by_cases hfit : landing bb.size p off + tot ≤ bb.size
  · obtain ⟨s', e, bytes, h1, h2, h3, h4, _, _⟩ := leadRead_at hF hr hb hsh hpt hfit hE fs hnod hs
    refine ⟨s', e, bytes, h1, h2, h3, h4, fun he hc => ?_⟩
    unfold landing at hfit
    rw [if_pos hc.1] at hfit
    exact absurd hc.2 (by omega)
  · have h0 : 0 < tot := by omega
    have hx : XferOk env st.bb (freshArr env.m st.bb.dtype tot nm w 0) w w nm :=
      hb.fresh st.bb.dtype tot w 0 h0 hb.item hw hbytes
    have hrows : (freshArr env.m st.bb.dtype tot nm w 0).size / nm = tot := freshArr_rows _ _ _ _ _ _ hnm
    rw [blockReadP_range hx _ hpt (by rw [← hsz, hsh.size]; omega) (by rw [hrows, ← hsz, hsh.size]; omega)] at hs
    exact ⟨s, -1, _, Moves.refl _ _ _ _ _, rfl, hs, peek_length _ _ _, fun h => absurd h (by decide)⟩

end

section
variable {env : Env} {bb : Block} {w nm n : Nat} {R : Nat → Rank} {p : Nat} {rows sw : Nat → Nat}

/-- One segment of a collective read that runs past the end. -/
theorem segAct_overread (h : OverrunRead env bb w nm n R p rows sw) {conc : Nat} {P : SegPlan}
    (hP : PlanOk n rows conc P) {F : Nat → Nat → Fault} (hF : NoCrash F) (fs : FS) :
    SegAct env false F n P rows R ReadEvent (fun nd => nd = fs.node) (fun _ => False) (fun _ _ nd => nd)
      (OverDone env bb w nm n R p rows P) := by
  intro g c s K hne hs hinv
  have hE : ∀ c, ReadEvent (.coll c) := fun _ => trivial
  have hroot := hP.root g c hne
  let ms := P.seg n g c
  have hmem : ∀ r ∈ ms, r < n ∧ P.G r = g ∧ P.S r = c := fun r hr => SegPlan.mem_seg.mp hr
  have hlt : ∀ r ∈ ms, r < n := fun r hr => (hmem r hr).1
  have hb0 : ∀ r ∈ ms, BlockOk env (R r).bb w nm := fun r hr => h.block r (hlt r hr)
  let off := segOff P n rows g c
  let tot := (ms.map rows).sum
  have hseg : (segRows P n (fun q => List.range (rows q)) g c).length = tot := by
    unfold segRows
    rw [List.length_flatMap]
    simp only [List.length_range]
    rfl
  have htot : off + tot ≤ rowsBefore rows n := by
    rw [← hseg]
    exact seg_end (P := P) (n := n) (f := fun q => List.range (rows q)) (by intro r; simp) hne
  have hcnt := h.count
  have hrow : ∀ r, r ∈ ms → rows r < 2147483648 := by
    intro r hr
    have := rows_le rows (hlt r hr)
    omega
  have hinit : ∀ r, r ∈ ms → arrayInit env.m 0 (R r).bb.dtype [rows r, u64 (R r).bb.nmemb] none =
      some (freshArr env.m (R r).bb.dtype (rows r) nm w 0) := by
    intro r hr
    have hb := h.block r (hlt r hr)
    exact hb.freshInit _ _ _ _ hb.item hb.item0
      (h.toOverrun.rowBytes (by have := rows_le rows (hlt r hr); omega))
  let larr : Nat → Arr := fun r => freshArr env.m (R r).bb.dtype (rows r) nm w 0
  let cs : List Msg := ms.map (fun r => ({ num := ((rows r : Nat) : Int) } : Msg))
  have hcs : cs.map (·.num.toNat) = ms.map rows := by simp [cs]
  obtain ⟨s1, hm1, hn1, _, hp1⟩ := coll_run F hE ⟨.allgather, .segment, ms⟩ hne (s := s)
    (fun r => { num := ((rows r : Nat) : Int) })
    (fun r cs => .coll ⟨.allreduce, .segment, ms⟩ { num := ((rows r : Nat) : Int) } fun _ =>
      (aggReadMid env ms (P.root g c) r ((off : Nat) : Int) (rows r) (R r) (larr r) cs).bind (K r))
    (fun r hr => ⟨hlt r hr, by
      rw [hs r hr]
      show Prog.bind (aggRead env ms (P.root g c) r _ (rows r) (R r)) (K r) = _
      rw [aggRead_eq ms (P.root g c) r _ (rows r) (R r) (hrow r hr) (hinit r hr)]
      rfl⟩)
  obtain ⟨s2, hm2, hn2, _, hp2⟩ := coll_run F hE ⟨.allreduce, .segment, ms⟩ hne (s := s1)
    (fun r => { num := ((rows r : Nat) : Int) })
    (fun r _ => (aggReadMid env ms (P.root g c) r ((off : Nat) : Int) (rows r) (R r) (larr r) cs).bind (K r))
    (fun r hr => ⟨hlt r hr, hp1 r hr⟩)
  simp only at hm1 hm2
  have hp2' : ∀ r ∈ ms, (s2.thr r).prog = Prog.bind
      (if ms.idxOf r = P.root g c then
        Prog.bind (leadRead env (R r) ((off : Nat) : Int) tot) fun x =>
          aggScatter env ms (P.root g c) r (rows r) (ms.map rows) (R r) (larr r) x.1 x.2
      else aggScatter env ms (P.root g c) r (rows r) (ms.map rows) (R r) (larr r) 0 []) (K r) := by
    intro r hr
    rw [hp2 r hr]
    unfold aggReadMid
    rw [hcs, if_pos (by show tot < _; omega)]
    rfl
  -- the leader
  let lead := P.leader n g c
  have hleadm : lead ∈ ms := SegPlan.leader_mem hroot
  have hidx : ∀ r, r ∈ ms → (ms.idxOf r = P.root g c ↔ r = lead) := fun r hr => SegPlan.leader_iff hroot hr
  have hbl := h.block lead (hlt lead hleadm)
  have hsl := h.shape lead (hlt lead hleadm)
  have hnod2 : s2.nodes = fs.node := by rw [hn2, hn1]; exact hinv
  obtain ⟨s3, e, gbytes, hm3, hn3, hp3, hglen, hok⟩ := leadRead_over (env := env) (bb := bb) (w := w) (nm := nm) hF
    (hlt lead hleadm) (E := ReadEvent) (st := R lead) hbl hsl (p := p) (off := off) (tot := tot)
    (h.points lead (hlt lead hleadm)) h.inside (h.toOverrun.rowBytes (by omega)) (by have := h.small; omega)
    (fun op f ho => ho) (h.toOverrun.elsize (hlt lead hleadm)) fs
    (s := s2) hnod2
    (K := fun x => (aggScatter env ms (P.root g c) lead (rows lead) (ms.map rows) (R lead) (larr lead) x.1 x.2).bind (K lead))
    (by rw [hp2' lead hleadm, if_pos ((hidx lead hleadm).mpr rfl), Prog.bind_assoc])
  let rt : Nat → Int := fun r => if r = lead then e else 0
  let v : Nat → Msg := fun r => if r = lead then { bytes := gbytes } else { bytes := [] }
  obtain ⟨s4, hm4, hn4, _, hp4⟩ := coll_run F hE ⟨.scatterv, .segment, ms⟩ hne (s := s3) v
    (fun r l => (aggScatterTail env ms (P.root g c) r (rows r) (ms.map rows) (R r) (larr r) (rt r) l).bind (K r))
    (fun r hr => ⟨hlt r hr, by
      by_cases hl : r = lead
      · subst hl
        rw [hp3]
        simp only [aggScatter_eq, v, rt, if_true]
        rfl
      · rw [hm3.frame r (by simpa using hl), hp2' r hr, if_neg (fun hc => hl ((hidx r hr).mp hc))]
        simp only [aggScatter_eq, v, rt, if_neg hl]
        rfl⟩)
  simp only at hm4
  -- what everybody receives
  have hroot' : ((ms.map v).getD (P.root g c) {}).bytes = gbytes := by
    have hlen : P.root g c < ms.length := hroot
    have : ms[P.root g c] = lead := by
      show (P.seg n g c)[P.root g c] = (P.seg n g c).getD (P.root g c) 0
      rw [List.getD_eq_getElem?_getD, List.getElem?_eq_getElem hroot]
      rfl
    rw [List.getD_eq_getElem?_getD, List.getElem?_map, List.getElem?_eq_getElem hlen, this]
    simp [v]
  let pre : Nat → Nat := fun r => ((ms.map rows).take (ms.idxOf r)).sum
  have hpre : ∀ r ∈ ms, pre r + rows r ≤ tot := by
    intro r hr
    have hi := List.idxOf_lt_length_of_mem hr
    have := take_sum_le (ms.map rows) (ms.idxOf r) (by simpa using hi)
    rw [List.getD_eq_getElem?_getD, List.getElem?_map, List.getElem?_eq_getElem hi, List.getElem_idxOf] at this
    exact this
  let mine : Nat → List Byte := fun r => (gbytes.drop (pre r * (w * nm))).take (rows r * (w * nm))
  have hmlen : ∀ r ∈ ms, (mine r).length = rows r * nm * w := by
    intro r hr
    have h1 := Nat.mul_le_mul_right (w * nm) (hpre r hr)
    rw [Nat.add_mul] at h1
    simp only [mine, List.length_take, List.length_drop, hglen, ← mul3]
    omega
  let outs : Nat → Nat → List Byte := fun r j => (convElem env.m env.fo (R r).arr.dtype (dtypeNormalize env.m bb.dtype)
      (((mine r).drop (j * w)).take w)).getD []
  have hconv : ∀ r, r ∈ ms → ∃ q, dtypeConvert env.m env.fo (iterInit env.m (R r).arr) (iterInit env.m (larr r))
        (u64 ((rows r : Int) * (R r).bb.nmemb)) (R r).mem (poke env.junk 0 (mine r)) = some q := by
    intro r hr
    have hrn := hlt r hr
    rw [h.toOverrun.elems hrn]
    obtain ⟨q, hq, _⟩ := rank_deliver (h.block r hrn) (h.shape r hrn).dtype (h.size r hrn) (h.strides r hrn) (h.arr r hrn)
      (h.toOverrun.rowBytes (by have := rows_le rows hrn; omega)) (h.sup r hrn) (mine r) (hmlen r hr) (outs r) (by
        intro j hj
        have hr0 : 0 < rows r := by
          rcases Nat.eq_zero_or_pos (rows r) with h0 | h0
          · rw [h0, Nat.zero_mul] at hj; omega
          · exact h0
        obtain ⟨o, ho⟩ := h.any r hrn hr0 (((mine r).drop (j * w)).take w) (by
          have h1 := Nat.mul_le_mul_right w (show j + 1 ≤ rows r * nm from hj)
          rw [Nat.add_mul] at h1
          rw [List.length_take, List.length_drop, hmlen r hr]
          omega)
        simp only [outs, ho, Option.getD_some])
    exact ⟨q, hq⟩
  let mem' : Nat → Mem := fun r => match dtypeConvert env.m env.fo (iterInit env.m (R r).arr) (iterInit env.m (larr r))
        (u64 ((rows r : Int) * (R r).bb.nmemb)) (R r).mem (poke env.junk 0 (mine r)) with
    | some q => q.dm
    | none => (R r).mem
  let err : Nat → Option CStr := fun r => if r = lead then (if e ≠ 0 then some (R r).fail else (R r).err) else (R r).err
  obtain ⟨s5, hm5, hn5, _, hp5⟩ := anyerror_run F hE .segment ms hne SegPlan.seg_nodup rt err
    (fun r hr hrt => by
      by_cases hl : r = lead
      · simp only [rt, if_pos hl] at hrt
        simp only [err, if_pos hl, if_pos hrt]
        exact ⟨_, rfl⟩
      · simp only [rt, if_neg hl, ne_eq, not_true_eq_false] at hrt) (s := s4)
    (fun r y => K r (y.1, { R r with mem := mem' r, err := y.2 }))
    (fun r hr => ⟨hlt r hr, by
      rw [hp4 r hr]
      obtain ⟨q, hq⟩ := hconv r hr
      have hm' : mem' r = q.dm := by simp only [mem', hq]
      have herr : err r = (if rt r ≠ 0 then some (R r).fail else (R r).err) := by
        simp only [err, rt]
        by_cases hl : r = lead
        · simp only [if_pos hl]
        · simp only [if_neg hl, ne_eq, not_true_eq_false, if_false]
      unfold aggScatterTail
      rw [hroot', h.toOverrun.elsize (hlt r hr), show dtypeConvert env.m env.fo (iterInit env.m (R r).arr) (iterInit env.m (larr r))
        (u64 ((rows r : Int) * (R r).bb.nmemb)) (R r).mem (poke env.junk 0 ((gbytes.drop
          (((ms.map rows).take (ms.idxOf r)).sum * (w * nm))).take (rows r * (w * nm)))) = some q from hq, hm', herr]
      show Prog.bind (Prog.bind (anyerrorP .segment ms r (rt r) _) _) (K r) = _
      rw [Prog.bind_assoc]
      rfl⟩)
  have hmoves := (((hm1.trans hm2).trans (hm3.mono (by
    intro r hr; rw [List.mem_singleton.mp hr]; exact hleadm))).trans hm4).trans hm5
  have hnodes : s5.nodes = s.nodes := by rw [hn5, hn4, hn3, hn2, hn1]
  refine ⟨s5, hmoves, by rw [hnodes]; exact hinv, ?_⟩
  by_cases he : e = 0
  · have herr : ∀ r, err r = (R r).err := by
      intro r
      simp only [err, he, ne_eq, not_true_eq_false, if_false]
      split <;> rfl
    obtain ⟨_, hp5⟩ := hp5.resolve_right (by
      rintro ⟨r0, _, h0, _⟩
      apply h0
      simp only [rt, he]
      split <;> rfl)
    refine ⟨fun r => { R r with mem := mem' r, err := err r }, Or.inl ⟨fun r hr => ⟨hp5 r hr, ?_⟩, hnodes⟩⟩
    obtain ⟨hrn, hG, hS⟩ := hmem r hr
    refine ⟨?_, h.shape r hrn, h.block r hrn, rfl⟩
    rw [hG, hS, hseg]
    exact hok he
  · obtain ⟨r0, hr0, h0, hp5⟩ := hp5.resolve_left (by
      rintro ⟨hall, _⟩
      have := hall lead hleadm
      simp only [rt, if_true] at this
      exact he this)
    have hr0l : r0 = lead := by
      apply Classical.byContradiction
      intro hc
      simp only [rt, if_neg hc, ne_eq, not_true_eq_false] at h0
    subst hr0l
    refine ⟨fun r => { R r with mem := mem' r, err := err lead }, Or.inr ⟨e, lead, he, hlt _ hleadm, fun hh => hh, fun r hr => ⟨?_, ?_⟩⟩⟩
    · rw [hp5 r hr]
      simp only [rt, if_true]
    · simp only [err, if_true, if_pos he]

/-- One run of a collective read that runs past the end. -/
theorem overread_run (h : OverrunRead env bb w nm n R p rows sw) (concurrency : Int) (threshold : Nat)
    (hc : concurrency < 2147483648) {F : Nat → Nat → Fault} (hF : NoCrash F) (fs : FS) :
    ∃ (es : List Event) (s : Conf (Int × Rank)), Run F n (startRead env n concurrency threshold R fs) es s ∧
      (∀ e ∈ es, ReadEvent e) ∧ AllRefused n R s := by
  let conc := useConc n concurrency
  have hconc : 0 < conc ∧ conc < 2147483648 := by
    have := h.procs
    simp only [conc, useConc]
    split
    · exact this
    · omega
  have hcnt := h.count
  obtain ⟨hP, hinfo⟩ := planOf_ok conc threshold n rows hconc.1 hconc.2 h.procs.2 (by omega)
  generalize hPe : planOf conc threshold ((List.range n).map rows) = P at hP hinfo
  obtain ⟨s', hm, _, hout⟩ := throttle_run (F := F) (E := ReadEvent) (fun _ => trivial)
    (segAct_overread h hP hF fs) (fun _ _ _ _ => rfl) (fun _ _ _ hh => hh)
    hP.range (concurrency := concurrency) (threshold := threshold) h.procs.1 h.dims hinfo
    (List.range (conc + 2)) List.nodup_range
    (by
      intro r hr
      apply List.mem_range.mpr
      rcases Nat.eq_zero_or_pos (rows r) with h0 | h0
      · rw [hP.empty r hr h0]; omega
      · have := hP.data r hr h0; omega)
    (fun r _ => ¬ Crossing bb.size p (segOff P n rows (P.G r) (P.S r)) (segRows P n (fun q => List.range (rows q)) (P.G r) (P.S r)).length)
    (by
      intro r st hr hd
      have hpt := h.points r hr
      rw [← hd.ptr] at hpt
      have hL := hd.block.layout
      exact ⟨_, _, seekRel_beyond hL (hd.shape.pointsTo hpt) (by rw [hd.shape.size]; exact h.over) h.small, hd.fits⟩)
    (startRead env n concurrency threshold R fs) (fun r _ => rfl) rfl
  obtain ⟨es, hrun, hev⟩ := hm.run
  refine ⟨es, s', hrun, hev, ?_⟩
  rcases hout with ⟨hall, _⟩ | ⟨_, e, r0, he, hr0, hall⟩
  · obtain ⟨r, hr, hcr⟩ := crossing_exists h.toOverrun hP
    obtain ⟨_, _, hno⟩ := hall r hr
    exact absurd hcr hno
  · exact ⟨e, r0, he, hr0, hall⟩

/-- Every run. -/
theorem overread_runs (h : OverrunRead env bb w nm n R p rows sw) (concurrency : Int) (threshold : Nat)
    (hc : concurrency < 2147483648) {F : Nat → Nat → Fault} (hF : NoCrash F) (fs : FS) :
    ∃ B, ∀ es s, Run F n (startRead env n concurrency threshold R fs) es s → es.length ≤ B ∧
      s.nodes = fs.node ∧ (s.Stuck F n → AllRefused n R s) := by
  obtain ⟨es0, s0, hrun, hev, hout⟩ := overread_run h concurrency threshold hc hF fs
  have hI : ∀ a ∈ es0, ∀ b ∈ es0, Indep a b := fun a ha b hb => (hev a ha).indep (hev b hb)
  refine ⟨es0.length, fun es s hr => ?_⟩
  obtain ⟨h1, h2⟩ := hrun.unique hF (allRefused_finished hout) hI hr
  refine ⟨h1, ?_, fun hs => by rw [h2 hs]; exact hout⟩
  obtain ⟨es', _, hp⟩ := hrun.confluent hF (allRefused_finished hout) hI hr
  exact readEvents_nodes hr (fun e he => hev e (hp.subset (by simp [he])))

end

end Verif
