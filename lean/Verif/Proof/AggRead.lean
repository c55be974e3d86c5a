import Verif.Proof.AggSeg
import Verif.Props.Conc
/-!
# One segment of a collective read
-/

set_option autoImplicit false

namespace Verif

open Spec

theorem mul3 (a b c : Nat) : a * (b * c) = a * c * b := by rw [Nat.mul_comm b c, Nat.mul_assoc]

section
variable {env : Env} {bb : Block} {w nm : Nat}

theorem leadRead_eq (st : Rank) (off : Int) (tot : Nat) {garr : Arr} {rc : Int} {ptr1 : Ptr}
    (hg : arrayInit env.m 0 st.bb.dtype [tot, u64 st.bb.nmemb] none = some garr)
    (hsk : seekRel st.bb st.ptr off = some (rc, ptr1)) :
    leadRead env st off tot =
      (blockReadP env st.bb ptr1 garr env.junk).bind fun x => .ret (x.rc, peek x.mem 0 (tot * aggElsize env st.bb)) := by
  unfold leadRead
  rw [hg, hsk]
  rfl

/-- The leader reads `tot` rows from row `q0` on. -/
theorem leadRead_at {F : Nat → Nat → Fault} (hF : NoCrash F) {n r : Nat} (hr : r < n) {E : Event → Prop}
    {st : Rank} (hb : BlockOk env st.bb w nm) (hsh : SameShape bb st.bb) {q0 tot : Nat} {ptr1 : Ptr}
    (hpt : PointsTo st.bb ptr1 q0) (hrange : q0 + tot ≤ bb.size)
    (hE : ∀ op f, ReadOnly op → E (.file r op f)) (fs : FS)
    {s : Conf (Int × Rank)} (hnod : s.nodes = fs.node) {K : Int × List Byte → Prog (Int × Rank)}
    (hs : (s.thr r).prog = (blockReadP env st.bb ptr1 (freshArr env.m st.bb.dtype tot nm w 0) env.junk).bind
      fun x => K (x.rc, peek x.mem 0 (tot * nm * w))) :
    ∃ s' e bytes, Moves F n [r] E s s' ∧ s'.nodes = s.nodes ∧ (s'.thr r).prog = K (e, bytes) ∧
      bytes.length = tot * nm * w ∧
      (e = 0 → (∀ i, i < tot → Stored env.m fs bb (q0 + i)) ∧
        ∀ e, e < tot * nm → (bytes.drop (e * w)).take w = elemOfRows env.m fs bb q0 w nm e) ∧
      (e ≠ 0 → ¬ (F r = noFaults ∧ ∀ i, i < tot → Stored env.m fs bb (q0 + i))) := by
  have hL := hb.layout
  have hsm := hL.small
  have hsz := hL.size
  have hoffs := hb.offs
  have hw := hb.item0
  have hnm := hb.memb0
  have hwnm := hb.felInt
  have hbytes : tot * nm * w < 9223372036854775808 := by
    have h1 := Nat.mul_le_mul_right (w * nm) (show tot ≤ st.bb.fsize.sum by rw [← hsz, hsh.size]; omega)
    have h2 : tot * nm * w = tot * (w * nm) := by rw [Nat.mul_assoc, Nat.mul_comm nm w]
    omega
  let garr := freshArr env.m st.bb.dtype tot nm w 0
  have hrows : garr.size / nm = tot := freshArr_rows _ _ _ _ _ _ hnm
  have hstored : ∀ q, Stored env.m fs st.bb q ↔ Stored env.m fs bb q := by
    intro q
    unfold Stored rowSize
    rw [hsh.row, hsh.dtype, hsh.nmemb]
  let wd : World := ⟨⟨s.nodes, fs.dom⟩, F r, (s.thr r).clock⟩
  have hwd : wd.fs = fs := by show (⟨s.nodes, fs.dom⟩ : FS) = fs; rw [hnod]
  have hread : ∃ x w', (blockReadP env st.bb ptr1 garr env.junk).interp wd = .ok x w' ∧ w'.fs = wd.fs ∧
      (x.rc = 0 → (∀ i, i < tot → Stored env.m fs bb (q0 + i)) ∧
        ∀ e, e < tot * nm → peek x.mem ((e * w : Nat) : Int) w = elemOfRows env.m fs bb (q0) w nm e) ∧
      (F r = noFaults → (∀ i, i < tot → Stored env.m fs bb (q0 + i)) → x.rc = 0) := by
    by_cases h0 : tot = 0
    · subst h0
      refine ⟨⟨0, st.bb, ptr1, env.junk⟩, wd, ?_, rfl, fun _ => ⟨by intro i hi; omega, by intro e he; omega⟩, fun _ _ => rfl⟩
      · rw [interp_blockRead]
        exact blockRead_empty hb garr (by simp [garr, freshArr]) ptr1 q0 hpt (by rw [hsh.size]; omega) env.junk wd
    · have hx : XferOk env st.bb garr w w nm := hb.fresh st.bb.dtype tot w 0 (by omega) hb.item hw hbytes
      have hlr : LegalRead env wd.fs st.bb ptr1 garr (q0) w w nm (elemOfRows env.m fs bb (q0) w nm) := by
        refine ⟨hx, hpt, by rw [hrows, hsh.size]; exact hrange, convertible_same _ _ _, ?_⟩
        intro e he _
        rw [hwd, ← hsh.elemOfRows]
        exact convElem_same _ _ _ _
      have hspec := hlr.spec (mem := env.junk)
      rw [← interp_blockRead] at hspec
      obtain ⟨x, w', hrun, hdone⟩ := wpc_returns' hspec (fun t m => hF r t m)
      refine ⟨x, w', hrun, hdone.fs, ?_, ?_⟩
      · intro hrc
        obtain ⟨h1, _, h3⟩ := hdone.done hrc
        rw [hrows] at h1 h3
        refine ⟨fun i hi => ?_, fun e he => ?_⟩
        · rw [← hstored, ← hwd]
          exact h1 i hi
        · have := h3 (freshArr_disjoint _ _ _ _ _ _) e he
          rw [Nat.zero_mul, Nat.zero_add, freshArr_addr _ _ _ _ _ _ _ he, Int.zero_add] at this
          exact this
      · intro hf hst
        apply hdone.succeeds hf
        intro i hi
        rw [hrows] at hi
        rw [hwd, hstored]
        exact hst i hi
  obtain ⟨x, w', hrun, hfs, hok, hgood⟩ := hread
  have hops := blockReadP_ops env st.bb ptr1 garr env.junk
  obtain ⟨_, es, hes, hev⟩ := run_alone (F := F) hr (s := s)
    (k := fun x => K (x.rc, peek x.mem 0 (tot * nm * w))) hrun hops
    (by show s.thr r = ⟨_, (s.thr r).clock⟩
        rw [show (blockReadP env st.bb ptr1 garr env.junk).bind (fun x => K (x.rc, peek x.mem 0 (tot * nm * w))) =
          (s.thr r).prog from hs.symm]) rfl rfl
  refine ⟨_, x.rc, peek x.mem 0 (tot * nm * w), ⟨⟨es, hes, ?_⟩, ?_⟩, ?_, ?_, peek_length _ _ _, ?_, ?_⟩
  · intro e he
    obtain ⟨op, t, rfl, ho⟩ := hev e he
    exact hE op _ ho
  · intro q hq
    simp only [List.mem_singleton] at hq
    simp [Conf.put, hq]
  · show w'.fs.node = _
    rw [hfs]
  · simp [Conf.put]
  · intro h0
    obtain ⟨h1, h2⟩ := hok h0
    refine ⟨h1, fun e he => ?_⟩
    rw [peek_drop_take, Int.zero_add]
    · exact h2 e he
    · have := Nat.mul_le_mul_right w (show e + 1 ≤ tot * nm from he)
      rw [Nat.add_mul] at this
      omega
  · intro hne ⟨h1, h2⟩
    exact hne (hgood h1 h2)

/-- The leader reads the rows of its segment. -/
theorem leadRead_run {F : Nat → Nat → Fault} (hF : NoCrash F) {n r : Nat} (hr : r < n) {E : Event → Prop}
    {st : Rank} (hb : BlockOk env st.bb w nm) (hsh : SameShape bb st.bb) {p off tot : Nat}
    (hp : PointsTo bb st.ptr p) (hrange : p + off + tot ≤ bb.size)
    (hE : ∀ op f, ReadOnly op → E (.file r op f))
    (hel : aggElsize env st.bb = w * nm) (fs : FS)
    {s : Conf (Int × Rank)} (hnod : s.nodes = fs.node) {K : Int × List Byte → Prog (Int × Rank)}
    (hs : (s.thr r).prog = (leadRead env st (off : Int) tot).bind K) :
    ∃ s' e bytes, Moves F n [r] E s s' ∧ s'.nodes = s.nodes ∧ (s'.thr r).prog = K (e, bytes) ∧
      bytes.length = tot * nm * w ∧
      (e = 0 → (∀ i, i < tot → Stored env.m fs bb (p + off + i)) ∧
        ∀ e, e < tot * nm → (bytes.drop (e * w)).take w = elemOfRows env.m fs bb (p + off) w nm e) ∧
      (e ≠ 0 → ¬ (F r = noFaults ∧ ∀ i, i < tot → Stored env.m fs bb (p + off + i))) := by
  have hL := hb.layout
  have hsm := hL.small
  have hsz := hL.size
  have hoffs := hb.offs
  have hbytes : tot * nm * w < 9223372036854775808 := by
    have h1 := Nat.mul_le_mul_right (w * nm) (show tot ≤ st.bb.fsize.sum by rw [← hsz, hsh.size]; omega)
    have h2 : tot * nm * w = tot * (w * nm) := by rw [Nat.mul_assoc, Nat.mul_comm nm w]
    omega
  have hg := hb.freshInit st.bb.dtype tot w 0 hb.item hb.item0 hbytes
  obtain ⟨ptr1, hsk, hpt⟩ := seekRel_forward hL (hsh.pointsTo hp) (off := off) (by rw [hsh.size]; omega)
  rw [leadRead_eq st off tot hg hsk, Prog.bind_assoc, hel, mul3 tot w nm] at hs
  exact leadRead_at hF hr hb hsh hpt hrange hE fs hnod hs

end

section
variable {env : Env} {bb : Block} {w nm n : Nat} {R : Nat → Rank} {p : Nat} {rows sw : Nat → Nat}

/-- A process converts the bytes it received into its array. -/
theorem rank_deliver {st : Rank} {rw' sw' : Nat} (hb : BlockOk env st.bb w nm) (hdt : st.bb.dtype = bb.dtype)
    (hsz : st.arr.size = rw' * nm) (hstr : st.arr.strides ≠ []) (harr : 0 < rw' → XferOk env st.bb st.arr w sw' nm)
    (hby : rw' * nm * w < 9223372036854775808)
    (hsup : 0 < rw' → convertible env.m env.fo st.arr.dtype (dtypeNormalize env.m bb.dtype) = true)
    (bytes : List Byte) (hl : bytes.length = rw' * nm * w) (out : Nat → List Byte)
    (hc : ∀ e, e < rw' * nm → convElem env.m env.fo st.arr.dtype (dtypeNormalize env.m bb.dtype)
      ((bytes.drop (e * w)).take w) = some (out e)) :
    ∃ q, dtypeConvert env.m env.fo (iterInit env.m st.arr)
        (iterInit env.m (freshArr env.m st.bb.dtype rw' nm w 0))
        (rw' * nm) st.mem (poke env.junk 0 bytes) = some q ∧
      (Disjoint st.arr sw' → ∀ e, e < rw' * nm → peek q.dm (elemAddr st.arr e) sw' = out e) ∧
      (∀ y, ¬ InElems st.arr sw' 0 st.arr.size y → q.dm y = st.mem y) := by
  rcases Nat.eq_zero_or_pos rw' with h0 | h0
  · rw [h0, Nat.zero_mul]
    obtain ⟨q, hq, h1, _⟩ := dtypeConvert_none env.m env.fo (iterInit env.m st.arr)
      (iterInit env.m (freshArr env.m st.bb.dtype 0 nm w 0)) st.mem (poke env.junk 0 bytes)
      hstr (by simp [iterInit, freshArr])
    exact ⟨q, hq, fun _ e he => absurd he (Nat.not_lt_zero e), fun y _ => by rw [h1]⟩
  · have hx := harr h0
    have hf := hb.fresh st.bb.dtype rw' w 0 h0 hb.item hb.item0 hby
    have hco : ConvOk env.m env.fo st.arr (freshArr env.m st.bb.dtype rw' nm w 0) sw' w 0 0 (rw' * nm) := by
      refine convOk_of env.m env.fo _ _ sw' w 0 0 _ hx.arr hf.arr hx.anorm hf.anorm hx.aitem hf.aitem hx.aitem0
        (by omega) (by simp [freshArr]) (by rw [← hsz]; exact hx.abytes) ?_
      show convertible _ _ _ (dtypeNormalize env.m st.bb.dtype) = true
      rw [hdt]
      exact hsup h0
    have hpk : ∀ e, e < rw' * nm → peek (poke env.junk 0 bytes)
        (elemAddr (freshArr env.m st.bb.dtype rw' nm w 0) e) w = (bytes.drop (e * w)).take w := by
      intro e he
      rw [freshArr_addr _ _ _ _ _ _ _ he]
      apply peek_poke_sub
      have := Nat.mul_le_mul_right w (show e + 1 ≤ rw' * nm from he)
      rw [Nat.add_mul] at this
      omega
    obtain ⟨dm, sm, h1, h2, h3, _, _⟩ := dtypeConvert_spec env.m env.fo _ _ st.mem (poke env.junk 0 bytes) w sw'
      (rw' * nm) 0 0 out hco (fun _ => freshArr_disjoint _ _ _ _ _ _) (fun e he => by
        rw [Nat.zero_add, hpk e he]
        have hce := hc e he
        have hce' : convElem env.m env.fo st.arr.dtype (dtypeNormalize env.m st.bb.dtype)
            ((bytes.drop (e * w)).take w) = some (out e) := by rw [hdt]; exact hce
        refine ⟨convElem_length env.m env.fo _ _ sw' hx.anorm (normalize_idem _ _) hx.aitem _ _ ?_ hce, hce'⟩
        rw [itemsize_normalize, ← hdt, hb.item, ← hpk e he, peek_length])
    refine ⟨_, by rw [iterInit_eq, iterInit_eq]; exact h1, ?_, ?_⟩
    · intro hd e he
      have := h3 hd e he
      rw [Nat.zero_add] at this
      exact this
    · intro y hy
      apply h2
      rw [← hsz]
      exact hy

/-- A process converts the bytes it received into its array. -/
theorem Spec.Collective.deliver (h : Collective env bb w nm n R p rows sw) {r : Nat} (hr : r < n)
    (hsup : 0 < rows r → convertible env.m env.fo (R r).arr.dtype (dtypeNormalize env.m bb.dtype) = true)
    (bytes : List Byte) (hl : bytes.length = rows r * nm * w) (out : Nat → List Byte)
    (hc : ∀ e, e < rows r * nm → convElem env.m env.fo (R r).arr.dtype (dtypeNormalize env.m bb.dtype)
      ((bytes.drop (e * w)).take w) = some (out e)) :
    ∃ q, dtypeConvert env.m env.fo (iterInit env.m (R r).arr)
        (iterInit env.m (freshArr env.m (R r).bb.dtype (rows r) nm w 0))
        (u64 ((rows r : Int) * (R r).bb.nmemb)) (R r).mem (poke env.junk 0 bytes) = some q ∧
      (Disjoint (R r).arr (sw r) → ∀ e, e < rows r * nm → peek q.dm (elemAddr (R r).arr e) (sw r) = out e) ∧
      (∀ y, ¬ InElems (R r).arr (sw r) 0 (R r).arr.size y → q.dm y = (R r).mem y) := by
  rw [h.elems hr]
  exact rank_deliver (h.block r hr) (h.shape r hr).dtype (h.size r hr) (h.strides r hr) (h.arr r hr)
    (h.bytes hr (by have := rows_le rows hr; omega)) hsup bytes hl out hc

end

/-! ## Where the rows of a process lie in its segment -/

theorem filter_take_idx (q : Nat → Bool) (n r : Nat) (hr : r < n) (hq : q r = true) :
    ((List.range n).filter q).take (((List.range n).filter q).idxOf r) = (List.range r).filter q := by
  have e : List.range n = List.range r ++ r :: (List.range (n - r - 1)).map (fun i => r + 1 + i) := by
    rw [show n = r + (1 + (n - r - 1)) by omega, List.range_add, List.range_add]
    simp [Function.comp_def, Nat.add_assoc]
  rw [e, List.filter_append, List.filter_cons_of_pos hq]
  have hni : r ∉ (List.range r).filter q := by simp
  rw [List.idxOf_append, if_neg hni, List.idxOf_cons_self, Nat.zero_add, List.take_left']
  rfl

section
variable {n : Nat} {rows : Nat → Nat} {conc : Nat} {P : SegPlan}

theorem SegPlan.seg_filter (P : SegPlan) (n g c : Nat) :
    P.seg n g c = (List.range n).filter (fun r => decide (P.G r = g ∧ P.S r = c)) := by
  unfold SegPlan.seg SegPlan.group
  rw [List.filter_filter]
  apply List.filter_congr
  intro r _
  by_cases h1 : P.G r = g <;> by_cases h2 : P.S r = c <;> simp [h1, h2]

/-- The rows of a process in the buffer of its segment. -/
theorem PlanOk.seg_pos (h : PlanOk n rows conc P) {g c r : Nat} (hr : r ∈ P.seg n g c) (h0 : 0 < rows r) :
    segOff P n rows g c + (((P.seg n g c).map rows).take ((P.seg n g c).idxOf r)).sum = rowsBefore rows r := by
  obtain ⟨hrn, hG, hS⟩ := SegPlan.mem_seg.mp hr
  unfold segOff
  cases hs : P.seg n g c with
  | nil => rw [hs] at hr; simp at hr
  | cons r0 l =>
    rw [← hs, List.headD_eq_head?_getD, hs, List.head?_cons, ← hs]
    simp only [Option.getD_some]
    have hm0 : r0 ∈ P.seg n g c := by rw [hs]; simp
    obtain ⟨hr0n, hG0, hS0⟩ := SegPlan.mem_seg.mp hm0
    have h00 : 0 < rows r0 := by
      rcases Nat.eq_zero_or_pos (rows r0) with hz | hz
      · have h1 := h.empty r0 hr0n hz
        have h2 := h.data r hrn h0
        omega
      · exact hz
    let q : Nat → Bool := fun r => decide (P.G r = g ∧ P.S r = c)
    have hfirst : ∀ k, k < r0 → q k = false := by
      intro k hk
      apply Classical.byContradiction
      intro hc
      have hc : q k = true := by simpa using hc
      rw [P.seg_filter] at hs
      have hmem : k ∈ (List.range n).filter q := List.mem_filter.mpr ⟨List.mem_range.mpr (by omega), hc⟩
      have hsort : ((List.range n).filter q).Pairwise (· < ·) := List.Pairwise.filter _ List.pairwise_lt_range
      rw [show (List.range n).filter q = r0 :: l from hs] at hmem hsort
      rcases List.mem_cons.mp hmem with h1 | h1
      · omega
      · have := (List.pairwise_cons.mp hsort).1 k h1
        omega
    have hmid : ∀ k, r0 ≤ k → k ≤ r → 0 < rows k → q k = true := by
      intro k h1 h2 hk
      have hkn : k < n := by omega
      have e1 := h.order r0 k h1 hkn h00 hk
      have e2 := h.order k r h2 hrn hk h0
      have e3 : P.S r = P.S k := by omega
      have e4 := h.same_seg hrn hkn h0 hk e3
      simp only [q, decide_eq_true_eq]
      omega
    rw [← List.map_take, P.seg_filter, filter_take_idx _ n r hrn (by simp [hG, hS])]
    have hr0r : r0 ≤ r := by
      apply Classical.byContradiction
      intro hc
      have := hfirst r (by omega)
      simp [q, hG, hS] at this
    have key : ∀ k, (k ≤ r0 → (((List.range k).filter q).map rows).sum = 0) ∧
        (r0 ≤ k → k ≤ r → rowsBefore rows r0 + (((List.range k).filter q).map rows).sum = rowsBefore rows k) := by
      intro k
      induction k with
      | zero =>
        refine ⟨fun _ => rfl, fun h1 _ => ?_⟩
        have : r0 = 0 := by omega
        subst this
        rfl
      | succ k ih =>
        rw [List.range_succ, List.filter_append, List.map_append, List.sum_append, rowsBefore_succ]
        refine ⟨fun hk => ?_, fun h1 h2 => ?_⟩
        · rw [ih.1 (by omega)]
          simp [hfirst k (by omega)]
        · by_cases hk : r0 ≤ k
          · have := ih.2 hk (by omega)
            by_cases hq : q k = true
            · simp [hq]
              omega
            · have hz : rows k = 0 := by
                apply Classical.byContradiction
                intro hz
                exact hq (hmid k hk (by omega) (by omega))
              simp [hq, hz]
              omega
          · have e : r0 = k + 1 := by omega
            subst e
            rw [ih.1 (by omega)]
            simp [hfirst k (by omega), rowsBefore_succ]
    exact (key r).2 hr0r (Nat.le_refl r)

theorem take_sum_le (l : List Nat) : ∀ (i : Nat), i < l.length → (l.take i).sum + l.getD i 0 ≤ l.sum := by
  induction l with
  | nil => intro i hi; simp at hi
  | cons a l ih =>
    intro i hi
    cases i with
    | zero => simp
    | succ i =>
      have := ih i (by simpa using hi)
      simp only [List.take_succ_cons, List.sum_cons, List.getD_cons_succ]
      omega

end

section
variable {env : Env} {fs : FS} {bb : Block} {w nm n : Nat} {R : Nat → Rank} {p : Nat} {rows sw : Nat → Nat}
  {out : Nat → Nat → List Byte}

/-- What a process has after its segment was read. -/
structure SegRead (env : Env) (fs : FS) (bb : Block) (nm : Nat) (R : Nat → Rank) (p : Nat) (rows sw : Nat → Nat)
    (out : Nat → Nat → List Byte) (r : Nat) (st : Rank) : Prop where
  stored : ∀ i, i < rows r → Stored env.m fs bb (p + rowsBefore rows r + i)
  same : st = { R r with mem := st.mem }
  elems : ∀ e, e < rows r * nm → peek st.mem (elemAddr (R r).arr e) (sw r) = out r e
  frame : ∀ y, ¬ InElems (R r).arr (sw r) 0 (R r).arr.size y → st.mem y = (R r).mem y

/-- The events of a collective read. -/
def ReadEvent : Event → Prop
  | .coll _ => True
  | .file _ op _ => ReadOnly op

/-- The middle of `aggRead`. -/
def aggReadMid (env : Env) (ms : List Nat) (root me : Nat) (offset : Int) (localsize : Nat) (st : Rank) (larr : Arr)
    (cs : List Msg) : Prog (Int × Rank) :=
  Prog.bind (Prog.lift (if (cs.map (·.num.toNat)).sum < 2147483648 then some () else none)) fun _ =>
    if ms.idxOf me = root then
      Prog.bind (leadRead env st offset (cs.map (·.num.toNat)).sum) fun x =>
        aggScatter env ms root me localsize (cs.map (·.num.toNat)) st larr x.1 x.2
    else aggScatter env ms root me localsize (cs.map (·.num.toNat)) st larr 0 []

/-- The end of `aggScatter`. -/
def aggScatterTail (env : Env) (ms : List Nat) (root me : Nat) (localsize : Nat) (counts : List Nat) (st : Rank)
    (larr : Arr) (e : Int) (l : List Msg) : Prog (Int × Rank) :=
  Prog.bind (Prog.lift (dtypeConvert env.m env.fo (iterInit env.m st.arr) (iterInit env.m larr)
    (u64 (localsize * st.bb.nmemb)) st.mem (poke env.junk 0
      ((((l.getD root {}).bytes).drop ((counts.take (ms.idxOf me)).sum * aggElsize env st.bb)).take
        (localsize * aggElsize env st.bb))))) fun r =>
    Prog.bind (anyerrorP .segment ms me e (if e ≠ 0 then some st.fail else st.err)) fun y =>
      .ret (y.1, { st with mem := r.dm, err := y.2 })

theorem aggScatter_eq (ms : List Nat) (root me : Nat) (localsize : Nat) (counts : List Nat) (st : Rank)
    (larr : Arr) (e : Int) (gbytes : List Byte) :
    aggScatter env ms root me localsize counts st larr e gbytes =
      .coll ⟨.scatterv, .segment, ms⟩ { bytes := gbytes } (aggScatterTail env ms root me localsize counts st larr e) := rfl

theorem aggRead_eq (ms : List Nat) (root me : Nat) (offset : Int) (localsize : Nat) (st : Rank) {larr : Arr}
    (hl : localsize < 2147483648)
    (ha : arrayInit env.m 0 st.bb.dtype [localsize, u64 st.bb.nmemb] none = some larr) :
    aggRead env ms root me offset localsize st =
      .coll ⟨.allgather, .segment, ms⟩ { num := localsize } fun cs =>
        .coll ⟨.allreduce, .segment, ms⟩ { num := localsize } fun _ =>
          aggReadMid env ms root me offset localsize st larr cs := by
  unfold aggRead aggCounts
  rw [if_pos hl, ha]
  show Prog.coll _ _ _ = _
  congr 1
  funext cs
  show Prog.coll _ _ _ = _
  congr 1
  funext _
  show Prog.bind (Prog.bind (Prog.lift (if (cs.map (·.num.toNat)).sum < 2147483648 then some () else none)) _) _ =
    Prog.bind (Prog.lift (if (cs.map (·.num.toNat)).sum < 2147483648 then some () else none)) _
  by_cases hc : (cs.map (·.num.toNat)).sum < 2147483648
  · rw [if_pos hc]
    rfl
  · rw [if_neg hc]
    rfl

/-- One segment of a collective read. -/
theorem segAct_read (h : CollectiveRead env fs bb w nm n R p rows sw out) {conc : Nat} {P : SegPlan}
    (hP : PlanOk n rows conc P) {F : Nat → Nat → Fault} (hF : NoCrash F)
    (hT : ((∀ r, r < n → F r = noFaults) ∧ ∀ i, i < rowsBefore rows n → Stored env.m fs bb (p + i)) ∨
      ConvertsAny env bb w n R rows) :
    SegAct env false F n P rows R ReadEvent (fun nd => nd = fs.node)
      (fun _ => (∀ r, r < n → F r = noFaults) ∧ ∀ i, i < rowsBefore rows n → Stored env.m fs bb (p + i))
      (fun _ _ nd => nd)
      (SegRead env fs bb nm R p rows sw out) := by
  intro g c s K hne hs hinv
  have hE : ∀ c, ReadEvent (.coll c) := fun _ => trivial
  have hroot := hP.root g c hne
  let ms := P.seg n g c
  have hmem : ∀ r ∈ ms, r < n ∧ P.G r = g ∧ P.S r = c := fun r hr => SegPlan.mem_seg.mp hr
  have hlt : ∀ r ∈ ms, r < n := fun r hr => (hmem r hr).1
  have hb0 : ∀ r ∈ ms, BlockOk env (R r).bb w nm := fun r hr => h.block r (hlt r hr)
  let off := segOff P n rows g c
  let tot := (ms.map rows).sum
  have hseg : (segRows P n (fun q => List.range (rows q)) g c).length = tot := by
    unfold segRows
    rw [List.length_flatMap]
    simp only [List.length_range]
    rfl
  have htot : off + tot ≤ rowsBefore rows n := by
    rw [← hseg]
    exact seg_end (P := P) (n := n) (f := fun q => List.range (rows q)) (by intro r; simp) hne
  have hcnt := h.count
  have hrange := h.range
  have hrow : ∀ r, r ∈ ms → rows r < 2147483648 := by
    intro r hr
    have := rows_le rows (hlt r hr)
    omega
  have hinit : ∀ r, r ∈ ms → arrayInit env.m 0 (R r).bb.dtype [rows r, u64 (R r).bb.nmemb] none =
      some (freshArr env.m (R r).bb.dtype (rows r) nm w 0) := by
    intro r hr
    have hb := h.block r (hlt r hr)
    exact hb.freshInit _ _ _ _ hb.item hb.item0
      (h.toCollective.bytes (hlt r hr) (by have := rows_le rows (hlt r hr); omega))
  let larr : Nat → Arr := fun r => freshArr env.m (R r).bb.dtype (rows r) nm w 0
  let cs : List Msg := ms.map (fun r => ({ num := ((rows r : Nat) : Int) } : Msg))
  have hcs : cs.map (·.num.toNat) = ms.map rows := by simp [cs]
  obtain ⟨s1, hm1, hn1, _, hp1⟩ := coll_run F hE ⟨.allgather, .segment, ms⟩ hne (s := s)
    (fun r => { num := ((rows r : Nat) : Int) })
    (fun r cs => .coll ⟨.allreduce, .segment, ms⟩ { num := ((rows r : Nat) : Int) } fun _ =>
      (aggReadMid env ms (P.root g c) r ((off : Nat) : Int) (rows r) (R r) (larr r) cs).bind (K r))
    (fun r hr => ⟨hlt r hr, by
      rw [hs r hr]
      show Prog.bind (aggRead env ms (P.root g c) r _ (rows r) (R r)) (K r) = _
      rw [aggRead_eq ms (P.root g c) r _ (rows r) (R r) (hrow r hr) (hinit r hr)]
      rfl⟩)
  obtain ⟨s2, hm2, hn2, _, hp2⟩ := coll_run F hE ⟨.allreduce, .segment, ms⟩ hne (s := s1)
    (fun r => { num := ((rows r : Nat) : Int) })
    (fun r _ => (aggReadMid env ms (P.root g c) r ((off : Nat) : Int) (rows r) (R r) (larr r) cs).bind (K r))
    (fun r hr => ⟨hlt r hr, hp1 r hr⟩)
  simp only at hm1 hm2
  have hp2' : ∀ r ∈ ms, (s2.thr r).prog = Prog.bind
      (if ms.idxOf r = P.root g c then
        Prog.bind (leadRead env (R r) ((off : Nat) : Int) tot) fun x =>
          aggScatter env ms (P.root g c) r (rows r) (ms.map rows) (R r) (larr r) x.1 x.2
      else aggScatter env ms (P.root g c) r (rows r) (ms.map rows) (R r) (larr r) 0 []) (K r) := by
    intro r hr
    rw [hp2 r hr]
    unfold aggReadMid
    rw [hcs, if_pos (by show tot < _; omega)]
    rfl
  -- the leader
  let lead := P.leader n g c
  have hleadm : lead ∈ ms := SegPlan.leader_mem hroot
  have hidx : ∀ r, r ∈ ms → (ms.idxOf r = P.root g c ↔ r = lead) := fun r hr => SegPlan.leader_iff hroot hr
  have hbl := h.block lead (hlt lead hleadm)
  have hsl := h.shape lead (hlt lead hleadm)
  have hnod2 : s2.nodes = fs.node := by rw [hn2, hn1]; exact hinv
  obtain ⟨s3, e, gbytes, hm3, hn3, hp3, hglen, hok, hbad⟩ := leadRead_run (env := env) (bb := bb) (w := w) (nm := nm) hF
    (hlt lead hleadm) (E := ReadEvent) (st := R lead) hbl hsl (p := p) (off := off) (tot := tot)
    (h.points lead (hlt lead hleadm)) (by omega) (fun op f ho => ho) (h.toCollective.elsize (hlt lead hleadm)) fs
    (s := s2) hnod2
    (K := fun x => (aggScatter env ms (P.root g c) lead (rows lead) (ms.map rows) (R lead) (larr lead) x.1 x.2).bind (K lead))
    (by rw [hp2' lead hleadm, if_pos ((hidx lead hleadm).mpr rfl), Prog.bind_assoc])
  let rt : Nat → Int := fun r => if r = lead then e else 0
  let v : Nat → Msg := fun r => if r = lead then { bytes := gbytes } else { bytes := [] }
  obtain ⟨s4, hm4, hn4, _, hp4⟩ := coll_run F hE ⟨.scatterv, .segment, ms⟩ hne (s := s3) v
    (fun r l => (aggScatterTail env ms (P.root g c) r (rows r) (ms.map rows) (R r) (larr r) (rt r) l).bind (K r))
    (fun r hr => ⟨hlt r hr, by
      by_cases hl : r = lead
      · subst hl
        rw [hp3]
        simp only [aggScatter_eq, v, rt, if_true]
        rfl
      · rw [hm3.frame r (by simpa using hl), hp2' r hr, if_neg (fun hc => hl ((hidx r hr).mp hc))]
        simp only [aggScatter_eq, v, rt, if_neg hl]
        rfl⟩)
  simp only at hm4
  -- what everybody receives
  have hroot' : ((ms.map v).getD (P.root g c) {}).bytes = gbytes := by
    have hlen : P.root g c < ms.length := hroot
    have : ms[P.root g c] = lead := by
      show (P.seg n g c)[P.root g c] = (P.seg n g c).getD (P.root g c) 0
      rw [List.getD_eq_getElem?_getD, List.getElem?_eq_getElem hroot]
      rfl
    rw [List.getD_eq_getElem?_getD, List.getElem?_map, List.getElem?_eq_getElem hlen, this]
    simp [v]
  let pre : Nat → Nat := fun r => ((ms.map rows).take (ms.idxOf r)).sum
  have hpre : ∀ r ∈ ms, pre r + rows r ≤ tot := by
    intro r hr
    have hi := List.idxOf_lt_length_of_mem hr
    have := take_sum_le (ms.map rows) (ms.idxOf r) (by simpa using hi)
    rw [List.getD_eq_getElem?_getD, List.getElem?_map, List.getElem?_eq_getElem hi, List.getElem_idxOf] at this
    exact this
  let mine : Nat → List Byte := fun r => (gbytes.drop (pre r * (w * nm))).take (rows r * (w * nm))
  have hmlen : ∀ r ∈ ms, (mine r).length = rows r * nm * w := by
    intro r hr
    have h1 := Nat.mul_le_mul_right (w * nm) (hpre r hr)
    rw [Nat.add_mul] at h1
    simp only [mine, List.length_take, List.length_drop, hglen, ← mul3]
    omega
  have hpiece : ∀ r ∈ ms, ∀ j, j < rows r * nm → pre r * nm + j < tot * nm ∧
      ((mine r).drop (j * w)).take w = (gbytes.drop ((pre r * nm + j) * w)).take w := by
    intro r hr j hj
    constructor
    · have h1 := Nat.mul_le_mul_right nm (hpre r hr)
      rw [Nat.add_mul] at h1
      omega
    · have h1 := Nat.mul_le_mul_right w (show j + 1 ≤ rows r * nm from hj)
      rw [Nat.add_mul] at h1
      simp only [mine, mul3]
      rw [slice_slice _ _ _ _ _ (by omega), ← Nat.add_mul]
  have hdefined : ∀ r ∈ ms, ∀ j, j < rows r * nm → ∃ o, convElem env.m env.fo (R r).arr.dtype (dtypeNormalize env.m bb.dtype)
      (((mine r).drop (j * w)).take w) = some o ∧ (e = 0 → o = out r j) := by
    intro r hr j hj
    have hr0 : 0 < rows r := by
      rcases Nat.eq_zero_or_pos (rows r) with h0 | h0
      · rw [h0, Nat.zero_mul] at hj; omega
      · exact h0
    by_cases he : e = 0
    · obtain ⟨h1, h2⟩ := hok he
      obtain ⟨h3, h4⟩ := hpiece r hr j hj
      have hnm := (hb0 r hr).memb0
      have hpos := hP.seg_pos hr hr0
      have hq : j / nm < rows r := by rw [Nat.div_lt_iff_lt_mul hnm]; exact hj
      have hrowq : p + off + (pre r + j / nm) = p + rowsBefore rows r + j / nm := by
        have : off + pre r = rowsBefore rows r := hpos
        omega
      have hel : elemOfRows env.m fs bb (p + off) w nm (pre r * nm + j) =
          elemOfRows env.m fs bb (p + rowsBefore rows r) w nm j := by
        unfold elemOfRows
        rw [Nat.mul_comm (pre r) nm, Nat.mul_add_div hnm, Nat.mul_add_mod, hrowq]
      refine ⟨out r j, ?_, fun _ => rfl⟩
      rw [h4, h2 _ h3, hel]
      apply h.conv r (hlt r hr) j hj
      have := h1 (pre r + j / nm) (by have := hpre r hr; omega)
      rwa [hrowq] at this
    · rcases hT with hT | hT
      · exact absurd ⟨hT.1 lead (hlt lead hleadm), fun i hi => by
          have := hT.2 (off + i) (by omega)
          rwa [← Nat.add_assoc] at this⟩ (hbad he)
      · obtain ⟨o, ho⟩ := hT r (hlt r hr) hr0 (((mine r).drop (j * w)).take w) (by
          have h1 := Nat.mul_le_mul_right w (show j + 1 ≤ rows r * nm from hj)
          rw [Nat.add_mul] at h1
          rw [List.length_take, List.length_drop, hmlen r hr]
          omega)
        exact ⟨o, ho, fun h0 => absurd h0 he⟩
  let outs : Nat → Nat → List Byte := fun r j => (convElem env.m env.fo (R r).arr.dtype (dtypeNormalize env.m bb.dtype)
      (((mine r).drop (j * w)).take w)).getD []
  have hconv : ∀ r, r ∈ ms → ∃ q, dtypeConvert env.m env.fo (iterInit env.m (R r).arr) (iterInit env.m (larr r))
        (u64 ((rows r : Int) * (R r).bb.nmemb)) (R r).mem (poke env.junk 0 (mine r)) = some q ∧
      (Disjoint (R r).arr (sw r) → ∀ j, j < rows r * nm → peek q.dm (elemAddr (R r).arr j) (sw r) = outs r j) ∧
      (∀ y, ¬ InElems (R r).arr (sw r) 0 (R r).arr.size y → q.dm y = (R r).mem y) := by
    intro r hr
    refine h.toCollective.deliver (hlt r hr) (h.sup r (hlt r hr)) (mine r) (hmlen r hr) (outs r) ?_
    intro j hj
    obtain ⟨o, ho, _⟩ := hdefined r hr j hj
    simp only [outs, ho, Option.getD_some]
  let mem' : Nat → Mem := fun r => match dtypeConvert env.m env.fo (iterInit env.m (R r).arr) (iterInit env.m (larr r))
        (u64 ((rows r : Int) * (R r).bb.nmemb)) (R r).mem (poke env.junk 0 (mine r)) with
    | some q => q.dm
    | none => (R r).mem
  let err : Nat → Option CStr := fun r => if r = lead then (if e ≠ 0 then some (R r).fail else (R r).err) else (R r).err
  obtain ⟨s5, hm5, hn5, _, hp5⟩ := anyerror_run F hE .segment ms hne SegPlan.seg_nodup rt err
    (fun r hr hrt => by
      by_cases hl : r = lead
      · simp only [rt, if_pos hl] at hrt
        simp only [err, if_pos hl, if_pos hrt]
        exact ⟨_, rfl⟩
      · simp only [rt, if_neg hl, ne_eq, not_true_eq_false] at hrt) (s := s4)
    (fun r y => K r (y.1, { R r with mem := mem' r, err := y.2 }))
    (fun r hr => ⟨hlt r hr, by
      rw [hp4 r hr]
      obtain ⟨q, hq, _⟩ := hconv r hr
      have hm' : mem' r = q.dm := by simp only [mem', hq]
      have herr : err r = (if rt r ≠ 0 then some (R r).fail else (R r).err) := by
        simp only [err, rt]
        by_cases hl : r = lead
        · simp only [if_pos hl]
        · simp only [if_neg hl, ne_eq, not_true_eq_false, if_false]
      unfold aggScatterTail
      rw [hroot', h.toCollective.elsize (hlt r hr), show dtypeConvert env.m env.fo (iterInit env.m (R r).arr) (iterInit env.m (larr r))
        (u64 ((rows r : Int) * (R r).bb.nmemb)) (R r).mem (poke env.junk 0 ((gbytes.drop
          (((ms.map rows).take (ms.idxOf r)).sum * (w * nm))).take (rows r * (w * nm)))) = some q from hq, hm', herr]
      show Prog.bind (Prog.bind (anyerrorP .segment ms r (rt r) _) _) (K r) = _
      rw [Prog.bind_assoc]
      rfl⟩)
  have hmoves := (((hm1.trans hm2).trans (hm3.mono (by
    intro r hr; rw [List.mem_singleton.mp hr]; exact hleadm))).trans hm4).trans hm5
  have hnodes : s5.nodes = s.nodes := by rw [hn5, hn4, hn3, hn2, hn1]
  refine ⟨s5, hmoves, by rw [hnodes]; exact hinv, ?_⟩
  by_cases he : e = 0
  · have herr : ∀ r, err r = (R r).err := by
      intro r
      simp only [err, he, ne_eq, not_true_eq_false, if_false]
      split <;> rfl
    obtain ⟨_, hp5⟩ := hp5.resolve_right (by
      rintro ⟨r0, _, h0, _⟩
      apply h0
      simp only [rt, he]
      split <;> rfl)
    obtain ⟨h1, _⟩ := hok he
    refine ⟨fun r => { R r with mem := mem' r, err := err r }, Or.inl ⟨fun r hr => ⟨hp5 r hr, ?_⟩, hnodes⟩⟩
    obtain ⟨q, hq, hq2, hq3⟩ := hconv r hr
    have hm' : mem' r = q.dm := by simp only [mem', hq]
    refine ⟨?_, ?_, ?_, ?_⟩
    · intro i hi
      have hpos : off + pre r = rowsBefore rows r := hP.seg_pos hr (by omega)
      have := h1 (pre r + i) (by have := hpre r hr; omega)
      rwa [show p + off + (pre r + i) = p + rowsBefore rows r + i by omega] at this
    · simp only [herr r]
    · intro j hj
      show peek (mem' r) _ _ = _
      rw [hm', hq2 (h.dis r (hlt r hr)) j hj]
      obtain ⟨o, ho, ho2⟩ := hdefined r hr j hj
      simp only [outs, ho, Option.getD_some]
      exact ho2 he
    · intro y hy
      show mem' r y = _
      rw [hm', hq3 y hy]
  · obtain ⟨r0, hr0, h0, hp5⟩ := hp5.resolve_left (by
      rintro ⟨hall, _⟩
      have := hall lead hleadm
      simp only [rt, if_true] at this
      exact he this)
    have hr0l : r0 = lead := by
      apply Classical.byContradiction
      intro hc
      simp only [rt, if_neg hc, ne_eq, not_true_eq_false] at h0
    subst hr0l
    refine ⟨fun r => { R r with mem := mem' r, err := err lead }, Or.inr ⟨e, lead, he, hlt _ hleadm, ?_, fun r hr => ⟨?_, ?_⟩⟩⟩
    · intro hh
      apply hbad he
      refine ⟨hh.1 lead (hlt _ hleadm), fun i hi => ?_⟩
      have := hh.2 (off + i) (by omega)
      rwa [← Nat.add_assoc] at this
    · rw [hp5 r hr]
      simp only [rt, if_true]
    · simp only [err, if_true, if_pos he]

/-! ## All schedules -/

/-- How a collective read ends. -/
def ReadOutcome (env : Env) (bb : Block) (nm n : Nat) (R : Nat → Rank) (p : Nat) (rows sw : Nat → Nat)
    (out : Nat → Nat → List Byte) (F : Nat → Nat → Fault) (fs : FS) (s : Conf (Int × Rank)) : Prop :=
  (∃ st : Nat → Rank, ∀ r, r < n → (s.thr r).prog = .ret (0, st r) ∧
    ReadReturned env fs bb nm R p rows sw out (rowsBefore rows n) r (st r)) ∨
  (¬ ((∀ r, r < n → F r = noFaults) ∧ ∀ i, i < rowsBefore rows n → Stored env.m fs bb (p + i)) ∧
    ∃ e r0, e ≠ 0 ∧ r0 < n ∧ ∀ r, r < n → ∃ st, (s.thr r).prog = .ret (e, st) ∧ st.err = some (R r0).fail)

theorem doGroups_same (P : SegPlan) : ∀ (gs : List Nat) (nd : Nodes), putGroups (fun _ _ nd => nd) P gs nd = nd := by
  intro gs nd
  rw [putGroups_do]
  induction gs with
  | nil => rfl
  | cons g gs ih => simp only [Verif.doGroups]; rw [doFrom_id (fun _ _ => rfl)]; exact ih

theorem read_run (h : CollectiveRead env fs bb w nm n R p rows sw out) (concurrency : Int) (threshold : Nat)
    (hc : concurrency < 2147483648) {F : Nat → Nat → Fault} (hF : NoCrash F)
    (hT : ((∀ r, r < n → F r = noFaults) ∧ ∀ i, i < rowsBefore rows n → Stored env.m fs bb (p + i)) ∨
      ConvertsAny env bb w n R rows) :
    ∃ (es : List Event) (s : Conf (Int × Rank)), Run F n (startRead env n concurrency threshold R fs) es s ∧
      (∀ e ∈ es, ReadEvent e) ∧ s.nodes = fs.node ∧ ReadOutcome env bb nm n R p rows sw out F fs s := by
  let conc := useConc n concurrency
  have hconc : 0 < conc ∧ conc < 2147483648 := by
    have := h.procs
    simp only [conc, useConc]
    split
    · exact this
    · omega
  have hcnt := h.count
  obtain ⟨hP, hinfo⟩ := planOf_ok conc threshold n rows hconc.1 hconc.2 h.procs.2 (by omega)
  generalize hPe : planOf conc threshold ((List.range n).map rows) = P at hP hinfo
  obtain ⟨s', hm, hnod, hout⟩ := throttle_run (F := F) (E := ReadEvent) (fun _ => trivial)
    (segAct_read h hP hF hT) (fun _ _ _ _ => rfl) (fun _ _ _ hh => hh) hP.range (concurrency := concurrency)
    (threshold := threshold) h.procs.1 h.dims hinfo (List.range (conc + 2)) List.nodup_range
    (by
      intro r hr
      apply List.mem_range.mpr
      rcases Nat.eq_zero_or_pos (rows r) with h0 | h0
      · rw [hP.empty r hr h0]; omega
      · have := hP.data r hr h0; omega)
    (ReadReturned env fs bb nm R p rows sw out (rowsBefore rows n))
    (by
      intro r st hr hd
      have hb := h.block r hr
      have hsh := h.shape r hr
      obtain ⟨ptr1, h1, h2⟩ := seekRel_forward hb.layout (hsh.pointsTo (h.points r hr)) (off := rowsBefore rows n)
        (by rw [hsh.size]; exact h.range)
      have e1 : st.bb = (R r).bb := by rw [hd.same]
      have e2 : st.ptr = (R r).ptr := by rw [hd.same]
      refine ⟨0, ptr1, by rw [e1, e2]; exact h1, ⟨hsh.symm'.pointsTo h2, hd.stored, ?_, hd.elems, hd.frame⟩⟩
      rw [hd.same])
    (startRead env n concurrency threshold R fs) (fun r _ => rfl) rfl
  obtain ⟨es, hrun, hev⟩ := hm.run
  refine ⟨es, s', hrun, hev, hnod, ?_⟩
  rcases hout with ⟨hall, _⟩ | ⟨hbad, e, r0, he, hr0, hall⟩
  · left
    refine ⟨fun r => if hr : r < n then (hall r hr).choose else R 0, fun r hr => ?_⟩
    simp only [dif_pos hr]
    exact (hall r hr).choose_spec
  · exact Or.inr ⟨hbad, e, r0, he, hr0, hall⟩

theorem ReadEvent.indep {a b : Event} (ha : ReadEvent a) (hb : ReadEvent b) : Indep a b := by
  cases a with
  | coll c => trivial
  | file r o f =>
    cases b with
    | coll c => trivial
    | file r' o' f' =>
      intro _
      exact commute_passive (ReadOnly.passive ha) (ReadOnly.passive hb) f f'

theorem ReadOutcome.finished {F : Nat → Nat → Fault} {s : Conf (Int × Rank)}
    (h : ReadOutcome env bb nm n R p rows sw out F fs s) : s.Finished n := by
  intro r hr
  rcases h with ⟨st, hst⟩ | ⟨_, e, r0, _, _, hst⟩
  · exact ⟨_, (hst r hr).1⟩
  · obtain ⟨st, h1, _⟩ := hst r hr
    exact ⟨_, h1⟩

theorem readEvents_nodes {α : Type} {F : Nat → Nat → Fault} {N : Nat} {s s' : Conf α} {es : List Event} (h : Run F N s es s')
    (he : ∀ e ∈ es, ReadEvent e) : s'.nodes = s.nodes := by
  induction h with
  | nil s => rfl
  | cons hs _ ih =>
    rw [ih (fun e h => he e (by simp [h]))]
    have hev := he _ (List.mem_cons_self)
    cases hs with
    | coll c hne hall => rfl
    | file r op k t a nd hr ht hx =>
      obtain ⟨_, rfl, _⟩ := (ReadOnly.passive hev).exec hx
      rfl

/-- Every run of a collective read. -/
theorem read_runs (h : CollectiveRead env fs bb w nm n R p rows sw out) (concurrency : Int) (threshold : Nat)
    (hc : concurrency < 2147483648) {F : Nat → Nat → Fault} (hF : NoCrash F)
    (hT : ((∀ r, r < n → F r = noFaults) ∧ ∀ i, i < rowsBefore rows n → Stored env.m fs bb (p + i)) ∨
      ConvertsAny env bb w n R rows) :
    ∃ B, ∀ es s, Run F n (startRead env n concurrency threshold R fs) es s → es.length ≤ B ∧ s.nodes = fs.node ∧
      (s.Stuck F n → ReadOutcome env bb nm n R p rows sw out F fs s) := by
  obtain ⟨es0, s0, hrun, hev, _, hout⟩ := read_run h concurrency threshold hc hF hT
  have hI : ∀ a ∈ es0, ∀ b ∈ es0, Indep a b := fun a ha b hb => (hev a ha).indep (hev b hb)
  refine ⟨es0.length, fun es s hr => ?_⟩
  obtain ⟨h1, h2⟩ := hrun.unique hF hout.finished hI hr
  refine ⟨h1, ?_, fun hs => by rw [h2 hs]; exact hout⟩
  obtain ⟨es', _, hp⟩ := hrun.confluent hF hout.finished hI hr
  exact readEvents_nodes hr (fun e he => hev e (hp.subset (by simp [he])))

end

end Verif
