import Verif.Proof.AggWrite
import Verif.Proof.Tile
/-!
# One segment of a collective write
-/

set_option autoImplicit false

namespace Verif

open Spec

section
variable {env : Env} {bb : Block} {w nm n : Nat} {R : Nat → Rank} {p : Nat} {rows sw : Nat → Nat}
  {stored : Nat → Nat → List Byte}

theorem rankRows_length (rows : Nat → Nat) (nm : Nat) (stored : Nat → Nat → List Byte) (r : Nat) :
    (rankRows rows nm stored r).length = rows r := by simp [rankRows]

theorem rowsBefore_mono (rows : Nat → Nat) {a b : Nat} (h : a ≤ b) : rowsBefore rows a ≤ rowsBefore rows b := by
  induction b with
  | zero => have : a = 0 := by omega
            subst this; exact Nat.le_refl _
  | succ b ih =>
    by_cases hab : a = b + 1
    · rw [hab]; exact Nat.le_refl _
    · have := ih (by omega)
      have e : rowsBefore rows (b + 1) = rowsBefore rows b + rows b := by
        simp [rowsBefore, List.range_succ]
      omega

theorem rowsBefore_succ (rows : Nat → Nat) (b : Nat) : rowsBefore rows (b + 1) = rowsBefore rows b + rows b := by
  simp [rowsBefore, List.range_succ]

theorem rows_le (rows : Nat → Nat) {r n : Nat} (h : r < n) : rowsBefore rows r + rows r ≤ rowsBefore rows n := by
  rw [← rowsBefore_succ]; exact rowsBefore_mono rows h

theorem Spec.Collective.bytes (h : Collective env bb w nm n R p rows sw) {r : Nat} (hr : r < n) {k : Nat}
    (hk : k ≤ rowsBefore rows n) : k * nm * w < 9223372036854775808 := by
  have hb := h.block r hr
  have hs := h.shape r hr
  have h1 := Nat.mul_le_mul_right (w * nm) (show k ≤ (R r).bb.fsize.sum by
    rw [← hb.layout.size, hs.size]; have := h.range; omega)
  have h2 : k * nm * w = k * (w * nm) := by rw [Nat.mul_assoc, Nat.mul_comm nm w]
  have := hb.offs
  omega

theorem Spec.Collective.elsize (h : Collective env bb w nm n R p rows sw) {r : Nat} (hr : r < n) :
    aggElsize env (R r).bb = w * nm := by
  have hb := h.block r hr
  unfold aggElsize
  rw [hb.item, hb.memb]
  have := hb.felInt
  rw [show ((w : Int) * (nm : Int)) = ((w * nm : Nat) : Int) by simp]
  exact u64_of_nat (by omega)

theorem Spec.Collective.elems (h : Collective env bb w nm n R p rows sw) {r : Nat} (hr : r < n) :
    u64 ((rows r : Int) * (R r).bb.nmemb) = rows r * nm := by
  have hb := h.block r hr
  rw [hb.memb]
  have h1 := h.bytes hr (k := rows r) (by have := rows_le rows hr; omega)
  have h2 : rows r * nm ≤ rows r * nm * w := Nat.le_mul_of_pos_right _ hb.item0
  rw [show ((rows r : Int) * (nm : Int)) = ((rows r * nm : Nat) : Int) by simp]
  exact u64_of_nat (by omega)

theorem Spec.CollectiveWrite.stored_length (h : CollectiveWrite env bb w nm n R p rows sw stored) {r : Nat} (hr : r < n)
    {e : Nat} (he : e < rows r * nm) : (stored r e).length = w := by
  have h0 : 0 < rows r := by
    rcases Nat.eq_zero_or_pos (rows r) with h0 | h0
    · rw [h0, Nat.zero_mul] at he; omega
    · exact h0
  have hx := h.arr r hr h0
  refine convElem_length env.m env.fo _ _ w (normalize_idem _ _) hx.anorm ?_ _ _ ?_ (h.conv r hr e he)
  · rw [itemsize_normalize, ← (h.shape r hr).dtype]; exact hx.item
  · rw [peek_length, hx.aitem]

theorem Spec.CollectiveWrite.row_length (h : CollectiveWrite env bb w nm n R p rows sw stored) {r : Nat} (hr : r < n) :
    ∀ x ∈ rankRows rows nm stored r, x.length = w * nm := by
  intro x hx
  obtain ⟨i, hi, rfl⟩ := List.mem_map.mp hx
  have hi := List.mem_range.mp hi
  unfold rowOfElems
  rw [flatN_length _ nm w, Nat.mul_comm]
  intro j hj
  apply h.stored_length hr
  have := Nat.mul_le_mul_right nm (show i + 1 ≤ rows r from hi)
  rw [Nat.add_mul] at this
  omega

theorem flatN_flatN (g : Nat → List Byte) (a b : Nat) :
    flatN (fun i => flatN (fun j => g (i * b + j)) b) a = flatN g (a * b) := by
  induction a with
  | zero => simp [flatN]
  | succ a ih => rw [Nat.add_mul, Nat.one_mul, flatN_add g (a * b) b, ← ih]; rfl

/-- A process converts its rows into a buffer of its own. -/
theorem rank_convert {st : Rank} {k sw : Nat} {stored : Nat → List Byte} (hb : BlockOk env st.bb w nm)
    (hdt : st.bb.dtype = bb.dtype) (hsize : st.arr.size = k * nm) (hstr : st.arr.strides ≠ [])
    (harr : 0 < k → XferOk env st.bb st.arr w sw nm) (hby : k * nm * w < 9223372036854775808)
    (hdis : foreign env.m st.arr.dtype = true → Disjoint st.arr sw)
    (hlen : ∀ e, e < k * nm → (stored e).length = w)
    (hconv : ∀ e, e < k * nm → convElem env.m env.fo (dtypeNormalize env.m bb.dtype) st.arr.dtype
      (peek st.mem (elemAddr st.arr e) sw) = some (stored e)) :
    ∃ q, dtypeConvert env.m env.fo (iterInit env.m (freshArr env.m st.bb.dtype k nm w 0))
        (iterInit env.m st.arr) (k * nm) env.junk st.mem = some q ∧
      peek q.dm 0 (k * (w * nm)) = ((List.range k).map (rowOfElems stored nm)).flatten ∧
      SourceAfter env.m st.arr sw st.mem q.sm := by
  rcases Nat.eq_zero_or_pos k with h0 | h0
  · rw [h0, Nat.zero_mul, Nat.zero_mul]
    obtain ⟨q, hq, _, h2⟩ := dtypeConvert_none env.m env.fo (iterInit env.m (freshArr env.m st.bb.dtype 0 nm w 0))
      (iterInit env.m st.arr) env.junk st.mem (by simp [iterInit, freshArr]) hstr
    have hz : st.arr.size = 0 := by rw [hsize, h0, Nat.zero_mul]
    refine ⟨q, hq, ?_, fun _ => h2, fun y _ => by rw [h2], fun e he => by omega⟩
    simp [peek]
  · have hx := harr h0
    have hpos : 0 < k * nm := Nat.mul_pos h0 hb.memb0
    have hf := hb.fresh st.bb.dtype k w 0 h0 hb.item hb.item0 hby
    have hc : ConvOk env.m env.fo (freshArr env.m st.bb.dtype k nm w 0) st.arr w sw 0 0 (k * nm) := by
      refine convOk_of env.m env.fo _ _ w sw 0 0 _ hf.arr hx.arr hf.anorm hx.anorm hf.aitem hx.aitem hb.item0
        (by simp [freshArr]) (by rw [hsize]; omega) (by omega) ?_
      have := convertible_of_convElem _ _ _ _ _ _ (hconv 0 hpos)
      rw [← hdt] at this
      exact this
    obtain ⟨dm, sm, h1, h2, h3, h4, h5, h6⟩ := dtypeConvert_spec env.m env.fo _ _ env.junk st.mem sw w (k * nm) 0 0
      stored hc hdis (fun e he => ⟨hlen e he, by
        rw [Nat.zero_add]
        have := hconv e he
        rw [← hdt] at this
        exact this⟩)
    refine ⟨_, by rw [iterInit_eq, iterInit_eq]; exact h1, ?_, h4, by rw [hsize]; exact h5, fun e he => by
      rw [hsize] at he
      have := h6 e he
      rw [Nat.zero_add] at this
      exact this⟩
    have e1 : k * (w * nm) = k * nm * w := by rw [Nat.mul_assoc, Nat.mul_comm nm w]
    show peek dm 0 _ = _
    rw [e1, peek_flatN]
    have e2 : flatN (fun i => peek dm (0 + ((i * w : Nat) : Int)) w) (k * nm) = flatN stored (k * nm) := by
      apply flatN_congr
      intro e he
      have := h3 (freshArr_disjoint _ _ _ _ _ _) e he
      rw [Nat.zero_add, freshArr_addr _ _ _ _ _ _ _ he] at this
      exact this
    rw [e2, ← flatN_flatN, flatN_range]
    rfl

/-- A process converts its rows into a buffer of its own. -/
theorem Spec.CollectiveWrite.convert (h : CollectiveWrite env bb w nm n R p rows sw stored) {r : Nat} (hr : r < n) :
    ∃ q, dtypeConvert env.m env.fo (iterInit env.m (freshArr env.m (R r).bb.dtype (rows r) nm w 0))
        (iterInit env.m (R r).arr) (u64 ((rows r : Int) * (R r).bb.nmemb)) env.junk (R r).mem = some q ∧
      peek q.dm 0 (rows r * aggElsize env (R r).bb) = (rankRows rows nm stored r).flatten ∧
      SourceAfter env.m (R r).arr (sw r) (R r).mem q.sm := by
  rw [h.toCollective.elems hr, h.toCollective.elsize hr]
  exact rank_convert (h.block r hr) (h.shape r hr).dtype (h.size r hr) (h.strides r hr) (h.arr r hr)
    (h.toCollective.bytes hr (by have := rows_le rows hr; omega)) (h.dis r hr) (fun e he => h.stored_length hr he)
    (h.conv r hr)

/-- The process that writes for a segment. -/
def SegPlan.leader (P : SegPlan) (n g c : Nat) : Nat := (P.seg n g c).getD (P.root g c) 0

/-- The end of `aggWrite`, after the rows were gathered. -/
def aggWriteTail (env : Env) (ms : List Nat) (root me : Nat) (offset : Int) (st : Rank) (counts : List Nat)
    (parts : List Msg) : Prog (Int × Rank) :=
  if ms.idxOf me = root then
    Prog.bind (leadWrite env st offset counts.sum (gathervBytes (aggElsize env st.bb) counts parts)) fun x =>
      Prog.bind (anyerrorP .segment ms me x.1 (if x.1 ≠ 0 then some st.fail else st.err)) fun y =>
        .ret (y.1, { st with bb := x.2, err := y.2 })
  else
    Prog.bind (anyerrorP .segment ms me 0 st.err) fun y => .ret (y.1, { st with err := y.2 })

/-- The middle of `aggWrite`. -/
def aggWriteMid (env : Env) (ms : List Nat) (root me : Nat) (offset : Int) (st : Rank) (bytes : List Byte)
    (cs : List Msg) : Prog (Int × Rank) :=
  Prog.bind (Prog.lift (if (cs.map (·.num.toNat)).sum < 2147483648 then some () else none)) fun _ =>
    .coll ⟨.gatherv, .segment, ms⟩ { bytes := bytes } fun parts =>
      aggWriteTail env ms root me offset st (cs.map (·.num.toNat)) parts

theorem aggWrite_eq (ms : List Nat) (root me : Nat) (offset : Int) (localsize : Nat) (st : Rank) {larr : Arr}
    {q : ConvOut} (hl : localsize < 2147483648)
    (ha : arrayInit env.m 0 st.bb.dtype [localsize, u64 st.bb.nmemb] none = some larr)
    (hq : dtypeConvert env.m env.fo (iterInit env.m larr) (iterInit env.m st.arr)
      (u64 (localsize * st.bb.nmemb)) env.junk st.mem = some q) :
    aggWrite env ms root me offset localsize st =
      .coll ⟨.allgather, .segment, ms⟩ { num := localsize } fun cs =>
        .coll ⟨.allreduce, .segment, ms⟩ { num := localsize } fun _ =>
          aggWriteMid env ms root me offset { st with mem := q.sm } (peek q.dm 0 (localsize * aggElsize env st.bb)) cs := by
  unfold aggWrite aggCounts
  rw [if_pos hl, ha]
  show Prog.coll _ _ _ = _
  congr 1
  funext cs
  show Prog.coll _ _ _ = _
  congr 1
  funext _
  show Prog.bind (Prog.bind (Prog.lift (if (cs.map (·.num.toNat)).sum < 2147483648 then some () else none)) _) _ =
    Prog.bind (Prog.lift (if (cs.map (·.num.toNat)).sum < 2147483648 then some () else none)) _
  by_cases hc : (cs.map (·.num.toNat)).sum < 2147483648
  · rw [if_pos hc]
    show Prog.bind (Prog.lift (dtypeConvert _ _ _ _ _ _ _)) _ = _
    rw [hq]
    show Prog.coll _ _ _ = Prog.coll _ _ _
    rfl
  · rw [if_neg hc]
    rfl

theorem SegPlan.leader_mem {P : SegPlan} {g c : Nat} (h : P.root g c < (P.seg n g c).length) :
    P.leader n g c ∈ P.seg n g c := by
  unfold SegPlan.leader
  rw [List.getD_eq_getElem?_getD, List.getElem?_eq_getElem h]
  exact List.getElem_mem h

theorem SegPlan.seg_nodup {P : SegPlan} {g c : Nat} : (P.seg n g c).Nodup := SegPlan.group_nodup.filter _

theorem SegPlan.leader_iff {P : SegPlan} {g c : Nat} (h : P.root g c < (P.seg n g c).length) {r : Nat}
    (hr : r ∈ P.seg n g c) : (P.seg n g c).idxOf r = P.root g c ↔ r = P.leader n g c := by
  have hl : P.leader n g c = (P.seg n g c)[P.root g c] := by
    unfold SegPlan.leader
    rw [List.getD_eq_getElem?_getD, List.getElem?_eq_getElem h]
    rfl
  constructor
  · intro e
    rw [hl]
    have := List.getElem_idxOf (List.idxOf_lt_length_of_mem hr)
    rw [← this]
    congr 1
  · intro e
    rw [e, hl]
    exact SegPlan.seg_nodup.idxOf_getElem _ h

/-- What a process has after its segment was written. -/
structure SegDone (env : Env) (bb : Block) (w nm n : Nat) (R : Nat → Rank) (p : Nat) (rows sw : Nat → Nat)
    (stored : Nat → Nat → List Byte) (P : SegPlan) (nd0 : Nodes) (r : Nat) (st : Rank) : Prop where
  files : ∀ i, i < (segRows P n (rankRows rows nm stored) (P.G r) (P.S r)).length →
    IsFile ⟨nd0, []⟩ (fileKey bb.basename (.data (rowFile bb (p + segOff P n rows (P.G r) (P.S r) + i))))
  shape : SameShape bb st.bb
  block : BlockOk env st.bb w nm
  mark : Marked (R r).bb st.bb (if r = P.leader n (P.G r) (P.S r) then
    (segRows P n (rankRows rows nm stored) (P.G r) (P.S r)).length else 0)
  ptr : st.ptr = (R r).ptr
  arr : st.arr = (R r).arr
  err : st.err = (R r).err
  mem : SourceAfter env.m (R r).arr (sw r) (R r).mem st.mem
  cksum : ∀ f, st.bb.fchecksum.getD f 0 = ((R r).bb.fchecksum.getD f 0 +
    if r = P.leader n (P.G r) (P.S r) then
      rowsSum bb (p + segOff P n rows (P.G r) (P.S r))
        (fun i => (segRows P n (rankRows rows nm stored) (P.G r) (P.S r)).getD i []) f
        (segRows P n (rankRows rows nm stored) (P.G r) (P.S r)).length
    else 0) % 4294967296

/-- The events of a collective write. -/
def WriteEvent (m : Machine) (bb : Block) (n p : Nat) (rows : Nat → Nat) (P : SegPlan) : Event → Prop
  | .coll _ => True
  | .file r op _ => ∃ g c, r = P.leader n g c ∧ 0 < (segRows P n (fun q => List.range (rows q)) g c).length ∧
      WriteIn m bb (p + segOff P n rows g c) (segRows P n (fun q => List.range (rows q)) g c).length op

theorem segRows_length {β γ : Type} {f : Nat → List β} {f' : Nat → List γ} (h : ∀ r, (f r).length = (f' r).length)
    (P : SegPlan) (n g c : Nat) : (segRows P n f g c).length = (segRows P n f' g c).length := by
  unfold segRows
  rw [List.length_flatMap, List.length_flatMap]
  congr 1
  exact List.map_congr_left (fun r _ => h r)

theorem peek_length_of {d : Mem} {a : Int} {k : Nat} {l : List Byte} (h : peek d a k = l) : l.length = k := by
  rw [← h, peek_length]

/-- The leader receives what everybody sent. -/
theorem gathervBytes_eq (el : Nat) (rows : Nat → Nat) (b : Nat → List Byte) : ∀ ms : List Nat,
    (∀ r ∈ ms, (b r).length = rows r * el) →
    gathervBytes el (ms.map rows) (ms.map fun r => ({ bytes := b r } : Msg)) = (ms.map b).flatten := by
  intro ms h
  unfold gathervBytes
  induction ms with
  | nil => rfl
  | cons r ms ih =>
    simp only [List.map_cons, List.zipWith_cons_cons, List.flatten_cons]
    rw [ih (fun q hq => h q (by simp [hq])), List.take_of_length_le (by rw [h r (by simp)]; exact Nat.le_refl _)]

theorem flatten_flatMap {α : Type} (l : List α) (f : α → List (List Byte)) :
    (l.map (fun r => (f r).flatten)).flatten = (l.flatMap f).flatten := by
  induction l with
  | nil => rfl
  | cons a l ih => simp [ih]

theorem map_rows_sum (l : List Nat) (rows : Nat → Nat) (nm : Nat) (stored : Nat → Nat → List Byte) :
    (l.map rows).sum = (l.flatMap (rankRows rows nm stored)).length := by
  rw [List.length_flatMap]
  congr 1
  exact List.map_congr_left (fun r _ => (rankRows_length rows nm stored r).symm)

/-- The same regular files exist. -/
def SameFiles (nd nd' : Nodes) : Prop := ∀ k, (∃ d, nd' k = some (.file d)) ↔ ∃ d, nd k = some (.file d)

theorem step_files {α : Type} {F : Nat → Nat → Fault} {n : Nat} {s s' : Conf α} {e : Event} (h : Step F n s e s')
    {m : Machine} {bb : Block} {p : Nat} {rows : Nat → Nat} {P : SegPlan}
    (he : WriteEvent m bb n p rows P e) : SameFiles s.nodes s'.nodes := by
  cases h with
  | coll c hne hall => exact fun k => Iff.rfl
  | file r op k t a nd hr ht hx =>
    obtain ⟨g, c, _, _, hw⟩ := he
    cases op with
    | fread path off len => exact hw.elim
    | fopen path mode =>
      cases mode with
      | r => exact hw.elim
      | w => exact hw.elim
      | rplus =>
        obtain ⟨_, rfl, _⟩ := FOp.Passive.exec (op := .fopen path .rplus) trivial hx
        exact fun k => Iff.rfl
    | fwrite path off bs =>
      obtain ⟨_, rfl, _⟩ := exec_fwrite hx
      exact fun k => putBytes_file _ _ _ _ _

theorem run_files {α : Type} {F : Nat → Nat → Fault} {n : Nat} {s s' : Conf α} {es : List Event} (h : Run F n s es s')
    {m : Machine} {bb : Block} {p : Nat} {rows : Nat → Nat} {P : SegPlan}
    (he : ∀ e ∈ es, WriteEvent m bb n p rows P e) : SameFiles s.nodes s'.nodes := by
  induction h with
  | nil s => exact fun k => Iff.rfl
  | cons hs _ ih =>
    intro k
    exact (ih (fun e h => he e (by simp [h])) k).trans (step_files hs (he _ (by simp)) k)

theorem Moves.files {α : Type} {F : Nat → Nat → Fault} {n : Nat} {ms : List Nat} {s s' : Conf α}
    {m : Machine} {bb : Block} {p : Nat} {rows : Nat → Nat} {P : SegPlan}
    (h : Moves F n ms (WriteEvent m bb n p rows P) s s') : SameFiles s.nodes s'.nodes := by
  obtain ⟨es, hr, he⟩ := h.run
  exact run_files hr he

/-- One segment of a collective write. -/
theorem segAct_write (h : CollectiveWrite env bb w nm n R p rows sw stored) {conc : Nat} {P : SegPlan}
    (hP : PlanOk n rows conc P) {F : Nat → Nat → Fault} (hF : NoCrash F) (nd0 : Nodes) :
    SegAct env true F n P rows R (WriteEvent env.m bb n p rows P) (SameFiles nd0)
      (fun nd => (∀ r, r < n → F r = noFaults) ∧ DataFiles ⟨nd, []⟩ bb)
      (fun g c => putList env.m bb (p + segOff P n rows g c) (segRows P n (rankRows rows nm stored) g c))
      (SegDone env bb w nm n R p rows sw stored P nd0) := by
  intro g c s K hne hs hinv
  have hE : ∀ c, WriteEvent env.m bb n p rows P (.coll c) := fun _ => trivial
  have hroot := hP.root g c hne
  let ms := P.seg n g c
  have hmem : ∀ r ∈ ms, r < n ∧ P.G r = g ∧ P.S r = c := fun r hr => SegPlan.mem_seg.mp hr
  have hlt : ∀ r ∈ ms, r < n := fun r hr => (hmem r hr).1
  let f := rankRows rows nm stored
  have hf : ∀ r, (f r).length = rows r := rankRows_length rows nm stored
  let off := segOff P n rows g c
  let l := segRows P n f g c
  have htot := seg_end (P := P) (n := n) hf hne
  have hcnt := h.count
  have hrow : ∀ r, r ∈ ms → rows r < 2147483648 := by
    intro r hr
    have := rows_le rows (hlt r hr)
    omega
  -- what everybody contributes
  have hconv : ∀ r, r ∈ ms → ∃ q, dtypeConvert env.m env.fo (iterInit env.m (freshArr env.m (R r).bb.dtype (rows r) nm w 0))
        (iterInit env.m (R r).arr) (u64 ((rows r : Int) * (R r).bb.nmemb)) env.junk (R r).mem = some q ∧
      peek q.dm 0 (rows r * aggElsize env (R r).bb) = (f r).flatten ∧
      SourceAfter env.m (R r).arr (sw r) (R r).mem q.sm := fun r hr => h.convert (hlt r hr)
  have hinit : ∀ r, r ∈ ms → arrayInit env.m 0 (R r).bb.dtype [rows r, u64 (R r).bb.nmemb] none =
      some (freshArr env.m (R r).bb.dtype (rows r) nm w 0) := by
    intro r hr
    have hb := h.block r (hlt r hr)
    exact hb.freshInit _ _ _ _ hb.item hb.item0
      (h.toCollective.bytes (hlt r hr) (by have := rows_le rows (hlt r hr); omega))
  let mem' : Nat → Mem := fun r => match dtypeConvert env.m env.fo
      (iterInit env.m (freshArr env.m (R r).bb.dtype (rows r) nm w 0))
      (iterInit env.m (R r).arr) (u64 ((rows r : Int) * (R r).bb.nmemb)) env.junk (R r).mem with
    | some q => q.sm
    | none => (R r).mem
  have hmem' : ∀ r, r ∈ ms → SourceAfter env.m (R r).arr (sw r) (R r).mem (mem' r) := by
    intro r hr
    obtain ⟨q, h1, _, h3⟩ := hconv r hr
    simp only [mem', h1]
    exact h3
  let st : Nat → Rank := fun r => { R r with mem := mem' r }
  let cs : List Msg := ms.map (fun r => ({ num := ((rows r : Nat) : Int) } : Msg))
  have hcs : cs.map (·.num.toNat) = ms.map rows := by simp [cs]
  have hsum : (ms.map rows).sum = l.length := map_rows_sum ms rows nm stored
  obtain ⟨s1, hm1, hn1, _, hp1⟩ := coll_run F hE ⟨.allgather, .segment, ms⟩ hne (s := s)
    (fun r => { num := ((rows r : Nat) : Int) })
    (fun r cs => .coll ⟨.allreduce, .segment, ms⟩ { num := ((rows r : Nat) : Int) } fun _ =>
      (aggWriteMid env ms (P.root g c) r ((off : Nat) : Int) (st r) (f r).flatten cs).bind (K r))
    (fun r hr => ⟨hlt r hr, by
      rw [hs r hr]
      obtain ⟨q, h1, h2, _⟩ := hconv r hr
      show Prog.bind (aggWrite env ms (P.root g c) r _ (rows r) (R r)) (K r) = _
      rw [aggWrite_eq ms (P.root g c) r _ (rows r) (R r) (hrow r hr) (hinit r hr) h1, h2]
      have : st r = { R r with mem := q.sm } := by simp only [st, mem', h1]
      rw [this]
      rfl⟩)
  obtain ⟨s2, hm2, hn2, _, hp2⟩ := coll_run F hE ⟨.allreduce, .segment, ms⟩ hne (s := s1)
    (fun r => { num := ((rows r : Nat) : Int) })
    (fun r _ => (aggWriteMid env ms (P.root g c) r ((off : Nat) : Int) (st r) (f r).flatten cs).bind (K r))
    (fun r hr => ⟨hlt r hr, hp1 r hr⟩)
  obtain ⟨s3, hm3, hn3, _, hp3⟩ := coll_run F hE ⟨.gatherv, .segment, ms⟩ hne (s := s2)
    (fun r => { bytes := (f r).flatten })
    (fun r parts => (aggWriteTail env ms (P.root g c) r ((off : Nat) : Int) (st r) (ms.map rows) parts).bind (K r))
    (fun r hr => ⟨hlt r hr, by
      rw [hp2 r hr]
      unfold aggWriteMid
      rw [hcs, if_pos (by rw [hsum]; have : (segRows P n f g c).length = l.length := rfl; omega)]
      rfl⟩)
  simp only at hm1 hm2 hm3
  -- the leader
  let lead := P.leader n g c
  have hleadm : lead ∈ ms := SegPlan.leader_mem hroot
  have hel : ∀ r ∈ ms, aggElsize env bb = aggElsize env (R r).bb := fun r hr => by
    have hs := h.shape r (hlt r hr)
    unfold aggElsize
    rw [hs.dtype, hs.nmemb]
  have hparts : gathervBytes (aggElsize env (st lead).bb) (ms.map rows) (ms.map fun r => ({ bytes := (f r).flatten } : Msg)) =
      l.flatten := by
    rw [gathervBytes_eq _ rows (fun r => (f r).flatten) ms (fun r hr => by
      obtain ⟨q, _, h2, _⟩ := hconv r hr
      rw [peek_length_of h2, ← hel r hr]
      show _ = rows r * aggElsize env (R lead).bb
      rw [← hel lead hleadm])]
    exact flatten_flatMap ms f
  have hidx : ∀ r, r ∈ ms → (ms.idxOf r = P.root g c ↔ r = lead) := fun r hr => SegPlan.leader_iff hroot hr
  let KL : Int × Block → Prog (Int × Rank) := fun x =>
    Prog.bind (anyerrorP .segment ms lead x.1 (if x.1 ≠ 0 then some (st lead).fail else (st lead).err)) fun y =>
      K lead (y.1, { st lead with bb := x.2, err := y.2 })
  have hbl := h.block lead (hlt lead hleadm)
  have hsl := h.shape lead (hlt lead hleadm)
  obtain ⟨s4, e, bb', hm4, hp4, hsh', hbo', hmark, hok, hbad⟩ := leadWrite_run (env := env) (bb := bb) (w := w) (nm := nm) hF
    (hlt lead hleadm) (E := WriteEvent env.m bb n p rows P) (st := st lead) hbl hsl (p := p) (off := off) (tot := l.length)
    (h.points lead (hlt lead hleadm)) (by have := h.range; have : off + l.length ≤ rowsBefore rows n := htot; omega)
    (fun op fl h0 hw => by
      have e : l.length = (segRows P n (fun q => List.range (rows q)) g c).length :=
        segRows_length (fun r => by rw [hf]; simp) P n g c
      exact ⟨g, c, rfl, by rw [← e]; exact h0, by rw [← e]; exact hw⟩)
    l rfl (by
      intro x hx
      obtain ⟨r, hr, hx⟩ := List.mem_flatMap.mp hx
      exact h.row_length (hlt r hr) x hx) (s := s3) (K := KL) (by
      rw [hp3 lead hleadm]
      unfold aggWriteTail
      rw [if_pos ((hidx lead hleadm).mpr rfl), hparts, hsum, Prog.bind_assoc]
      congr 1
      funext x
      simp only [KL]
      rw [Prog.bind_assoc]
      rfl)
  -- the exchange of errors
  let rt : Nat → Int := fun r => if r = lead then e else 0
  let err : Nat → Option CStr := fun r => if r = lead then (if e ≠ 0 then some (R r).fail else (R r).err) else (R r).err
  let bb1 : Nat → Block := fun r => if r = lead then bb' else (R r).bb
  obtain ⟨s5, hm5, hn5, _, hp5⟩ := anyerror_run F hE .segment ms hne SegPlan.seg_nodup rt err
    (fun r hr hrt => by
      by_cases hl : r = lead
      · simp only [rt, if_pos hl] at hrt
        simp only [err, if_pos hl, if_pos hrt]
        exact ⟨_, rfl⟩
      · simp only [rt, if_neg hl, ne_eq, not_true_eq_false] at hrt) (s := s4)
    (fun r y => K r (y.1, { st r with bb := bb1 r, err := y.2 }))
    (fun r hr => ⟨hlt r hr, by
      by_cases hl : r = lead
      · subst hl
        rw [hp4]
        simp only [KL, rt, err, bb1, if_true]
        rfl
      · rw [hm4.frame r (by simpa using hl), hp3 r hr]
        unfold aggWriteTail
        rw [if_neg (fun hc => hl ((hidx r hr).mp hc))]
        simp only [rt, err, bb1, if_neg hl]
        rw [Prog.bind_assoc]
        rfl⟩)
  have hmoves := (((hm1.trans hm2).trans hm3).trans (hm4.mono (by
    intro r hr; rw [List.mem_singleton.mp hr]; exact hleadm))).trans hm5
  refine ⟨s5, hmoves, fun k => (hmoves.files k).trans (hinv k), ?_⟩
  have hnod : s3.nodes = s.nodes := by rw [hn3, hn2, hn1]
  by_cases he : e = 0
  · have herr : ∀ r, err r = (R r).err := by
      intro r
      simp only [err, he, ne_eq, not_true_eq_false, if_false]
      split <;> rfl
    obtain ⟨_, hp5⟩ := hp5.resolve_right (by
      rintro ⟨r0, _, h0, _⟩
      apply h0
      simp only [rt, he]
      split <;> rfl)
    obtain ⟨h0, h1, h2⟩ := hok he
    refine ⟨fun r => { st r with bb := bb1 r, err := err r }, Or.inl ⟨fun r hr => ⟨hp5 r hr, ?_⟩, by rw [hn5, h1, hnod]⟩⟩
    obtain ⟨hrn, hG, hS⟩ := hmem r hr
    refine ⟨?_, ?_, ?_, ?_, rfl, rfl, herr r, hmem' r hr, ?_⟩
    · rw [hG, hS]
      intro i hi
      have := h0 i hi
      rw [hnod] at this
      exact (hinv _).mp this
    · simp only [bb1]; split
      · exact hsh'
      · exact h.shape r hrn
    · simp only [bb1]; split
      · exact hbo'
      · exact h.block r hrn
    · rw [hG, hS]
      simp only [bb1]
      by_cases hl : r = lead
      · rw [if_pos hl, if_pos (show r = P.leader n g c from hl), hl]
        exact hmark
      · rw [if_neg hl, if_neg (show ¬ r = P.leader n g c from hl)]
        exact ⟨rfl, id, by omega⟩
    · intro fl
      rw [hG, hS]
      simp only [bb1]
      by_cases hl : r = lead
      · rw [if_pos hl, if_pos (show r = P.leader n g c from hl), h2 fl, hl]
      · rw [if_neg hl, if_neg (show ¬ r = P.leader n g c from hl), Nat.add_zero]
        rw [Nat.mod_eq_of_lt]
        rw [List.getD_eq_getElem?_getD]
        cases hc : (R r).bb.fchecksum[fl]? with
        | none => simp
        | some x => exact (h.block r hrn).layout.ck32 x (List.mem_of_getElem? hc)
  · obtain ⟨r0, hr0, h0, hp5⟩ := hp5.resolve_left (by
      rintro ⟨hall, _⟩
      have := hall lead hleadm
      simp only [rt, if_true] at this
      exact he this)
    have hr0l : r0 = lead := by
      apply Classical.byContradiction
      intro hc
      simp only [rt, if_neg hc, ne_eq, not_true_eq_false] at h0
    subst hr0l
    refine ⟨fun r => { st r with bb := bb1 r, err := err lead }, Or.inr ⟨e, lead, he, hlt _ hleadm, ?_, fun r hr => ⟨?_, ?_⟩⟩⟩
    · intro hh
      apply hbad he
      rw [hnod]
      exact ⟨hh.1 lead (hlt _ hleadm), hh.2⟩
    · rw [hp5 r hr]
      simp only [rt, if_true]
    · simp only [err, if_true, if_pos he]

end

end Verif
