import Verif.Proof.AggSeg
import Verif.Props.Conc
/-!
# The whole collective write, every schedule
-/

set_option autoImplicit false

namespace Verif

open Spec

/-! ## Sums over the leaders -/

theorem sum_or (l : List Nat) (t : Nat → Nat) (A B : Nat → Prop) [DecidablePred A] [DecidablePred B]
    (h : ∀ r ∈ l, A r → ¬ B r) :
    (l.map (fun r => if A r then t r else 0)).sum + (l.map (fun r => if B r then t r else 0)).sum =
      (l.map (fun r => if A r ∨ B r then t r else 0)).sum := by
  induction l with
  | nil => rfl
  | cons a l ih =>
    have := ih (fun r hr => h r (by simp [hr]))
    have ha := h a (by simp)
    simp only [List.map_cons, List.sum_cons]
    by_cases h1 : A a
    · have h2 := ha h1
      simp only [h1, h2, if_true, if_false, true_or]; omega
    · by_cases h2 : B a
      · simp only [h1, h2, if_true, if_false, or_true]; omega
      · simp only [h1, h2, if_false, or_self]; omega

theorem sum_congr (l : List Nat) (t t' : Nat → Nat) (h : ∀ r ∈ l, t r = t' r) : (l.map t).sum = (l.map t').sum := by
  rw [List.map_congr_left h]

theorem sum_single (l : List Nat) (hn : l.Nodup) (a v : Nat) (ha : a ∈ l) :
    (l.map (fun r => if r = a then v else 0)).sum = v := by
  induction l with
  | nil => simp at ha
  | cons b l ih =>
    obtain ⟨h1, h2⟩ := List.nodup_cons.mp hn
    simp only [List.map_cons, List.sum_cons]
    by_cases hb : b = a
    · subst hb
      have : (l.map (fun r => if r = b then v else 0)).sum = 0 := by
        have : l.map (fun r => if r = b then v else 0) = l.map (fun _ => 0) := by
          apply List.map_congr_left
          intro r hr
          rw [if_neg (fun e : r = b => h1 (e ▸ hr))]
        rw [this]
        generalize l.length = k
        clear ih ha hn h1 h2 this
        induction l with
        | nil => rfl
        | cons a l ih => simp [ih]
      rw [if_pos rfl, this]
      rfl
    · rw [if_neg hb, Nat.zero_add]
      exact ih h2 (by simpa [Ne.symm hb] using ha)

section
variable {n : Nat} {rows : Nat → Nat} {conc : Nat} {P : SegPlan}

/-- A sum over the segments is a sum over their leaders. -/
theorem PlanOk.leaders (h : PlanOk n rows conc P) (hh : Nat → Nat → Nat) (h0 : ∀ g c, P.seg n g c = [] → hh g c = 0) :
    Verif.doGroups (fun g c x => x + hh g c) P (List.range (conc + 2)) 0 =
      ((List.range n).map (fun r => if r = P.leader n (P.G r) (P.S r) then hh (P.G r) (P.S r) else 0)).sum := by
  let t : Nat → Nat := fun r => if r = P.leader n (P.G r) (P.S r) then hh (P.G r) (P.S r) else 0
  have hseg : ∀ g c, hh g c = ((List.range n).map (fun r => if P.G r = g ∧ P.S r = c then t r else 0)).sum := by
    intro g c
    by_cases hne : P.seg n g c = []
    · rw [h0 g c hne]
      symm
      have : (List.range n).map (fun r => if P.G r = g ∧ P.S r = c then t r else 0) = (List.range n).map (fun _ => 0) := by
        apply List.map_congr_left
        intro r hr
        rw [if_neg]
        intro hc
        have : r ∈ P.seg n g c := SegPlan.mem_seg.mpr ⟨List.mem_range.mp hr, hc⟩
        rw [hne] at this
        simp at this
      rw [this]
      generalize List.range n = l
      induction l with
      | nil => rfl
      | cons a l ih => simp [ih]
    · have hl := SegPlan.leader_mem (h.root g c hne)
      obtain ⟨hl1, hl2, hl3⟩ := SegPlan.mem_seg.mp hl
      rw [← sum_single (List.range n) List.nodup_range (P.leader n g c) (hh g c) (List.mem_range.mpr hl1)]
      apply sum_congr
      intro r hr
      simp only [t]
      by_cases hc : P.G r = g ∧ P.S r = c
      · rw [if_pos hc, hc.1, hc.2]
      · rw [if_neg hc, if_neg]
        intro e
        rw [e] at hc
        exact hc ⟨hl2, hl3⟩
  have hfrom : ∀ g (k c : Nat) (C : Nat → Prop) [DecidablePred C], (∀ r, C r → ¬ (P.G r = g ∧ c ≤ P.S r)) →
      Verif.doFrom (fun g c x => x + hh g c) g c k (((List.range n).map (fun r => if C r then t r else 0)).sum) =
        ((List.range n).map (fun r => if C r ∨ (P.G r = g ∧ c ≤ P.S r ∧ P.S r < c + k) then t r else 0)).sum := by
    intro g k
    induction k with
    | zero =>
      intro c C _ _
      show ((List.range n).map _).sum = _
      apply sum_congr
      intro r _
      by_cases hC : C r
      · rw [if_pos hC, if_pos (Or.inl hC)]
      · rw [if_neg hC, if_neg]
        rintro (hc | hc)
        · exact hC hc
        · omega
    | succ k ih =>
      intro c C _ hC
      show Verif.doFrom _ g (c + 1) k (_ + hh g c) = _
      rw [hseg g c, sum_or _ _ _ _ (fun r _ hr hc => hC r hr ⟨hc.1, by omega⟩),
        ih (c + 1) (fun r => C r ∨ (P.G r = g ∧ P.S r = c)) ?_]
      · apply sum_congr
        intro r _
        have : ((C r ∨ P.G r = g ∧ P.S r = c) ∨ P.G r = g ∧ c + 1 ≤ P.S r ∧ P.S r < c + 1 + k) ↔
            (C r ∨ P.G r = g ∧ c ≤ P.S r ∧ P.S r < c + (k + 1)) := by
          constructor
          · rintro ((h | h) | h)
            · exact Or.inl h
            · right; omega
            · right; omega
          · rintro (h | h)
            · exact Or.inl (Or.inl h)
            · by_cases e : P.S r = c
              · exact Or.inl (Or.inr ⟨h.1, e⟩)
              · right; omega
        by_cases hc : C r ∨ P.G r = g ∧ c ≤ P.S r ∧ P.S r < c + (k + 1)
        · rw [if_pos hc, if_pos (this.mpr hc)]
        · rw [if_neg hc, if_neg (fun h => hc (this.mp h))]
      · rintro r (hr | hr) hc
        · exact hC r hr ⟨hc.1, by omega⟩
        · omega
  have key : ∀ g, Verif.doGroups (fun g c x => x + hh g c) P (List.range g) 0 =
      ((List.range n).map (fun r => if P.G r < g then t r else 0)).sum := by
    intro g
    induction g with
    | zero =>
      show 0 = _
      simp only [Nat.not_lt_zero, if_false]
      generalize List.range n = l
      induction l with
      | nil => rfl
      | cons a l ih => simpa using ih
    | succ g ih =>
      rw [List.range_succ, doGroups_append, ih]
      show Verif.doFrom _ g (P.start g) (P.stop g - P.start g) _ = _
      rw [hfrom g _ _ (fun r => P.G r < g) (fun r hr hc => by omega)]
      apply sum_congr
      intro r hr
      have hr := h.range r (List.mem_range.mp hr)
      by_cases hc : P.G r < g + 1
      · rw [if_pos hc, if_pos]
        by_cases e : P.G r = g
        · rw [e] at hr; right; omega
        · left; omega
      · rw [if_neg hc, if_neg]; omega
  rw [key]
  apply sum_congr
  intro r hr
  rw [if_pos]
  rcases Nat.eq_zero_or_pos (rows r) with h0 | h0
  · rw [h.empty r (List.mem_range.mp hr) h0]; omega
  · have := h.data r (List.mem_range.mp hr) h0; omega

theorem doGroups_true {put : Nat → Nat → Prop → Prop} (h : ∀ g c x, x → put g c x) (P : SegPlan) :
    ∀ (gs : List Nat) (x : Prop), x → Verif.doGroups put P gs x := by
  have hf : ∀ g (k c : Nat) (x : Prop), x → Verif.doFrom put g c k x := by
    intro g k
    induction k with
    | zero => intro c x hx; exact hx
    | succ k ih => intro c x hx; exact ih _ _ (h _ _ _ hx)
  intro gs
  induction gs with
  | nil => intro x hx; exact hx
  | cons g gs ih => intro x hx; exact ih _ (hf _ _ _ _ hx)

end

theorem sum_mod (l : List Nat) (a b : Nat → Nat) (M : Nat) :
    ((l.map (fun r => (a r + b r) % M)).sum) % M = ((l.map a).sum + (l.map b).sum) % M := by
  induction l with
  | nil => rfl
  | cons x l ih =>
    simp only [List.map_cons, List.sum_cons]
    rw [Nat.add_mod, ih, Nat.mod_mod, ← Nat.add_mod]
    congr 1
    omega

/-! ## Rows after writes inside a range -/

theorem rowsTouched_step {α : Type} {F : Nat → Nat → Fault} {N : Nat} {s s' : Conf α} {e : Event} (h : Step F N s e s')
    {m : Machine} {bb : Block} {p n : Nat} (hpos : 0 < rowSize m bb) {fs : FS}
    (he : ∀ r op f, e = .file r op f → WriteIn m bb p n op)
    (ht : RowsTouched m bb fs s.nodes p n) : RowsTouched m bb fs s'.nodes p n := by
  cases h with
  | coll c hne hall => exact ht
  | file r op k t a nd hr hth hx =>
    have hw := he r op _ rfl
    cases op with
    | fread path off len => exact hw.elim
    | fopen path mode =>
      cases mode with
      | r => exact hw.elim
      | w => exact hw.elim
      | rplus =>
        obtain ⟨_, rfl, _⟩ := FOp.Passive.exec (op := .fopen path .rplus) trivial hx
        exact ht
    | fwrite path off bs =>
      obtain ⟨_, rfl, _⟩ := exec_fwrite hx
      obtain ⟨f, i, c, hf, rfl, h1, h2, rfl, hbl⟩ := hw
      constructor
      · intro q hq hst
        have hrow := ht.outside q hq hst
        have hst' : Stored m ⟨s.nodes, fs.dom⟩ bb q := by
          unfold Stored at hst ⊢
          rw [hrow]; exact hst
        rw [← hrow]
        rw [stored_len m _ bb q hpos] at hst'
        show row m ⟨putBytes s.nodes _ _ _, fs.dom⟩ bb q = _
        rw [← putBytes_eq ⟨s.nodes, fs.dom⟩]
        show (((FS.writeFile ⟨s.nodes, fs.dom⟩ _ _ _).bytes _).drop _).take _ = _
        unfold row
        by_cases hfq : rowFile bb q = f
        · rw [hfq]
          rw [hfq] at hst'
          by_cases hF : IsFile ⟨s.nodes, fs.dom⟩ (fileKey bb.basename (.data f))
          · rw [show resolve (filePath bb.basename (.data f)) = fileKey bb.basename (.data f) from rfl,
              bytes_writeFile_same _ _ _ _ hF]
            apply slice_writeAt_other
            · have hloc := locate_start bb.fsize q
              have hof : rowOff m bb q = (locate bb.fsize q).2 * rowSize m bb := rfl
              rw [hof]
              rw [show (locate bb.fsize q).1 = f from hfq] at hloc
              generalize (locate bb.fsize q).2 = j at *
              have hlen : (bs.take (writtenLen (F r t) bs.length)).length ≤ c * rowSize m bb := by
                rw [List.length_take, ← hbl]; omega
              rcases hq with hq | hq
              · have := Nat.mul_le_mul_right (rowSize m bb) (show j + 1 ≤ i by omega)
                rw [Nat.add_mul] at this
                omega
              · have := Nat.mul_le_mul_right (rowSize m bb) (show i + c ≤ j by omega)
                rw [Nat.add_mul] at this
                omega
            · exact hst'
          · rw [show resolve (filePath bb.basename (.data f)) = fileKey bb.basename (.data f) from rfl,
              writeFile_nofile _ _ _ _ hF]
        · rw [bytes_writeFile_other]
          exact dataKey_ne _ _ _ hfq
      · intro key hk
        show putBytes s.nodes _ _ _ key = _
        rw [← putBytes_eq ⟨s.nodes, fs.dom⟩, node_writeFile_other]
        · exact ht.other key hk
        · exact hk f hf

theorem rowsTouched_run {α : Type} {F : Nat → Nat → Fault} {N : Nat} {s s' : Conf α} {es : List Event} (h : Run F N s es s')
    {m : Machine} {bb : Block} {p n : Nat} (hpos : 0 < rowSize m bb) {fs : FS}
    (he : ∀ e ∈ es, ∀ r op f, e = .file r op f → WriteIn m bb p n op)
    (ht : RowsTouched m bb fs s.nodes p n) : RowsTouched m bb fs s'.nodes p n := by
  induction h with
  | nil s => exact ht
  | cons hs _ ih => exact ih (fun e h => he e (by simp [h])) (rowsTouched_step hs hpos (he _ (by simp)) ht)

/-! ## All schedules -/

section
variable {env : Env} {bb : Block} {w nm n : Nat} {R : Nat → Rank} {p : Nat} {rows sw : Nat → Nat}
  {stored : Nat → Nat → List Byte}

/-- How a collective write ends. -/
def WriteOutcome (env : Env) (bb : Block) (nm n : Nat) (R : Nat → Rank) (p : Nat) (rows sw : Nat → Nat)
    (stored : Nat → Nat → List Byte) (F : Nat → Nat → Fault) (fs : FS) (s : Conf (Int × Rank)) : Prop :=
  (∃ st : Nat → Rank, (∀ r, r < n → (s.thr r).prog = .ret (0, st r) ∧ WriteReturned env bb R sw p (rowsBefore rows n) r (st r)) ∧
    (∀ f, totalChecksum n st f % 4294967296 = (totalChecksum n R f +
      rowsSum bb p (fun i => (allRows n rows nm stored).getD i []) f (rowsBefore rows n)) % 4294967296) ∧
    (0 < rowsBefore rows n → ∃ r, r < n ∧ (st r).bb.dirty = true) ∧
    (∀ i, i < rowsBefore rows n → IsFile fs (fileKey bb.basename (.data (rowFile bb (p + i))))) ∧
    s.nodes = putList env.m bb p (allRows n rows nm stored) fs.node) ∨
  (¬ ((∀ r, r < n → F r = noFaults) ∧ DataFiles fs bb) ∧ ∃ e r0, e ≠ 0 ∧ r0 < n ∧ ∀ r, r < n → ∃ st,
    (s.thr r).prog = .ret (e, st) ∧ st.err = some (R r0).fail)

theorem dataFiles_nodes {fs fs' : FS} (h : fs.node = fs'.node) (bb : Block) : DataFiles fs bb ↔ DataFiles fs' bb := by
  unfold DataFiles IsFile
  rw [h]

theorem allRows_length (n : Nat) (rows : Nat → Nat) (nm : Nat) (stored : Nat → Nat → List Byte) :
    (allRows n rows nm stored).length = rowsBefore rows n := rowsBefore_length (rankRows_length rows nm stored) n

/-- One run of a collective write, and which events occur in it. -/
theorem write_run (h : CollectiveWrite env bb w nm n R p rows sw stored) (concurrency : Int) (threshold : Nat)
    (hc : concurrency < 2147483648) {F : Nat → Nat → Fault} (hF : NoCrash F) (fs : FS) :
    ∃ (P : SegPlan) (conc : Nat) (es : List Event) (s : Conf (Int × Rank)), PlanOk n rows conc P ∧
      Run F n (startWrite env n concurrency threshold R fs) es s ∧ (∀ e ∈ es, WriteEvent env.m bb n p rows P e) ∧
      WriteOutcome env bb nm n R p rows sw stored F fs s := by
  let conc := useConc n concurrency
  have hconc : 0 < conc ∧ conc < 2147483648 := by
    have := h.procs
    simp only [conc, useConc]
    split
    · exact this
    · omega
  have hcnt := h.count
  obtain ⟨hP, hinfo⟩ := planOf_ok conc threshold n rows hconc.1 hconc.2 h.procs.2 (by omega)
  generalize hPe : planOf conc threshold ((List.range n).map rows) = P at hP hinfo
  let f := rankRows rows nm stored
  have hf : ∀ r, (f r).length = rows r := rankRows_length rows nm stored
  let put : Nat → Nat → Nodes → Nodes := fun g c =>
    putList env.m bb (p + segOff P n rows g c) (segRows P n f g c)
  let s0 := startWrite env n concurrency threshold R fs
  let Fin : Nat → Rank → Prop := fun r st => WriteReturned env bb R sw p (rowsBefore rows n) r st ∧
    (∀ i, i < (segRows P n f (P.G r) (P.S r)).length →
      IsFile fs (fileKey bb.basename (.data (rowFile bb (p + segOff P n rows (P.G r) (P.S r) + i))))) ∧
    Marked (R r).bb st.bb (if r = P.leader n (P.G r) (P.S r) then (segRows P n f (P.G r) (P.S r)).length else 0) ∧
    ∀ fl, st.bb.fchecksum.getD fl 0 = ((R r).bb.fchecksum.getD fl 0 +
      if r = P.leader n (P.G r) (P.S r) then
        rowsSum bb (p + segOff P n rows (P.G r) (P.S r)) (fun i => (segRows P n f (P.G r) (P.S r)).getD i []) fl
          (segRows P n f (P.G r) (P.S r)).length
      else 0) % 4294967296
  obtain ⟨s', hm, _, hout⟩ := throttle_run (F := F) (E := WriteEvent env.m bb n p rows P) (fun _ => trivial)
    (segAct_write h hP hF fs.node)
    (by
      intro g c nd hs
      show putList env.m bb _ (segRows P n f g c) nd = nd
      rw [segRows_empty hs, putList_nil])
    (by
      intro g c nd hh
      refine ⟨hh.1, ?_⟩
      have : DataFiles (putRows env.m bb ⟨nd, []⟩ (p + segOff P n rows g c) (fun i => (segRows P n f g c).getD i [])
        (segRows P n f g c).length) bb := dataFiles_putRows hh.2
      exact (dataFiles_nodes rfl bb).mpr this)
    hP.range (concurrency := concurrency) (threshold := threshold) h.procs.1 h.dims hinfo
    (List.range (conc + 2)) List.nodup_range
    (by
      intro r hr
      apply List.mem_range.mpr
      rcases Nat.eq_zero_or_pos (rows r) with h0 | h0
      · rw [hP.empty r hr h0]; omega
      · have := hP.data r hr h0; omega) Fin
    (by
      intro r st hr hd
      have hpt := h.points r hr
      rw [← hd.ptr] at hpt
      obtain ⟨ptr1, h1, h2⟩ := seekRel_forward hd.block.layout (hd.shape.pointsTo hpt) (off := rowsBefore rows n)
        (by rw [hd.shape.size]; exact h.range)
      exact ⟨0, ptr1, h1, ⟨hd.shape.symm'.pointsTo h2, hd.shape, hd.block.layout, hd.mark.attrs, hd.mark.kept, hd.arr, hd.err, hd.mem⟩,
        hd.files, hd.mark, hd.cksum⟩)
    s0 (fun r _ => rfl) (fun k => Iff.rfl)
  obtain ⟨es, hrun, hev⟩ := hm.run
  refine ⟨P, conc, es, s', hP, hrun, hev, ?_⟩
  rcases hout with ⟨hall, hnod⟩ | ⟨hbad, e, r0, he, hr0, hall⟩
  · left
    have hst : ∃ st : Nat → Rank, ∀ r, r < n → (s'.thr r).prog = .ret (0, st r) ∧ Fin r (st r) := by
      refine ⟨fun r => if hr : r < n then (hall r hr).choose else R 0, fun r hr => ?_⟩
      simp only [dif_pos hr]
      exact (hall r hr).choose_spec
    obtain ⟨st, hst⟩ := hst
    refine ⟨st, fun r hr => ⟨(hst r hr).1, (hst r hr).2.1⟩, ?_, ?_, ?_, ?_⟩
    · intro fl
      unfold totalChecksum
      rw [sum_congr (List.range n) (fun r => (st r).bb.fchecksum.getD fl 0) _
        (fun r hr => (hst r (List.mem_range.mp hr)).2.2.2.2 fl), sum_mod]
      congr 2
      rw [← hP.leaders (fun g c => rowsSum bb (p + segOff P n rows g c) (fun i => (segRows P n f g c).getD i []) fl
          (segRows P n f g c).length) (fun g c hs => by rw [segRows_empty hs]; rfl)]
      rw [hP.doGroups (act := fun p l x => x + rowsSum bb p (fun i => l.getD i []) fl l.length) hf (fun p x => rfl) ?_ p 0]
      · rw [Nat.zero_add]
        show rowsSum bb p (fun i => (allRows n rows nm stored).getD i []) fl (allRows n rows nm stored).length = _
        rw [allRows_length]
      · intro p a b x
        rw [List.length_append, rowsSum_add]
        have e1 : rowsSum bb p (fun i => (a ++ b).getD i []) fl a.length = rowsSum bb p (fun i => a.getD i []) fl a.length := by
          apply rowsSum_congr
          intro i hi
          simp [List.getD_eq_getElem?_getD, List.getElem?_append_left hi]
        have e2 : rowsSum bb (p + a.length) (fun i => (a ++ b).getD (a.length + i) []) fl b.length =
            rowsSum bb (p + a.length) (fun i => b.getD i []) fl b.length := by
          apply rowsSum_congr
          intro i hi
          simp [List.getD_eq_getElem?_getD, List.getElem?_append_right]
        rw [e1, e2]
        omega
    · intro hpos
      obtain ⟨q, hq, hq0⟩ : ∃ q, q < n ∧ 0 < rows q := by
        apply Classical.byContradiction
        intro hc
        have : rowsBefore rows n = 0 := by
          unfold rowsBefore
          rw [List.sum_eq_zero_iff_forall_eq_nat]
          intro x hx
          obtain ⟨q, hq, rfl⟩ := List.mem_map.mp hx
          apply Classical.byContradiction
          intro h0
          exact hc ⟨q, List.mem_range.mp hq, by omega⟩
        omega
      have hqm : q ∈ P.seg n (P.G q) (P.S q) := SegPlan.mem_seg.mpr ⟨hq, rfl, rfl⟩
      have hlm := SegPlan.leader_mem (hP.root _ _ (List.ne_nil_of_mem hqm))
      obtain ⟨h1, h2, h3⟩ := SegPlan.mem_seg.mp hlm
      refine ⟨_, h1, (hst _ h1).2.2.2.1.set ?_⟩
      rw [h2, h3, if_pos rfl]
      apply List.length_pos_iff.mpr
      intro he
      have : f q = [] := by
        unfold segRows at he
        exact List.flatMap_eq_nil_iff.mp he q hqm
      have := hf q
      simp_all
    · have := hP.doGroups (act := fun p l (x : Prop) => x ∧ ∀ i, i < l.length →
        IsFile fs (fileKey bb.basename (.data (rowFile bb (p + i))))) hf (by intro p x; simp) ?_ p True
      · rw [← allRows_length n rows nm stored]
        have hseg : ∀ g c (i : Nat), i < (segRows P n f g c).length →
            IsFile fs (fileKey bb.basename (.data (rowFile bb (p + segOff P n rows g c + i)))) := by
          intro g c i hi
          by_cases hs : P.seg n g c = []
          · rw [segRows_empty hs] at hi; simp at hi
          · obtain ⟨r, hr⟩ := List.exists_mem_of_ne_nil _ hs
            obtain ⟨h1, h2, h3⟩ := SegPlan.mem_seg.mp hr
            have := (hst r h1).2.2.1
            rw [h2, h3] at this
            exact this i hi
        have h2 := this.mp (doGroups_true (fun g c x hx => ⟨hx, hseg g c⟩) P _ True trivial)
        exact h2.2
      · intro p a b x
        apply propext
        constructor
        · rintro ⟨hx, hi⟩
          refine ⟨⟨hx, fun i h => hi i (by rw [List.length_append]; omega)⟩, fun i h => ?_⟩
          have := hi (a.length + i) (by rw [List.length_append]; omega)
          rwa [← Nat.add_assoc] at this
        · rintro ⟨⟨hx, h1⟩, h2⟩
          refine ⟨hx, fun i hi => ?_⟩
          by_cases hia : i < a.length
          · exact h1 i hia
          · have := h2 (i - a.length) (by rw [List.length_append] at hi; omega)
            rwa [show p + a.length + (i - a.length) = p + i by omega] at this
    · rw [hnod, putGroups_do]
      exact hP.doGroups (act := fun p l nd => putList env.m bb p l nd) hf (fun p x => putList_nil _ _ _ _)
        (fun p a b x => putList_append _ _ _ _ _ _) p fs.node
  · right
    refine ⟨fun hh => hbad ⟨hh.1, (dataFiles_nodes rfl bb).mpr hh.2⟩, e, r0, he, hr0, hall⟩

theorem WriteEvent.indep {P : SegPlan} {conc : Nat} (hP : PlanOk n rows conc P) {m : Machine} {a b : Event}
    (ha : WriteEvent m bb n p rows P a) (hb : WriteEvent m bb n p rows P b) : Indep a b := by
  cases a with
  | coll c => trivial
  | file r o f =>
    cases b with
    | coll c => trivial
    | file r' o' f' =>
      intro hne
      obtain ⟨g, c, hr, h0, hw⟩ := ha
      obtain ⟨g', c', hr', h0', hw'⟩ := hb
      refine hw.commute ?_ hw' f f'
      have := hP.seg_disjoint (f := fun q => List.range (rows q)) (by intro r; simp) (g := g) (c := c) (g' := g') (c' := c')
        (List.length_pos_iff.mp h0) (List.length_pos_iff.mp h0') (by
          rintro ⟨rfl, rfl⟩
          exact hne (hr.trans hr'.symm))
      omega

theorem WriteOutcome.finished {F : Nat → Nat → Fault} {fs : FS} {s : Conf (Int × Rank)}
    (h : WriteOutcome env bb nm n R p rows sw stored F fs s) : s.Finished n := by
  intro r hr
  rcases h with ⟨st, hst, _⟩ | ⟨_, e, r0, _, _, hst⟩
  · exact ⟨_, (hst r hr).1⟩
  · obtain ⟨st, h1, _⟩ := hst r hr
    exact ⟨_, h1⟩

/-- Every run of a collective write. -/
theorem write_runs (h : CollectiveWrite env bb w nm n R p rows sw stored) (concurrency : Int) (threshold : Nat)
    (hc : concurrency < 2147483648) {F : Nat → Nat → Fault} (hF : NoCrash F) (fs : FS) :
    ∃ B, ∀ es s, Run F n (startWrite env n concurrency threshold R fs) es s → es.length ≤ B ∧
      RowsTouched env.m bb fs s.nodes p (rowsBefore rows n) ∧
      (s.Stuck F n → WriteOutcome env bb nm n R p rows sw stored F fs s) := by
  obtain ⟨P, conc, es0, s0, hP, hrun, hev, hout⟩ := write_run h concurrency threshold hc hF fs
  have hI : ∀ a ∈ es0, ∀ b ∈ es0, Indep a b := fun a ha b hb => (hev a ha).indep hP (hev b hb)
  refine ⟨es0.length, fun es s hr => ?_⟩
  obtain ⟨h1, h2⟩ := hrun.unique hF hout.finished hI hr
  refine ⟨h1, ?_, fun hs => ?_⟩
  · obtain ⟨es', _, hp⟩ := hrun.confluent hF hout.finished hI hr
    have hrs : 0 < rowSize env.m bb := by
      have hb := h.block 0 h.procs.1
      have hs := h.shape 0 h.procs.1
      have := hb.dummy.rowSize
      have e : rowSize env.m bb = rowSize env.m (R 0).bb := by unfold rowSize; rw [hs.dtype, hs.nmemb]
      rw [e, this]
      exact Nat.mul_pos hb.item0 hb.memb0
    refine rowsTouched_run hr hrs ?_ ⟨fun _ _ _ => rfl, fun _ _ => rfl⟩
    intro e he r op fl hee
    have := hev e (hp.subset (by simp [he]))
    rw [hee] at this
    obtain ⟨g, c, _, h0, hw⟩ := this
    have hs : P.seg n g c ≠ [] := by
      intro hs
      rw [segRows_empty hs] at h0
      simp at h0
    have := seg_end (P := P) (n := n) (rows := rows) (f := fun q => List.range (rows q)) (by simp) hs
    exact hw.sub (by omega) (by omega)
  · rw [h2 hs]
    exact hout

end

end Verif
