import Verif.Spec.History
import Verif.Proof.Torn
/-!
# Histories of writes
-/

set_option autoImplicit false

namespace Verif

open Spec

theorem rowsSum_sumN (bb : Block) (p : Nat) (rows : Nat → List Byte) (f n : Nat) :
    rowsSum bb p rows f n = sumN (fun i => if rowFile bb (p + i) = f then byteSum (rows i) else 0) n := by
  induction n with
  | zero => rfl
  | succ n ih => simp only [rowsSum, sumN, ih]

theorem sumN_congr {g h : Nat → Nat} {n : Nat} (e : ∀ i, i < n → g i = h i) : sumN g n = sumN h n := by
  induction n with
  | zero => rfl
  | succ n ih => simp only [sumN]; rw [ih (fun i hi => e i (by omega)), e n (by omega)]

theorem sumN_zero (n : Nat) : sumN (fun _ => 0) n = 0 := by
  induction n with
  | zero => rfl
  | succ n ih => simp [sumN, ih]

theorem sumN_add (g h : Nat → Nat) (n : Nat) : sumN (fun i => g i + h i) n = sumN g n + sumN h n := by
  induction n with
  | zero => rfl
  | succ n ih => simp only [sumN, ih]; omega

theorem sumN_split (g : Nat → Nat) (a b : Nat) :
    sumN g (a + b) = sumN g a + sumN (fun i => g (a + i)) b := by
  induction b with
  | zero => simp [sumN]
  | succ b ih => rw [← Nat.add_assoc]; simp only [sumN, ih]; omega

/-- A sum over an interval as a sum over everything. -/
theorem sumN_interval (G : Nat → Nat) (p n S : Nat) (h : p + n ≤ S) :
    sumN (fun i => G (p + i)) n = sumN (fun r => if p ≤ r ∧ r < p + n then G r else 0) S := by
  obtain ⟨k, rfl⟩ : ∃ k, S = p + n + k := ⟨S - (p + n), by omega⟩
  rw [sumN_split, sumN_split]
  have e1 : sumN (fun r => if p ≤ r ∧ r < p + n then G r else 0) p = 0 := by
    rw [sumN_congr (h := fun _ => 0) (fun i hi => by rw [if_neg (by omega)]), sumN_zero]
  have e2 : sumN (fun i => if p ≤ p + n + i ∧ p + n + i < p + n then G (p + n + i) else 0) k = 0 := by
    rw [sumN_congr (h := fun _ => 0) (fun i hi => by rw [if_neg (by omega)]), sumN_zero]
  rw [e1, e2]
  have e3 : sumN (fun i => if p ≤ p + i ∧ p + i < p + n then G (p + i) else 0) n =
      sumN (fun i => G (p + i)) n :=
    sumN_congr (fun i hi => by rw [if_pos (by omega)])
  rw [e3]
  omega

section
variable {env : Env} {bb : Block} {w nm : Nat}

theorem Spec.WOp.Legal.legalWrite {op : WOp} (h : op.Legal env bb w nm) (bb' : Block)
    (hs : SameShape bb bb') (hL : Layout bb') (ptr : Ptr) (hp : PointsTo bb' ptr op.row) :
    LegalWrite env bb' ptr op.arr op.mem op.row w op.sw nm op.stored :=
  { ok := hs.xferOk h.ok hL.nck hL.ck32, dis := h.dis, points := hp, range := by rw [hs.size]; exact h.range,
    conv := by rw [hs.dtype]; exact h.conv }

theorem Spec.WOp.Legal.stored_length {op : WOp} (h : op.Legal env bb w nm) (e : Nat)
    (he : e < op.rows nm * nm) : (op.stored e).length = w :=
  h.ok.out_length op.mem e _ (h.conv e he)

theorem Spec.WOp.Legal.bytes_length {op : WOp} (h : op.Legal env bb w nm) (r : Nat)
    (hr : op.covers nm r = true) : (op.bytes nm r).length = rowSize env.m bb := by
  have hr := of_decide_eq_true hr
  unfold WOp.bytes
  rw [rowOfElems_length op.stored w nm (op.rows nm) (fun e he => h.stored_length e he) _ (by omega),
    h.ok.rowSize]

/-- The file system after a history. -/
def applyOps (m : Machine) (bb : Block) (nm : Nat) : List WOp → FS → FS
  | [], fs => fs
  | op :: ops, fs => applyOps m bb nm ops
      (putRows m bb fs op.row (rowOfElems op.stored nm) (op.rows nm))

theorem applyOps_shape {bb' : Block} (h : SameShape bb bb') (m : Machine) (ops : List WOp) (fs : FS) :
    applyOps m bb' nm ops fs = applyOps m bb nm ops fs := by
  induction ops generalizing fs with
  | nil => rfl
  | cons op ops ih => simp only [applyOps]; rw [h.putRows, ih]

theorem writtenSum_shape {bb' : Block} (h : SameShape bb bb') (f : Nat) (ops : List WOp) :
    writtenSum bb' nm f ops = writtenSum bb nm f ops := by
  induction ops with
  | nil => rfl
  | cons op ops ih =>
    simp only [writtenSum]
    rw [ih]
    congr 1
    exact sumN_congr (fun i _ => by rw [h.rowFile])

/-- All data files that the history needs are there. -/
def OpsFiles (fs : FS) (bb : Block) (nm : Nat) (ops : List WOp) : Prop :=
  ∀ op ∈ ops, ∀ i, i < op.rows nm → IsFile fs (fileKey bb.basename (.data (rowFile bb (op.row + i))))

/-- What is known after a history of legal writes. -/
structure RunDone (env : Env) (bb : Block) (nm : Nat) (ops : List WOp) (wd : World)
    (r : Block × Bool) (w' : World) : Prop where
  faults : w'.faults = wd.faults
  shape : SameShape bb r.1
  layout : Layout r.1
  attrs : r.1.attrset = bb.attrset
  fs : r.2 = true → w'.fs = applyOps env.m bb nm ops wd.fs
  files : r.2 = true → OpsFiles wd.fs bb nm ops
  cksum : r.2 = true → ∀ f, r.1.fchecksum.getD f 0 =
    (bb.fchecksum.getD f 0 + writtenSum bb nm f ops) % 4294967296
  succeeds : wd.faults = noFaults → DataFiles wd.fs bb → r.2 = true

theorem runWrites_spec (ops : List WOp) :
    ∀ (bb : Block) (wd : World), Layout bb → (∀ op ∈ ops, op.Legal env bb w nm) →
    wpc (runWrites env bb ops) wd (RunDone env bb nm ops wd)
      (fun w' => wd.faults ≠ noFaults) := by
  induction ops with
  | nil =>
    intro bb wd hL _
    simp only [runWrites]
    rw [wpc_pure]
    exact ⟨rfl, SameShape.rfl' bb, hL, rfl, fun _ => rfl, fun _ op hop => by simp at hop,
      fun _ f => by
        simp only [writtenSum, Nat.add_zero]
        rw [Nat.mod_eq_of_lt]
        by_cases hf : f < bb.fchecksum.length
        · rw [List.getD_eq_getElem?_getD, List.getElem?_eq_getElem hf]
          exact hL.ck32 _ (List.getElem_mem hf)
        · rw [List.getD_eq_getElem?_getD, List.getElem?_eq_none (by omega)]
          simp,
      fun _ _ => rfl⟩
  | cons op ops ih =>
    intro bb wd hL hops
    have hop := hops op (by simp)
    have hrange := hop.range
    have hsz := hL.size
    simp only [runWrites]
    rw [wpc_bind]
    obtain ⟨ptr, hp1, hp2, _⟩ := seek_nat bb hL ⟨0, 0, 0⟩ op.row (by omega)
    rw [hp1, wpc_lift_some]
    simp only [ne_eq, not_true_eq_false, if_false]
    rw [wpc_bind]
    have hlw := hop.legalWrite bb (SameShape.rfl' bb) hL ptr hp2
    have hspec := blockWrite_spec env bb op.arr w op.sw nm hlw.ok hlw.dis op.stored ptr op.row op.mem wd
      hlw.points (by rw [← hlw.ok.layout.size]; exact hlw.range) hlw.conv
    refine wpc_mono hspec ?_ (fun w' hw' => hw'.2)
    intro x w1 hx
    by_cases hrc : x.rc = 0
    · rw [if_neg (by simp [hrc])]
      have hops' : ∀ o ∈ ops, o.Legal env x.bb w nm := by
        intro o ho
        have := hops o (by simp [ho])
        exact { ok := hx.shape.xferOk this.ok hx.layout.nck hx.layout.ck32, dis := this.dis,
                range := by rw [hx.shape.size]; exact this.range,
                conv := by rw [hx.shape.dtype]; exact this.conv }
      refine wpc_mono (ih x.bb w1 hx.layout hops') ?_ (fun w' hw' => by rw [← hx.faults]; exact hw')
      intro r w2 hr
      obtain ⟨d1, d2, d3⟩ := hx.done hrc
      refine ⟨by rw [hr.faults, hx.faults], hx.shape.trans' hr.shape, hr.layout,
        by rw [hr.attrs, hx.attrs], ?_, ?_, ?_, ?_⟩
      · intro h2
        rw [hr.fs h2, d1, applyOps_shape hx.shape]
        rfl
      · intro h2 o ho
        rcases List.mem_cons.mp ho with rfl | ho
        · exact d2
        · intro i hi
          have := hr.files h2 o ho i hi
          rw [hx.shape.base, hx.shape.rowFile, d1, isFile_putRows] at this
          exact this
      · intro h2 f
        rw [hr.cksum h2 f, hx.cksum hrc f, writtenSum_shape hx.shape, rowsSum_sumN]
        simp only [writtenSum]
        have e : sumN (fun i => if rowFile bb (op.row + i) = f then
            byteSum (op.bytes nm (op.row + i)) else 0) (op.rows nm) =
            sumN (fun i => if rowFile bb (op.row + i) = f then
              byteSum (rowOfElems op.stored nm i) else 0) (op.arr.size / nm) := by
          apply sumN_congr
          intro i _
          unfold WOp.bytes
          rw [Nat.add_sub_cancel_left]
        rw [e]
        omega
      · intro hnf hdf
        refine hr.succeeds (by rw [hx.faults]; exact hnf) ?_
        intro f hf
        rw [hx.shape.base, d1, isFile_putRows]
        rw [hx.shape.nfile] at hf
        exact hdf f hf
    · rw [if_pos hrc, wpc_pure]
      exact ⟨hx.faults, hx.shape, hx.layout, hx.attrs, fun h => by simp at h, fun h => by simp at h,
        fun h => by simp at h, fun h1 h2 => absurd (hx.succeeds h1 h2) hrc⟩

/-- The rows after a history. -/
theorem applyOps_rows (ops : List WOp) : ∀ (fs : FS), (∀ op ∈ ops, op.Legal env bb w nm) →
    OpsFiles fs bb nm ops → ∀ r,
    (∀ b, lastRow nm ops r = some b → row env.m (applyOps env.m bb nm ops fs) bb r = b ∧
      b.length = rowSize env.m bb) ∧
    (lastRow nm ops r = none → Stored env.m fs bb r →
      row env.m (applyOps env.m bb nm ops fs) bb r = row env.m fs bb r) := by
  induction ops with
  | nil =>
    intro fs _ _ r
    exact ⟨fun b hb => by simp [lastRow] at hb, fun _ _ => rfl⟩
  | cons op ops ih =>
    intro fs hops hf r
    have hop := hops op (by simp)
    have hlen : ∀ i, i < op.rows nm → (rowOfElems op.stored nm i).length = rowSize env.m bb := by
      intro i hi
      rw [rowOfElems_length op.stored w nm (op.rows nm) (fun e he => hop.stored_length e he) i hi,
        hop.ok.rowSize]
    have hih := ih (putRows env.m bb fs op.row (rowOfElems op.stored nm) (op.rows nm))
      (fun o ho => hops o (by simp [ho]))
      (fun o ho i hi => by rw [isFile_putRows]; exact hf o (by simp [ho]) i hi) r
    simp only [applyOps, lastRow]
    cases hl : lastRow nm ops r with
    | some b =>
      simp only
      exact ⟨fun b' hb' => by
          injection hb' with hb'; subst hb'; exact hih.1 b hl, fun h => by simp at h⟩
    | none =>
      simp only
      by_cases hc : op.covers nm r = true
      · rw [if_pos hc]
        have hc' := of_decide_eq_true hc
        have hrow : row env.m (putRows env.m bb fs op.row (rowOfElems op.stored nm) (op.rows nm)) bb r =
            op.bytes nm r := by
          have := row_putRows_in env.m bb fs op.row (rowOfElems op.stored nm) (op.rows nm) hlen
            (hf op (by simp)) (r - op.row) (by omega)
          rw [show op.row + (r - op.row) = r by omega] at this
          exact this
        have hblen := hop.bytes_length r hc
        refine ⟨fun b hb => ?_, fun h => by simp at h⟩
        injection hb with hb
        subst hb
        refine ⟨?_, hblen⟩
        rw [hih.2 hl (by unfold Stored; rw [hrow]; exact hblen), hrow]
      · rw [if_neg hc]
        refine ⟨fun b hb => by simp at hb, fun _ hs => ?_⟩
        have hc' : ¬ (op.row ≤ r ∧ r < op.row + op.rows nm) := fun h => hc (decide_eq_true h)
        have hrow := row_putRows_out env.m bb fs op.row (rowOfElems op.stored nm) (op.rows nm)
          (fun i hi => Nat.le_of_eq (hlen i hi)) r (by omega) hs
        rw [hih.2 hl (by unfold Stored; rw [hrow]; exact hs), hrow]

/-! ## Each row once -/

/-- Number of writes of the history that address row `r`. -/
def coverCount (nm : Nat) (ops : List WOp) (r : Nat) : Nat := (ops.filter (·.covers nm r)).length

/-- Sum over the history of the bytes written to row `r`. -/
def rowBytesSum (nm : Nat) : List WOp → Nat → Nat
  | [], _ => 0
  | op :: ops, r => (if op.covers nm r then byteSum (op.bytes nm r) else 0) + rowBytesSum nm ops r

theorem cover_none (ops : List WOp) (r : Nat) (h : coverCount nm ops r = 0) :
    lastRow nm ops r = none ∧ rowBytesSum nm ops r = 0 := by
  induction ops with
  | nil => exact ⟨rfl, rfl⟩
  | cons op ops ih =>
    unfold coverCount at h
    rw [List.filter_cons] at h
    split at h
    · simp at h
    · rename_i hc
      obtain ⟨h1, h2⟩ := ih h
      simp [lastRow, rowBytesSum, h1, h2, hc]

theorem cover_once (ops : List WOp) (r : Nat) (h : coverCount nm ops r = 1) :
    ∃ b, lastRow nm ops r = some b ∧ rowBytesSum nm ops r = byteSum b := by
  induction ops with
  | nil => simp [coverCount] at h
  | cons op ops ih =>
    unfold coverCount at h
    rw [List.filter_cons] at h
    split at h
    · rename_i hc
      simp only [List.length_cons] at h
      obtain ⟨h1, h2⟩ := cover_none (nm := nm) ops r (by unfold coverCount; omega)
      exact ⟨_, by simp only [lastRow, h1, hc, if_true]; rfl, by simp [rowBytesSum, h2, hc]⟩
    · rename_i hc
      obtain ⟨b, h1, h2⟩ := ih h
      exact ⟨b, by simp only [lastRow, h1], by simp [rowBytesSum, h2, hc]⟩

/-- The sum over writes is a sum over rows. -/
theorem writtenSum_rows (f : Nat) (ops : List WOp) (S : Nat)
    (h : ∀ op ∈ ops, op.row + op.rows nm ≤ S) :
    writtenSum bb nm f ops = sumN (fun r => if rowFile bb r = f then rowBytesSum nm ops r else 0) S := by
  induction ops with
  | nil =>
    simp only [writtenSum, rowBytesSum]
    rw [sumN_congr (h := fun _ => 0) (fun i _ => by split <;> rfl), sumN_zero]
  | cons op ops ih =>
    simp only [writtenSum]
    rw [ih (fun o ho => h o (by simp [ho])),
      sumN_interval (fun r => if rowFile bb r = f then byteSum (op.bytes nm r) else 0) op.row
        (op.rows nm) S (h op (by simp)), ← sumN_add]
    apply sumN_congr
    intro r _
    simp only [rowBytesSum, WOp.covers, decide_eq_true_eq]
    by_cases h1 : rowFile bb r = f <;> simp [h1]

/-- Rows of file `f` are an interval. -/
theorem rowFile_iff (hL : Layout bb) (f r : Nat) (hr : r < bb.fsize.sum) :
    rowFile bb r = f ↔ start bb.fsize f ≤ r ∧ r < start bb.fsize (f + 1) := by
  constructor
  · intro h
    have h1 := locate_start bb.fsize r
    have h2 := locate_lt bb.fsize r hr
    unfold rowFile at h
    rw [h] at h1 h2
    exact ⟨by omega, h2.2⟩
  · rintro ⟨h1, h2⟩
    unfold rowFile
    rw [locate_unique bb.fsize f r h1 h2]

theorem start_succ' (fsize : List Nat) (f : Nat) (hf : f < fsize.length) :
    start fsize (f + 1) = start fsize f + fsize[f] := by
  unfold start
  rw [List.take_succ_eq_append_getElem hf, List.sum_append]
  simp

theorem byteSum_flatN (g : Nat → List Byte) (n : Nat) :
    byteSum (flatN g n) = sumN (fun i => byteSum (g i)) n := by
  induction n with
  | zero => rfl
  | succ n ih => simp only [flatN, sumN, byteSum_append, ih]

theorem flatN_slices (d : List Byte) (R n : Nat) (h : d.length = n * R) :
    flatN (fun i => (d.drop (i * R)).take R) n = d := by
  have key : ∀ k, k ≤ n → flatN (fun i => (d.drop (i * R)).take R) k = d.take (k * R) := by
    intro k
    induction k with
    | zero => intro _; simp [flatN]
    | succ k ih =>
      intro hk
      simp only [flatN]
      rw [ih (by omega), Nat.add_mul, Nat.one_mul, List.take_add]
  rw [key n (Nat.le_refl _), ← h, List.take_length]

/-- No data file ever grows beyond its rows. -/
theorem putRows_length (hL : Layout bb) (m : Machine) (fs : FS) (p : Nat) (rows : Nat → List Byte) (n : Nat)
    (hl : ∀ i, i < n → (rows i).length = rowSize m bb) (hpn : p + n ≤ bb.fsize.sum)
    (f : Nat) (hf : f < bb.fsize.length) (hR : 0 < rowSize m bb)
    (h0 : (fs.bytes (fileKey bb.basename (.data f))).length ≤ bb.fsize[f] * rowSize m bb) :
    ((putRows m bb fs p rows n).bytes (fileKey bb.basename (.data f))).length ≤
      bb.fsize[f] * rowSize m bb := by
  induction n with
  | zero => exact h0
  | succ n ih =>
    have ih := ih (fun i hi => hl i (by omega)) (by omega)
    simp only [putRows]
    unfold putRow
    by_cases hk : rowFile bb (p + n) = f
    · rw [hk]
      by_cases hF : IsFile (putRows m bb fs p rows n) (fileKey bb.basename (.data f))
      · rw [bytes_writeFile_same _ _ _ _ hF]
        have hne : rows n ≠ [] := by
          intro h
          have := hl n (by omega)
          rw [h] at this
          simp at this
          omega
        rw [writeAt_length _ _ _ hne, hl n (by omega)]
        have h1 := (rowFile_iff hL f (p + n) (by omega)).mp hk
        rw [start_succ' _ _ hf] at h1
        have h2 := locate_unique bb.fsize f (p + n) h1.1 (by rw [start_succ' _ _ hf]; exact h1.2)
        unfold rowOff
        rw [h2]
        simp only
        have h3 : (p + n - start bb.fsize f + 1) * rowSize m bb ≤ bb.fsize[f] * rowSize m bb :=
          Nat.mul_le_mul_right _ (by omega)
        rw [Nat.add_mul, Nat.one_mul] at h3
        omega
      · rw [writeFile_nofile _ _ _ _ hF]
        exact ih
    · rw [bytes_writeFile_other]
      · exact ih
      · exact dataKey_ne _ _ _ (fun e => hk e.symm)

theorem applyOps_length (hL : Layout bb) (f : Nat) (hf : f < bb.fsize.length)
    (hR : 0 < rowSize env.m bb) (ops : List WOp) : ∀ fs : FS,
    (∀ op ∈ ops, op.Legal env bb w nm) →
    (fs.bytes (fileKey bb.basename (.data f))).length ≤ bb.fsize[f] * rowSize env.m bb →
    ((applyOps env.m bb nm ops fs).bytes (fileKey bb.basename (.data f))).length ≤
      bb.fsize[f] * rowSize env.m bb := by
  induction ops with
  | nil => intro fs _ h; exact h
  | cons op ops ih =>
    intro fs hops h
    have hop := hops op (by simp)
    simp only [applyOps]
    apply ih _ (fun o ho => hops o (by simp [ho]))
    apply putRows_length hL env.m fs op.row _ _ _ (by rw [← hL.size]; exact hop.range) f hf hR h
    intro i hi
    rw [rowOfElems_length op.stored w nm (op.rows nm) (fun e he => hop.stored_length e he) i hi,
      hop.ok.rowSize]

/-- If each row is written exactly once to files that were empty, the bytes of a file add up to the
bytes written into it. -/
theorem once_sum (hL : Layout bb) (ops : List WOp) (fs : FS)
    (hops : ∀ op ∈ ops, op.Legal env bb w nm) (hfiles : OpsFiles fs bb nm ops)
    (hw : 0 < rowSize env.m bb)
    (hempty : ∀ f, f < bb.nfile → fs.bytes (fileKey bb.basename (.data f)) = [])
    (honce : ∀ r, r < bb.size → coverCount nm ops r = 1) (f : Nat) (hf : f < bb.nfile) :
    byteSum ((applyOps env.m bb nm ops fs).bytes (fileKey bb.basename (.data f))) =
      writtenSum bb nm f ops := by
  have hf' : f < bb.fsize.length := by rw [hL.nfile]; exact hf
  have hsum := start_succ' bb.fsize f hf'
  have hle : start bb.fsize (f + 1) ≤ bb.fsize.sum := start_le _ _
  have hrows : ∀ r, r < bb.fsize.sum →
      row env.m (applyOps env.m bb nm ops fs) bb r = (lastRow nm ops r).getD [] ∧
      byteSum (row env.m (applyOps env.m bb nm ops fs) bb r) = rowBytesSum nm ops r ∧
      Stored env.m (applyOps env.m bb nm ops fs) bb r := by
    intro r hr
    obtain ⟨b, h1, h2⟩ := cover_once (nm := nm) ops r (honce r (by rw [hL.size]; exact hr))
    obtain ⟨h3, h4⟩ := (applyOps_rows ops fs hops hfiles r).1 b h1
    refine ⟨by rw [h3, h1]; rfl, by rw [h3, h2], by unfold Stored; rw [h3, h4]⟩
  rw [writtenSum_rows f ops bb.fsize.sum (fun op hop => by rw [← hL.size]; exact (hops op hop).range)]
  have hlen : ((applyOps env.m bb nm ops fs).bytes (fileKey bb.basename (.data f))).length =
      bb.fsize[f] * rowSize env.m bb := by
    apply Nat.le_antisymm
    · apply applyOps_length hL f hf' hw ops fs hops
      rw [hempty f hf]; simp
    · by_cases hz : bb.fsize[f] = 0
      · rw [hz]; simp
      · have hr : start bb.fsize f + (bb.fsize[f] - 1) < bb.fsize.sum := by omega
        have hst := (hrows _ hr).2.2
        rw [stored_len _ _ _ _ hw] at hst
        have hloc := locate_unique bb.fsize f (start bb.fsize f + (bb.fsize[f] - 1)) (by omega) (by omega)
        unfold rowOff rowFile at hst
        rw [hloc] at hst
        simp only at hst
        have e : start bb.fsize f + (bb.fsize[f] - 1) - start bb.fsize f + 1 = bb.fsize[f] := by omega
        rw [← e, Nat.add_mul, Nat.one_mul]
        exact hst
  rw [← flatN_slices _ _ _ hlen, byteSum_flatN]
  rw [show (fun r => if rowFile bb r = f then rowBytesSum nm ops r else 0) =
    (fun r => if rowFile bb r = f then rowBytesSum nm ops r else 0) from rfl]
  have e1 : sumN (fun r => if rowFile bb r = f then rowBytesSum nm ops r else 0) bb.fsize.sum =
      sumN (fun r => if start bb.fsize f ≤ r ∧ r < start bb.fsize f + bb.fsize[f] then
        rowBytesSum nm ops r else 0) bb.fsize.sum := by
    apply sumN_congr
    intro r hr
    have := rowFile_iff hL f r hr
    rw [hsum] at this
    by_cases h : rowFile bb r = f
    · rw [if_pos h, if_pos (this.mp h)]
    · rw [if_neg h, if_neg (fun hh => h (this.mpr hh))]
  rw [e1, ← sumN_interval (rowBytesSum nm ops) (start bb.fsize f) bb.fsize[f] _ (by omega)]
  apply sumN_congr
  intro i hi
  have hr : start bb.fsize f + i < bb.fsize.sum := by omega
  rw [← (hrows _ hr).2.1]
  unfold row
  have hloc := locate_unique bb.fsize f (start bb.fsize f + i) (by omega) (by omega)
  unfold rowOff rowFile
  rw [hloc]
  simp only
  rw [Nat.add_sub_cancel_left]

end

end Verif
