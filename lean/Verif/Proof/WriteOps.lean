import Verif.Proof.ProcOps
import Verif.Proof.Path
/-!
# Which operations `big_block_write` and `big_block_read` do
-/

set_option autoImplicit false

namespace Verif

open Spec

/-- An operation of a write of rows `p, ..., p+n-1`: opening a file for update, or writing some whole rows of
one file, all of them among those rows. -/
def WriteIn (m : Machine) (bb : Block) (p n : Nat) : FOp → Prop
  | .fopen _ .rplus => True
  | .fwrite path off bs => ∃ f r c, f < bb.nfile ∧ path = filePath bb.basename (.data f) ∧
      p ≤ start bb.fsize f + r ∧ start bb.fsize f + r + c ≤ p + n ∧
      off = r * rowSize m bb ∧ bs.length = c * rowSize m bb
  | _ => False

theorem WriteIn.sub {m : Machine} {bb : Block} {p n p' n' : Nat} (h1 : p' ≤ p) (h2 : p + n ≤ p' + n') {op : FOp}
    (h : WriteIn m bb p n op) : WriteIn m bb p' n' op := by
  cases op with
  | fopen path mode => cases mode <;> exact h
  | fread path off len => exact h
  | fwrite path off bs =>
    obtain ⟨f, r, c, a1, a2, a3, a4, a5, a6⟩ := h
    exact ⟨f, r, c, a1, a2, by omega, by omega, a5, a6⟩

theorem WriteIn.shape {m : Machine} {bb bb' : Block} (hs : SameShape bb bb') {p n : Nat} {op : FOp}
    (h : WriteIn m bb' p n op) : WriteIn m bb p n op := by
  cases op with
  | fopen path mode => cases mode <;> exact h
  | fread path off len => exact h
  | fwrite path off bs =>
    obtain ⟨f, r, c, a1, a2, a3, a4, a5, a6⟩ := h
    have hR : rowSize m bb' = rowSize m bb := by unfold rowSize; rw [hs.dtype, hs.nmemb]
    rw [hs.nfile] at a1
    rw [hs.base] at a2
    rw [hs.fsize] at a3 a4
    rw [hR] at a5 a6
    exact ⟨f, r, c, a1, a2, a3, a4, a5, a6⟩

/-- Operations of writes to disjoint rows commute. -/
theorem WriteIn.commute {m : Machine} {bb : Block} {p n p' n' : Nat} (hd : p + n ≤ p' ∨ p' + n' ≤ p) {o o' : FOp}
    (h : WriteIn m bb p n o) (h' : WriteIn m bb p' n' o') (f f' : Fault) : Commute o f o' f' := by
  cases o with
  | fread path off len => exact h.elim
  | fopen path mode =>
    cases mode with
    | r => exact h.elim
    | w => exact h.elim
    | rplus =>
      cases o' with
      | fread path off len => exact h'.elim
      | fopen path' mode' =>
        cases mode' with
        | r => exact h'.elim
        | w => exact h'.elim
        | rplus => exact commute_passive (o := .fopen _ .rplus) (o' := .fopen _ .rplus) trivial trivial f f'
      | fwrite path' off' bs' => exact commute_open_write (by simp) f f'
  | fwrite path off bs =>
    cases o' with
    | fread path off len => exact h'.elim
    | fopen path' mode' =>
      cases mode' with
      | r => exact h'.elim
      | w => exact h'.elim
      | rplus => exact (commute_open_write (by simp) f' f).symm
    | fwrite path' off' bs' =>
      obtain ⟨g, r, c, a1, rfl, a3, a4, a5, a6⟩ := h
      obtain ⟨g', r', c', b1, rfl, b3, b4, b5, b6⟩ := h'
      apply commute_writes
      by_cases hg : g = g'
      · subst hg
        right
        rw [a5, a6, b5, b6, ← Nat.add_mul, ← Nat.add_mul]
        rcases hd with hd | hd
        · left; exact Nat.mul_le_mul_right _ (by omega)
        · right; exact Nat.mul_le_mul_right _ (by omega)
      · left
        intro e
        have := fileKey_inj (base := bb.basename) e
        injection this
        contradiction

theorem writeChunkP_ops {m : Machine} {bb bb' : Block} (hs : SameShape bb bb') {p n f r c : Nat} {fel off : Int}
    {chunk : Nat} {bytes : List Byte}
    (hf : f < bb.nfile) (h1 : p ≤ start bb.fsize f + r) (h2 : start bb.fsize f + r + c ≤ p + n)
    (ho : off = ((r * rowSize m bb : Nat) : Int)) (hb : bytes.length = c * rowSize m bb) :
    (writeChunkP bb' f off fel chunk bytes).AllOps (WriteIn m bb p n) := by
  unfold writeChunkP
  refine ⟨trivial, fun b => ?_⟩
  show Prog.AllOps _ (if b.isOk = true then _ else _)
  split
  · split
    · trivial
    · refine ⟨⟨f, r, c, hf, by rw [hs.base], h1, h2, ?_, hb⟩, fun _ => trivial⟩
      rw [ho, Int.toNat_natCast]
  · trivial

theorem writeLoopP_ops (env : Env) (bb : Block) (a : Arr) (w sw nm : Nat) (h : XferOk env bb a w sw nm) (P N : Nat) :
    ∀ (fuel n : Nat) (bb' : Block) (ptr : Ptr) (it : Iter) (p : Nat) (mem : Mem) (ca : Arr), SameShape bb bb' →
    PointsTo bb ptr p → p + n ≤ bb.fsize.sum → P ≤ p → p + n ≤ P + N →
    (writeLoopP env ((w * nm : Nat) : Int) (env.chunkBytes / (w * nm)) ca fuel bb' ptr it (n : Int) mem).AllOps
      (WriteIn env.m bb P N) := by
  have hL := h.layout
  have hsm := hL.small
  have hrs := h.rowSize
  intro fuel
  induction fuel with
  | zero => intros; trivial
  | succ fuel ih =>
    intro n bb' ptr it p mem ca hs hp hpn hP hN
    unfold writeLoopP
    refine Prog.AllOps.lift_bind fun e he => ?_
    split
    · trivial
    rename_i hcond
    have hn : 0 < n := by
      by_cases h0 : n = 0
      · subst h0; simp at hcond
      · omega
    refine Prog.AllOps.lift_bind fun chunk hch => ?_
    obtain ⟨c, hc1, hc0, hcn, hccs, hcfit, hfile⟩ :=
      chunkSize_spec bb hL ptr p n (env.chunkBytes / (w * nm)) hp hpn hn h.cs0
    have hch' : chunkSize bb' ptr (env.chunkBytes / (w * nm)) (n : Int) =
        chunkSize bb ptr (env.chunkBytes / (w * nm)) (n : Int) := by
      unfold chunkSize; rw [hs.fsize]
    rw [hch', hc1] at hch
    injection hch with hch
    subst hch
    refine Prog.AllOps.lift_bind fun r _ => ?_
    split
    · trivial
    refine Prog.AllOps.lift_bind fun old _ => ?_
    have hnn := hp.nonneg
    have hrow := hp.row
    have hroff : ptr.roffset * ((w * nm : Nat) : Int) = ((ptr.roffset.toNat * rowSize env.m bb : Nat) : Int) := by
      rw [hrs, Int.natCast_mul ptr.roffset.toNat, Int.toNat_of_nonneg hnn]
    generalize hcks : bb'.fchecksum.set ptr.fileid (sysvsum old (peek r.dm 0 (c * ((w * nm : Nat) : Int).toNat))) = cks
    have hs' : SameShape bb { bb' with fchecksum := cks } :=
      ⟨hs.dtype, hs.nmemb, hs.base, hs.size, hs.fsize, hs.foffset, hs.nfile⟩
    refine Prog.AllOps.bind ?_ (fun ok => ?_)
    · refine writeChunkP_ops hs' (r := ptr.roffset.toNat) (c := c) hfile (by omega) (by omega) hroff ?_
      rw [peek_length, hrs, Int.toNat_natCast]
    · split
      · trivial
      refine Prog.AllOps.lift_bind fun q hq => ?_
      obtain ⟨rc, ptr'⟩ := q
      have hseek : ∃ q, seekRel bb ptr (c : Int) = some (0, q) ∧ PointsTo bb q (p + c) := by
        rw [seekRel_spec bb hL ptr p hp (c : Int) ⟨by omega, by omega⟩]
        have e : (p : Int) + (c : Int) = ((p + c : Nat) : Int) := by omega
        rw [e]
        obtain ⟨q, hq1, hq2, _⟩ := seek_nat bb hL ptr (p + c) (by omega)
        exact ⟨q, hq1, hq2⟩
      obtain ⟨q, hq1, hq2⟩ := hseek
      have hq' : seekRel { bb' with fchecksum := cks } ptr (c : Int) = seekRel bb ptr (c : Int) := by
        unfold seekRel seek
        simp only [hs.foffset, hs.nfile, hs.size]
      rw [hq', hq1] at hq
      cases hq
      simp only
      rw [if_neg (by simp)]
      have hnc : (n : Int) - (c : Int) = ((n - c : Nat) : Int) := by omega
      rw [hnc]
      exact ih (n - c) _ _ _ (p + c) _ ca hs' hq2 (by omega) (by omega) (by omega)

/-- The operations of a write. -/
theorem blockWriteP_ops (env : Env) (bb : Block) (a : Arr) (w sw nm : Nat) (h : XferOk env bb a w sw nm)
    (ptr : Ptr) (p : Nat) (mem : Mem) (hp : PointsTo bb ptr p) (hpn : p + a.size / nm ≤ bb.fsize.sum) :
    (blockWriteP env bb ptr a mem).AllOps (WriteIn env.m bb p (a.size / nm)) := by
  have hsh : SameShape bb { bb with dirty := true } := ⟨rfl, rfl, rfl, rfl, rfl, rfl, rfl⟩
  have h' : XferOk env { bb with dirty := true } a w sw nm := hsh.xferOk h h.layout.nck h.layout.ck32
  unfold blockWriteP
  split
  · trivial
  refine Prog.AllOps.lift_bind fun q hq => ?_
  have hq' := hq.symm.trans h'.elemSizes
  cases hq'
  refine Prog.AllOps.lift_bind fun ca _ => ?_
  refine Prog.AllOps.lift_bind fun fo _ => ?_
  simp only
  split
  · trivial
  rw [h.rows_i64]
  exact writeLoopP_ops env bb a w sw nm h p (a.size / nm) _ _ _ _ _ p _ ca hsh hp hpn (by omega) (by omega)

/-! ## Reads -/

/-- Opening a file for reading, or reading. -/
def ReadOnly : FOp → Prop
  | .fopen _ .r => True
  | .fread _ _ _ => True
  | _ => False

theorem ReadOnly.passive {op : FOp} (h : ReadOnly op) : op.Passive := by
  cases op with
  | fopen path mode => cases mode <;> first | trivial | exact h.elim
  | fwrite path off bs => exact h.elim
  | fread path off len => trivial

theorem readChunkP_ops (bb : Block) (fileid : Nat) (off fel : Int) (chunk : Nat) :
    (readChunkP bb fileid off fel chunk).AllOps ReadOnly := by
  unfold readChunkP
  refine ⟨trivial, fun b => ?_⟩
  show Prog.AllOps _ (if b.isOk = true then _ else _)
  split
  · split
    · trivial
    · exact ⟨trivial, fun _ => trivial⟩
  · trivial

theorem readLoopP_ops (env : Env) (fel : Int) (cs : Nat) (ca : Arr) :
    ∀ (fuel : Nat) (bb : Block) (ptr : Ptr) (it : Iter) (n : Int) (mem : Mem),
    (readLoopP env fel cs ca fuel bb ptr it n mem).AllOps ReadOnly := by
  intro fuel
  induction fuel with
  | zero => intros; trivial
  | succ fuel ih =>
    intro bb ptr it n mem
    unfold readLoopP
    refine Prog.AllOps.lift_bind fun e _ => ?_
    split
    · trivial
    refine Prog.AllOps.lift_bind fun chunk _ => ?_
    split
    · trivial
    refine Prog.AllOps.bind (readChunkP_ops _ _ _ _ _) fun d => ?_
    cases d with
    | none => trivial
    | some d =>
      refine Prog.AllOps.lift_bind fun r _ => ?_
      split
      · trivial
      refine Prog.AllOps.lift_bind fun q _ => ?_
      obtain ⟨rc, ptr'⟩ := q
      simp only
      split
      · trivial
      · exact ih _ _ _ _ _

/-- A read only opens files for reading and reads. -/
theorem blockReadP_ops (env : Env) (bb : Block) (ptr : Ptr) (a : Arr) (mem : Mem) :
    (blockReadP env bb ptr a mem).AllOps ReadOnly := by
  unfold blockReadP
  refine Prog.AllOps.lift_bind fun q _ => ?_
  obtain ⟨nmemb, fel, cs⟩ := q
  refine Prog.AllOps.lift_bind fun ca _ => ?_
  refine Prog.AllOps.lift_bind fun fo _ => ?_
  simp only
  split
  · trivial
  · exact readLoopP_ops _ _ _ _ _ _ _ _ _ _

end Verif
