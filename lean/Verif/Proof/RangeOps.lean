import Verif.Model.CopyFiles
import Verif.Proof.WriteOps
import Verif.Props.Copy
/-!
# Which operations copying a range does, and how many
-/

set_option autoImplicit false

namespace Verif

open Spec

variable {α β : Type}

/-- Whatever the program is answered: its operations satisfy `E`, there are at most `k` of them, and what it returns satisfies
`P`. -/
def Prog.Sat (E : FOp → Prop) (P : α → Prop) : Nat → Prog α → Prop
  | _, .ret a => P a
  | _, .ub => True
  | _, .hang => True
  | 0, .file _ _ => False
  | k + 1, .file op c => E op ∧ ∀ r, (c r).Sat E P k
  | _, .coll _ _ _ => False

theorem Prog.Sat.le {E : FOp → Prop} {P : α → Prop} {k k' : Nat} (hk : k ≤ k') {x : Prog α} (h : x.Sat E P k) : x.Sat E P k' := by
  induction x generalizing k k' with
  | ret a => cases k <;> cases k' <;> exact h
  | ub => cases k' <;> trivial
  | hang => cases k' <;> trivial
  | coll c v f ih => cases k <;> exact h.elim
  | file op f ih =>
    cases k with
    | zero => exact h.elim
    | succ k =>
      cases k' with
      | zero => omega
      | succ k' => exact ⟨h.1, fun r => ih r (by omega) (h.2 r)⟩

theorem Prog.Sat.ret' {E : FOp → Prop} {P : α → Prop} {k : Nat} {a : α} (h : P a) : (Prog.ret a).Sat E P k := by
  cases k <;> exact h

theorem Prog.Sat.ub' {E : FOp → Prop} {P : α → Prop} {k : Nat} : (Prog.ub : Prog α).Sat E P k := by
  cases k <;> trivial

theorem Prog.Sat.bind {E : FOp → Prop} {P : α → Prop} {Q : β → Prop} {a b : Nat} {x : Prog α} {f : α → Prog β}
    (hx : x.Sat E P a) (hf : ∀ v, P v → (f v).Sat E Q b) : (x.bind f).Sat E Q (a + b) := by
  induction x generalizing a with
  | ret v => exact (hf v (by cases a <;> exact hx)).le (by omega)
  | ub => exact Prog.Sat.ub'
  | hang => show Prog.Sat E Q (a + b) .hang; cases (a + b) <;> trivial
  | coll c v f ih => cases a <;> exact hx.elim
  | file op c ih =>
    cases a with
    | zero => exact hx.elim
    | succ a =>
      show Prog.Sat E Q (a + 1 + b) (.file op _)
      rw [Nat.add_right_comm]
      exact ⟨hx.1, fun r => ih r (hx.2 r)⟩

theorem Prog.Sat.lift_bind {E : FOp → Prop} {Q : β → Prop} {k : Nat} {x : Option α} {f : α → Prog β}
    (hf : ∀ a, x = some a → (f a).Sat E Q k) : (Prog.bind (Prog.lift x) f).Sat E Q k := by
  cases x with
  | none => exact Prog.Sat.ub'
  | some a => exact hf a rfl

theorem Prog.Sat.mono {E E' : FOp → Prop} {P : α → Prop} {k : Nat} (h : ∀ op, E op → E' op) {x : Prog α} (hx : x.Sat E P k) :
    x.Sat E' P k := by
  induction x generalizing k with
  | ret a => cases k <;> exact hx
  | ub => exact Prog.Sat.ub'
  | hang => cases k <;> trivial
  | coll c v f ih => cases k <;> exact hx.elim
  | file op c ih =>
    cases k with
    | zero => exact hx.elim
    | succ k => exact ⟨h _ hx.1, fun r => ih r (hx.2 r)⟩

theorem Prog.Sat.allOps {E : FOp → Prop} {P : α → Prop} {k : Nat} {x : Prog α} (hx : x.Sat E P k) : x.AllOps E := by
  induction x generalizing k with
  | ret a => trivial
  | ub => trivial
  | hang => trivial
  | coll c v f ih => cases k <;> exact hx.elim
  | file op c ih =>
    cases k with
    | zero => exact hx.elim
    | succ k => exact ⟨hx.1, fun r => ih r (hx.2 r)⟩

/-- A program with a result of no interest. -/
theorem Prog.AllOps.sat_true {E : FOp → Prop} {P : α → Prop} {k : Nat} {x : Prog α} (hx : x.AllOps E) (h : x.Sat (fun _ => True) P k) :
    x.Sat E P k := by
  induction x generalizing k with
  | ret a => cases k <;> exact h
  | ub => exact Prog.Sat.ub'
  | hang => cases k <;> trivial
  | coll c v f ih => cases k <;> exact h.elim
  | file op c ih =>
    cases k with
    | zero => exact h.elim
    | succ k => exact ⟨hx.1, fun r => ih r (hx.2 r) (h.2 r)⟩

/-! ## Reading -/

/-- Opening a file for reading, or reading a data file of the block `base`. -/
def ReadOf (base : CStr) : FOp → Prop
  | .fopen _ .r => True
  | .fread path _ _ => ∃ f, path = filePath base (.data f)
  | _ => False

theorem readChunkP_sat (bb : Block) (fileid : Nat) (off fel : Int) (chunk : Nat) :
    (readChunkP bb fileid off fel chunk).Sat (ReadOf bb.basename) (fun _ => True) 2 := by
  unfold readChunkP
  refine ⟨trivial, fun b => ?_⟩
  show Prog.Sat _ _ _ (if b.isOk = true then _ else _)
  split
  · split
    · trivial
    · exact ⟨⟨fileid, rfl⟩, fun _ => trivial⟩
  · trivial

theorem readLoopP_sat (env : Env) (fel : Int) (cs : Nat) (ca : Arr) :
    ∀ (fuel : Nat) (bb : Block) (ptr : Ptr) (it : Iter) (n : Int) (mem : Mem),
    (readLoopP env fel cs ca fuel bb ptr it n mem).Sat (ReadOf bb.basename) (fun _ => True) (2 * n.toNat) := by
  intro fuel
  induction fuel with
  | zero => intro _ _ _ n _; cases (2 * n.toNat) <;> trivial
  | succ fuel ih =>
    intro bb ptr it n mem
    unfold readLoopP
    refine Prog.Sat.lift_bind fun e _ => ?_
    split
    · exact Prog.Sat.ret' trivial
    rename_i hcond
    have hn : 0 < n := by
      by_cases h : 0 < n
      · exact h
      · simp [h] at hcond
    refine Prog.Sat.lift_bind fun chunk _ => ?_
    split
    · exact Prog.Sat.ret' trivial
    rename_i hchunk
    have hk : 2 + 2 * (n - (chunk : Int)).toNat ≤ 2 * n.toNat := by omega
    refine Prog.Sat.le hk (Prog.Sat.bind (readChunkP_sat _ _ _ _ _) fun d _ => ?_)
    cases d with
    | none => exact Prog.Sat.ret' trivial
    | some d =>
      refine Prog.Sat.lift_bind fun r _ => ?_
      split
      · exact Prog.Sat.ret' trivial
      refine Prog.Sat.lift_bind fun q _ => ?_
      obtain ⟨rc, ptr'⟩ := q
      simp only
      split
      · exact Prog.Sat.ret' trivial
      · exact ih _ _ _ _ _

/-- A read of `n` rows does at most `2 * n` operations. -/
theorem blockReadP_sat (env : Env) (bb : Block) (a : Arr) (w sw nm : Nat) (h : XferOk env bb a w sw nm) (ptr : Ptr) (mem : Mem) :
    (blockReadP env bb ptr a mem).Sat (ReadOf bb.basename) (fun _ => True) (2 * (a.size / nm)) := by
  unfold blockReadP
  refine Prog.Sat.lift_bind fun q hq => ?_
  have hq' := hq.symm.trans h.elemSizes
  cases hq'
  refine Prog.Sat.lift_bind fun ca _ => ?_
  refine Prog.Sat.lift_bind fun fo _ => ?_
  simp only
  split
  · exact Prog.Sat.ret' trivial
  · rw [h.rows_i64]
    refine Prog.Sat.le ?_ (readLoopP_sat _ _ _ _ _ _ _ _ _ _)
    rw [Int.toNat_natCast]
    exact Nat.le_refl _

/-! ## Writing -/

theorem writeChunkP_count (bb' : Block) (f : Nat) (fel off : Int) (chunk : Nat) (bytes : List Byte) :
    (writeChunkP bb' f off fel chunk bytes).Sat (fun _ => True) (fun _ => True) 2 := by
  unfold writeChunkP
  refine ⟨trivial, fun b => ?_⟩
  show Prog.Sat _ _ _ (if b.isOk = true then _ else _)
  split
  · split
    · trivial
    · exact ⟨trivial, fun _ => trivial⟩
  · trivial

theorem writeLoopP_count (env : Env) (bb : Block) (a : Arr) (w sw nm : Nat) (h : XferOk env bb a w sw nm) :
    ∀ (fuel n : Nat) (bb' : Block) (ptr : Ptr) (it : Iter) (p : Nat) (mem : Mem) (ca : Arr), SameShape bb bb' →
    PointsTo bb ptr p → p + n ≤ bb.fsize.sum →
    (writeLoopP env ((w * nm : Nat) : Int) (env.chunkBytes / (w * nm)) ca fuel bb' ptr it (n : Int) mem).Sat
      (fun _ => True) (fun _ => True) (2 * n) := by
  have hL := h.layout
  have hsm := hL.small
  intro fuel
  induction fuel with
  | zero => intro n _ _ _ _ _ _ _ _ _; cases (2 * n) <;> trivial
  | succ fuel ih =>
    intro n bb' ptr it p mem ca hs hp hpn
    unfold writeLoopP
    refine Prog.Sat.lift_bind fun e he => ?_
    split
    · exact Prog.Sat.ret' trivial
    rename_i hcond
    have hn : 0 < n := by
      by_cases h0 : n = 0
      · subst h0; simp at hcond
      · omega
    refine Prog.Sat.lift_bind fun chunk hch => ?_
    obtain ⟨c, hc1, hc0, hcn, hccs, hcfit, hfile⟩ :=
      chunkSize_spec bb hL ptr p n (env.chunkBytes / (w * nm)) hp hpn hn h.cs0
    have hch' : chunkSize bb' ptr (env.chunkBytes / (w * nm)) (n : Int) =
        chunkSize bb ptr (env.chunkBytes / (w * nm)) (n : Int) := by
      unfold chunkSize; rw [hs.fsize]
    rw [hch', hc1] at hch
    injection hch with hch
    subst hch
    refine Prog.Sat.lift_bind fun r _ => ?_
    split
    · exact Prog.Sat.ret' trivial
    refine Prog.Sat.lift_bind fun old _ => ?_
    generalize hcks : bb'.fchecksum.set ptr.fileid (sysvsum old (peek r.dm 0 (c * ((w * nm : Nat) : Int).toNat))) = cks
    have hs' : SameShape bb { bb' with fchecksum := cks } :=
      ⟨hs.dtype, hs.nmemb, hs.base, hs.size, hs.fsize, hs.foffset, hs.nfile⟩
    refine Prog.Sat.le (k := 2 + 2 * (n - c)) (by omega) (Prog.Sat.bind (writeChunkP_count _ _ _ _ _ _) fun ok _ => ?_)
    split
    · exact Prog.Sat.ret' trivial
    refine Prog.Sat.lift_bind fun q hq => ?_
    obtain ⟨rc, ptr'⟩ := q
    have hseek : ∃ q, seekRel bb ptr (c : Int) = some (0, q) ∧ PointsTo bb q (p + c) := by
      rw [seekRel_spec bb hL ptr p hp (c : Int) ⟨by omega, by omega⟩]
      have e : (p : Int) + (c : Int) = ((p + c : Nat) : Int) := by omega
      rw [e]
      obtain ⟨q, hq1, hq2, _⟩ := seek_nat bb hL ptr (p + c) (by omega)
      exact ⟨q, hq1, hq2⟩
    obtain ⟨q, hq1, hq2⟩ := hseek
    have hq' : seekRel { bb' with fchecksum := cks } ptr (c : Int) = seekRel bb ptr (c : Int) := by
      unfold seekRel seek
      simp only [hs.foffset, hs.nfile, hs.size]
    rw [hq', hq1] at hq
    cases hq
    simp only
    rw [if_neg (by simp)]
    have hnc : (n : Int) - (c : Int) = ((n - c : Nat) : Int) := by omega
    rw [hnc]
    exact ih (n - c) _ _ _ (p + c) _ ca hs' hq2 (by omega)

/-- A write of `n` rows does at most `2 * n` operations. -/
theorem blockWriteP_sat (env : Env) (bb : Block) (a : Arr) (w sw nm : Nat) (h : XferOk env bb a w sw nm)
    (ptr : Ptr) (p : Nat) (mem : Mem) (hp : PointsTo bb ptr p) (hpn : p + a.size / nm ≤ bb.fsize.sum) :
    (blockWriteP env bb ptr a mem).Sat (WriteIn env.m bb p (a.size / nm)) (fun _ => True) (2 * (a.size / nm)) := by
  refine Prog.AllOps.sat_true (blockWriteP_ops env bb a w sw nm h ptr p mem hp hpn) ?_
  have hsh : SameShape bb { bb with dirty := true } := ⟨rfl, rfl, rfl, rfl, rfl, rfl, rfl⟩
  have h' : XferOk env { bb with dirty := true } a w sw nm := hsh.xferOk h h.layout.nck h.layout.ck32
  unfold blockWriteP
  split
  · exact Prog.Sat.ret' trivial
  refine Prog.Sat.lift_bind fun q hq => ?_
  have hq' := hq.symm.trans h'.elemSizes
  cases hq'
  refine Prog.Sat.lift_bind fun ca _ => ?_
  refine Prog.Sat.lift_bind fun fo _ => ?_
  simp only
  split
  · exact Prog.Sat.ret' trivial
  rw [h.rows_i64]
  exact writeLoopP_count env bb a w sw nm h _ _ _ _ _ p _ ca hsh hp hpn

/-! ## Copying a range -/

/-- An operation of a process that copies rows `p, ..., p+n-1` of the block `src` to the block `bn`. -/
def RangeOp (m : Machine) (src : CStr) (bn : Block) (p n : Nat) (op : FOp) : Prop := ReadOf src op ∨ WriteIn m bn p n op

/-- Reading a file and writing another one commute. -/
theorem commute_read_write {p1 p2 : CStr} {o1 l1 o2 : Nat} {b : List Byte} (f f' : Fault) (h : resolve p1 ≠ resolve p2) :
    Commute (.fread p1 o1 l1) f (.fwrite p2 o2 b) f' := by
  have hp : (FOp.fread p1 o1 l1).Passive := trivial
  intro nd r1 nd1 r2 nd2 h1 h2
  obtain ⟨rfl, rfl, g1⟩ := hp.exec h1
  obtain ⟨rfl, rfl, g2⟩ := exec_fwrite h2
  refine ⟨_, exec_fwrite_eq g2 _, ?_⟩
  rw [hp.exec_eq g1]
  congr 2
  have hb : ∀ c, FS.bytes ⟨putBytes nd1 (resolve p2) o2 c, []⟩ (resolve p1) = FS.bytes ⟨nd1, []⟩ (resolve p1) := by
    intro c
    apply bytes_congr
    unfold putBytes FS.writeFile
    dsimp only
    split
    · simp only [if_neg h]
    · rfl
  simp only [FOp.answer, hb]

theorem ReadOf.passive {base : CStr} {op : FOp} (h : ReadOf base op) : op.Passive := by
  cases op with
  | fopen path mode => cases mode <;> first | trivial | exact h.elim
  | fwrite path off bs => exact h.elim
  | fread path off len => trivial

theorem ReadOf.commute {m : Machine} {src : CStr} {bn : Block} {p n : Nat} (ha : resolve src ≠ resolve bn.basename) {o o' : FOp}
    (h : ReadOf src o) (h' : WriteIn m bn p n o') (f f' : Fault) : Commute o f o' f' := by
  cases o' with
  | fread path off len => exact h'.elim
  | fopen path mode =>
    cases mode with
    | r => exact h'.elim
    | w => exact h'.elim
    | rplus => exact commute_passive h.passive (o' := .fopen _ .rplus) trivial f f'
  | fwrite path off bs =>
    obtain ⟨g, r, c, _, rfl, _⟩ := h'
    cases o with
    | fwrite path off bs => exact h.elim
    | fopen path mode =>
      cases mode with
      | r => exact commute_open_write (by simp) f f'
      | w => exact h.elim
      | rplus => exact h.elim
    | fread path off len =>
      obtain ⟨g', rfl⟩ := h
      exact commute_read_write f f' fun he => ha (C38_files_distinct _ _ _ _ he).1

/-- Operations of processes that copy disjoint ranges commute. -/
theorem RangeOp.commute {m : Machine} {src : CStr} {bn : Block} {p n p' n' : Nat} (ha : resolve src ≠ resolve bn.basename)
    (hd : p + n ≤ p' ∨ p' + n' ≤ p) {o o' : FOp} (h : RangeOp m src bn p n o) (h' : RangeOp m src bn p' n' o') (f f' : Fault) :
    Commute o f o' f' := by
  rcases h with h | h <;> rcases h' with h' | h'
  · exact commute_passive h.passive h'.passive f f'
  · exact h.commute ha h' f f'
  · exact (h'.commute ha h f' f).symm
  · exact h.commute hd h' f f'

theorem interp_readSimple (env : Env) (bb : Block) (start size : Int) (dtype : Option CStr) (buf : Int) (mem : Mem) :
    (readSimpleP env bb start size dtype buf mem).interp = readSimple env bb start size dtype buf mem := by
  unfold readSimpleP readSimple
  refine (Prog.interp_bind _ _).trans ?_
  rw [Prog.interp_lift]
  refine congrArg (M.bind _) (funext fun q => ?_)
  obtain ⟨rc, ptr⟩ := q
  dsimp only
  split
  · rfl
  generalize (if u64 (start + size) > bb.size then i64 (↑bb.size - start) else size) = sz
  split
  · rfl
  refine (Prog.interp_bind _ _).trans ?_
  rw [Prog.interp_lift]
  refine congrArg (M.bind _) (funext fun a => ?_)
  refine (Prog.interp_bind _ _).trans ?_
  rw [interp_blockRead]
  refine congrArg (M.bind _) (funext fun x => ?_)
  split <;> rfl

section
variable {env : Env} {K : Kind} {A : Content} {bb bn bd : Block} {fs : FS}

theorem readSimpleP_sat {n off : Nat} (hs : BlockOk env bb K.w K.nm) (hn0 : 0 < n) (hoff : off + n ≤ bb.size) (buf : Int) (mem : Mem) :
    (readSimpleP env bb off (i64 n) none buf mem).Sat (ReadOf bb.basename)
      (fun r => ∀ a, r.2.1 = some a → a = freshArr env.m bb.dtype n K.nm K.w buf) (2 * n) := by
  have hsz := hs.layout.size
  have hsm := hs.layout.small
  have hbytes : n * K.nm * K.w < 9223372036854775808 := by
    have h1 := hs.offs
    have h3 : n * (K.w * K.nm) ≤ bb.fsize.sum * (K.w * K.nm) := Nat.mul_le_mul_right _ (by omega)
    rw [Nat.mul_assoc, Nat.mul_comm K.nm]
    omega
  rw [i64_of_range (by omega) (by omega)]
  unfold readSimpleP
  refine Prog.Sat.lift_bind fun q _ => ?_
  obtain ⟨rc, ptr⟩ := q
  dsimp only
  split
  · exact Prog.Sat.ret' (by simp)
  have e : (if u64 ((off : Int) + (n : Int)) > bb.size then i64 ((bb.size : Int) - (off : Int)) else (n : Int)) = (n : Int) := by
    rw [show (off : Int) + (n : Int) = ((off + n : Nat) : Int) by omega, u64_of_nat (by omega), if_neg (by omega)]
  rw [e, if_neg (by omega), Int.toNat_natCast]
  rw [Option.getD_none, hs.freshInit _ n K.w buf hs.item hs.item0 hbytes]
  refine Prog.Sat.lift_bind fun a ha => ?_
  cases ha
  have hx := hs.fresh bb.dtype n K.w buf hn0 hs.item hs.item0 hbytes
  have := blockReadP_sat env bb _ _ _ _ hx ptr mem
  rw [freshArr_rows _ _ _ _ _ _ hs.memb0] at this
  refine Prog.Sat.le (k := 2 * n + 0) (by omega) (Prog.Sat.bind this fun x _ => ?_)
  split
  · exact Prog.Sat.ret' (by simp)
  · exact Prog.Sat.ret' (by rintro a ha; cases ha; rfl)

/-- Copying `n` rows does at most `4 * n` operations. -/
theorem copyRangeP_sat {off n : Nat} (hs : BlockOk env bb K.w K.nm) (hd : BlockOk env bn K.w K.nm) (hsh : SameShape bd bn)
    (hsz : bn.size = bb.size) (hn0 : 0 < n) (hoff : off + n ≤ bb.size) (buf : Int) (x : Worker) (hx : x.bb = bn) :
    (copyRangeP env bb buf off n x).Sat (RangeOp env.m bb.basename bd off n) (fun _ => True) (4 * n) := by
  subst hx
  have hbytes : n * K.nm * K.w < 9223372036854775808 := by
    have h1 := hs.offs
    have h2 := hs.layout.size
    have h3 : n * (K.w * K.nm) ≤ bb.fsize.sum * (K.w * K.nm) := Nat.mul_le_mul_right _ (by omega)
    rw [Nat.mul_assoc, Nat.mul_comm K.nm]
    omega
  unfold copyRangeP
  refine Prog.Sat.le (k := 2 * n + 2 * n) (by omega) (Prog.Sat.bind ((readSimpleP_sat hs hn0 hoff buf x.mem).mono fun _ h => Or.inl h) ?_)
  rintro ⟨rc, arr, mem⟩ harr
  dsimp only
  cases arr with
  | none => exact Prog.Sat.ret' trivial
  | some a =>
    have := harr a rfl
    subst this
    dsimp only
    obtain ⟨q, hq, hpt⟩ := (seek_row hd.layout off (by have := hs.layout.small; have := hs.layout.size; omega)).1 (by omega)
    rw [hq]
    refine Prog.Sat.lift_bind fun q' hq' => ?_
    cases hq'
    dsimp only
    split
    · exact Prog.Sat.ret' trivial
    have hxx := hd.fresh bb.dtype n K.w buf hn0 hs.item hs.item0 hbytes
    have := blockWriteP_sat env x.bb _ _ _ _ hxx q off mem hpt (by
      rw [freshArr_rows _ _ _ _ _ _ hd.memb0, ← hd.layout.size]; omega)
    rw [freshArr_rows _ _ _ _ _ _ hd.memb0] at this
    refine Prog.Sat.le (k := 2 * n + 0) (by omega) (Prog.Sat.bind (this.mono fun _ h => Or.inr (h.shape hsh)) fun y _ => ?_)
    split <;> exact Prog.Sat.ret' trivial

end

end Verif
