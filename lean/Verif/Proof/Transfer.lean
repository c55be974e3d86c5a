import Verif.Proof.Read
/-!
# `big_block_write` and `big_block_read` as a whole
-/

set_option autoImplicit false

namespace Verif

open Spec

theorem Spec.SameShape.rfl' (bb : Block) : SameShape bb bb := ⟨rfl, rfl, rfl, rfl, rfl, rfl, rfl⟩

theorem Spec.SameShape.symm' {b1 b2 : Block} (h : SameShape b1 b2) : SameShape b2 b1 :=
  ⟨h.1.symm, h.2.symm, h.3.symm, h.4.symm, h.5.symm, h.6.symm, h.7.symm⟩

theorem Spec.SameShape.trans' {b1 b2 b3 : Block} (h : SameShape b1 b2) (g : SameShape b2 b3) :
    SameShape b1 b3 :=
  ⟨g.1.trans h.1, g.2.trans h.2, g.3.trans h.3, g.4.trans h.4, g.5.trans h.5, g.6.trans h.6,
    g.7.trans h.7⟩

theorem Spec.SameShape.pointsTo {bb bb' : Block} (h : SameShape bb bb') {ptr : Ptr} {t : Nat}
    (hp : PointsTo bb ptr t) : PointsTo bb' ptr t := by
  obtain ⟨h1, h2, h3, h4⟩ := hp
  exact ⟨by rw [h.nfile]; exact h1, by rw [h.fsize]; exact h2, h3, by rw [h.fsize]; exact h4⟩

theorem Spec.SameShape.layout {bb bb' : Block} (h : SameShape bb bb') (hl : Layout bb)
    (hc : bb'.fchecksum.length = bb'.nfile) (h32 : ∀ c ∈ bb'.fchecksum, c < 4294967296) : Layout bb' := by
  obtain ⟨h1, h2, h3, h4, h5, h6⟩ := hl
  exact ⟨by rw [h.fsize, h.nfile]; exact h1, hc, by rw [h.foffset, h.nfile, h.fsize]; exact h3,
    by rw [h.size, h.fsize]; exact h4, by rw [h.fsize]; exact h5, h32⟩

theorem Spec.SameShape.rowFile {bb bb' : Block} (h : SameShape bb bb') (r : Nat) :
    rowFile bb' r = rowFile bb r := by unfold Spec.rowFile; rw [h.fsize]

theorem Spec.SameShape.rowSize {bb bb' : Block} (h : SameShape bb bb') (m : Machine) :
    rowSize m bb' = rowSize m bb := by unfold Spec.rowSize; rw [h.dtype, h.nmemb]

theorem Spec.SameShape.rowOff {bb bb' : Block} (h : SameShape bb bb') (m : Machine) (r : Nat) :
    rowOff m bb' r = rowOff m bb r := by unfold Spec.rowOff; rw [h.fsize, h.rowSize]

theorem Spec.SameShape.row {bb bb' : Block} (h : SameShape bb bb') (m : Machine) (fs : FS) (r : Nat) :
    row m fs bb' r = row m fs bb r := by
  unfold Spec.row; rw [h.rowFile, h.rowOff, h.rowSize, h.base]

theorem Spec.SameShape.stored {bb bb' : Block} (h : SameShape bb bb') (m : Machine) (fs : FS) (r : Nat) :
    Stored m fs bb' r ↔ Stored m fs bb r := by
  unfold Stored; rw [h.row, h.rowSize]

theorem Spec.SameShape.putRow {bb bb' : Block} (h : SameShape bb bb') (m : Machine) (fs : FS) (r : Nat)
    (bs : List Byte) : putRow m bb' fs r bs = putRow m bb fs r bs := by
  unfold Spec.putRow; rw [h.rowFile, h.rowOff, h.base]

theorem Spec.SameShape.putRows {bb bb' : Block} (h : SameShape bb bb') (m : Machine) (fs : FS) (p : Nat)
    (rows : Nat → List Byte) (n : Nat) : putRows m bb' fs p rows n = putRows m bb fs p rows n := by
  induction n with
  | zero => rfl
  | succ n ih => simp only [Spec.putRows]; rw [ih, h.putRow]

theorem Spec.SameShape.torn {bb bb' : Block} (h : SameShape bb bb') (m : Machine) (fs fs' : FS) (p : Nat)
    (rows : Nat → List Byte) (n : Nat) (ht : Torn m bb fs fs' p rows n) : Torn m bb' fs fs' p rows n := by
  obtain ⟨j, k, h1, h2, h3⟩ := ht
  refine ⟨j, k, h1, h2, ?_⟩
  rw [h.putRow, h.putRows]; exact h3

theorem Spec.SameShape.rowsSum {bb bb' : Block} (h : SameShape bb bb') (p : Nat) (rows : Nat → List Byte)
    (f n : Nat) : rowsSum bb' p rows f n = rowsSum bb p rows f n := by
  induction n with
  | zero => rfl
  | succ n ih => simp only [Spec.rowsSum]; rw [ih, h.rowFile]

theorem Spec.SameShape.dataFiles {bb bb' : Block} (h : SameShape bb bb') (fs : FS) :
    DataFiles fs bb' ↔ DataFiles fs bb := by
  unfold DataFiles; rw [h.nfile, h.base]

theorem Spec.SameShape.elemOfRows {bb bb' : Block} (h : SameShape bb bb') (m : Machine) (fs : FS)
    (p w nm e : Nat) : elemOfRows m fs bb' p w nm e = elemOfRows m fs bb p w nm e := by
  unfold Spec.elemOfRows; rw [h.row]

theorem Spec.SameShape.xferOk {bb bb' : Block} (h : SameShape bb bb') {env : Env} {a : Arr} {w sw nm : Nat}
    (hx : XferOk env bb a w sw nm) (hc : bb'.fchecksum.length = bb'.nfile)
    (h32 : ∀ c ∈ bb'.fchecksum, c < 4294967296) : XferOk env bb' a w sw nm :=
  { layout := h.layout hx.layout hc h32
    item := by rw [h.dtype]; exact hx.item
    item0 := hx.item0
    memb := by rw [h.nmemb]; exact hx.memb
    memb0 := hx.memb0
    felInt := hx.felInt
    buf := hx.buf
    bufMax := hx.bufMax
    offs := by rw [h.fsize]; exact hx.offs
    arr := hx.arr
    asize := hx.asize
    anorm := hx.anorm
    aitem := hx.aitem
    aitem0 := hx.aitem0
    abytes := hx.abytes }

/-- What is known when `big_block_write` returns. -/
structure WriteDone (env : Env) (bb : Block) (a : Arr) (sw nm p n : Nat)
    (rows : Nat → List Byte) (mem : Mem) (w : World) (x : Xfer) (w' : World) : Prop where
  faults : w'.faults = w.faults
  shape : SameShape bb x.bb
  attrs : x.bb.attrset = bb.attrset
  dirty : x.bb.dirty = true
  layout : Layout x.bb
  cksum : x.rc = 0 → ∀ f, x.bb.fchecksum.getD f 0 =
    (bb.fchecksum.getD f 0 + rowsSum bb p rows f n) % 4294967296
  native : foreign env.m a.dtype = false → x.mem = mem
  memframe : ∀ y, ¬ InElems a sw 0 (n * nm) y → x.mem y = mem y
  memswap : x.rc = 0 → (foreign env.m a.dtype = true → Disjoint a sw) → ∀ i, i < n * nm →
    peek x.mem (elemAddr a i) sw = toNative env.m a.dtype (peek mem (elemAddr a i) sw)
  done : x.rc = 0 → w'.fs = putRows env.m bb w.fs p rows n ∧
    (∀ i, i < n → IsFile w.fs (fileKey bb.basename (.data (rowFile bb (p + i))))) ∧
    PointsTo bb x.ptr (p + n)
  failed : x.rc ≠ 0 → x.rc = -1 ∧ Torn env.m bb w.fs w'.fs p rows n ∧
    ∃ j, j ≤ n ∧ PointsTo bb x.ptr (p + j)
  succeeds : w.faults = noFaults → DataFiles w.fs bb → x.rc = 0

section
variable {env : Env} {bb : Block} {a : Arr} {w sw nm : Nat}

theorem Spec.XferOk.rows_i64 (h : XferOk env bb a w sw nm) :
    i64 ((a.size / u64 (nm : Int) : Nat) : Int) = ((a.size / nm : Nat) : Int) := by
  have h1 := h.nm_le
  have h2 := h.felInt
  have h3 := h.asize
  rw [u64_of_nat (by omega)]
  have := Nat.div_le_self a.size nm
  generalize a.size / nm = n at this
  exact i64_of_range (by omega) (by omega)

theorem Spec.XferOk.rows_le (_h : XferOk env bb a w sw nm) : a.size / nm * nm ≤ a.size :=
  Nat.div_mul_le_self _ _

/-- The range check. -/
theorem range_check (hL : Layout bb) {ptr : Ptr} {p n : Nat} (hp : PointsTo bb ptr p)
    (hpe : p ≤ bb.fsize.sum) (hn : n < 9223372036854775808) :
    ∃ fo, bb.foffset[ptr.fileid]? = some fo ∧
      (u64 (i64 ((fo : Int) + ptr.roffset + (n : Int))) > bb.size ↔ bb.fsize.sum < p + n) := by
  have hsm := hL.small
  refine ⟨_, hp.foff hL, ?_⟩
  rw [hp.row, hL.size]
  have e : (p : Int) + (n : Int) = ((p + n : Nat) : Int) := by omega
  rw [e, u64_i64, u64_of_nat (by omega)]

end

theorem blockWrite_spec (env : Env) (bb : Block) (a : Arr) (w sw nm : Nat)
    (h : XferOk env bb a w sw nm) (hdis : foreign env.m a.dtype = true → Disjoint a sw)
    (out : Nat → List Byte) (ptr : Ptr) (p : Nat) (mem : Mem) (wd : World)
    (hp : PointsTo bb ptr p) (hpn : p + a.size / nm ≤ bb.fsize.sum)
    (hconv : ∀ e, e < a.size / nm * nm →
      convElem env.m env.fo (dtypeNormalize env.m bb.dtype) a.dtype (peek mem (elemAddr a e) sw) =
        some (out e)) :
    wpc (blockWrite env bb ptr a mem) wd
      (WriteDone env bb a sw nm p (a.size / nm) (rowOfElems out nm) mem wd)
      (fun w' => Torn env.m bb wd.fs w'.fs p (rowOfElems out nm) (a.size / nm) ∧ wd.faults ≠ noFaults) := by
  have hpos := h.arr.pos
  have has := h.asize
  have hsh : SameShape bb { bb with dirty := true } := ⟨rfl, rfl, rfl, rfl, rfl, rfl, rfl⟩
  have h' : XferOk env { bb with dirty := true } a w sw nm := hsh.xferOk h h.layout.nck h.layout.ck32
  unfold blockWrite blockWriteFuel
  rw [if_neg (by omega)]
  simp only
  rw [wpc_bind, h'.elemSizes, wpc_lift_some]
  simp only
  rw [wpc_bind, h'.bufInit, wpc_lift_some, wpc_bind]
  rw [h.rows_i64]
  have hdl := Nat.div_le_self a.size nm
  obtain ⟨fo, hfo, hrange⟩ := range_check h.layout hp (Nat.le_trans (Nat.le_add_right _ _) hpn) (show a.size / nm < 9223372036854775808 by omega)
  have hfo' : ({ bb with dirty := true } : Block).foffset[ptr.fileid]? = some fo := hfo
  rw [hfo', wpc_lift_some]
  have hnr : ¬ u64 (i64 ((fo : Int) + ptr.roffset + ((a.size / nm : Nat) : Int))) > bb.size := by
    rw [hrange]; omega
  rw [if_neg hnr, iterInit_eq]
  have hmain := writeLoop_spec env { bb with dirty := true } a w sw nm h' hdis out (loopFuel a)
    (a.size / nm) bb.fchecksum ptr 0 p mem wd (by unfold loopFuel; omega) h.layout.nck h.layout.ck32
    (hsh.pointsTo hp) hpn (by rw [Nat.zero_add]; exact h.rows_le) (by
      intro e _ he
      rw [Nat.zero_add] at he
      exact hconv e he)
  rw [Nat.zero_mul] at hmain
  have hrows : rowsFrom out nm 0 = rowOfElems out nm := by
    funext i; unfold rowsFrom; rw [Nat.zero_add]
  rw [hrows] at hmain
  refine wpc_mono hmain ?_ ?_
  · intro x w' hx
    have hxs : SameShape bb x.bb := by rw [hx.same]; exact ⟨rfl, rfl, rfl, rfl, rfl, rfl, rfl⟩
    refine ⟨hx.faults, hxs, by rw [hx.same], by rw [hx.same], ?_, ?_, hx.native, ?_, ?_, ?_, ?_, ?_⟩
    · exact hxs.layout h.layout (by rw [hxs.nfile]; exact hx.cklen) hx.ck32
    · intro hrc f
      rw [hx.cksum hrc f, hsh.rowsSum]
    · intro y hy
      apply hx.memframe
      rw [Nat.zero_mul]; exact hy
    · intro hrc hd i hi
      have := hx.memswap hrc hd i hi
      rw [Nat.zero_mul, Nat.zero_add] at this
      exact this
    · intro hrc
      obtain ⟨h1, h2, h3⟩ := hx.done hrc
      refine ⟨by rw [h1, hsh.putRows], ?_, hsh.symm'.pointsTo h3⟩
      intro i hi
      have := h2 i hi
      rw [hsh.rowFile, hsh.base] at this
      exact this
    · intro hrc
      obtain ⟨h1, h2, j, hj, h3⟩ := hx.failed hrc
      exact ⟨h1, hsh.symm'.torn _ _ _ _ _ _ h2, j, hj, hsh.symm'.pointsTo h3⟩
    · intro hnf hdf
      exact hx.succeeds hnf ((hsh.dataFiles _).mpr hdf)
  · rintro w' ⟨h1, h2⟩
    exact ⟨hsh.symm'.torn _ _ _ _ _ _ h1, h2⟩

theorem blockRead_spec (env : Env) (bb : Block) (a : Arr) (w sw nm : Nat)
    (h : XferOk env bb a w sw nm) (out : Nat → List Byte) (ptr : Ptr) (p : Nat) (mem : Mem) (wd : World)
    (hp : PointsTo bb ptr p) (hpn : p + a.size / nm ≤ bb.fsize.sum)
    (hsup : 0 < a.size / nm →
      convertible env.m env.fo a.dtype (dtypeNormalize env.m bb.dtype) = true)
    (hconv : ∀ e, e < a.size / nm * nm → Stored env.m wd.fs bb (p + e / nm) →
      convElem env.m env.fo a.dtype (dtypeNormalize env.m bb.dtype)
        (elemOfRows env.m wd.fs bb p w nm e) = some (out e)) :
    wpc (blockRead env bb ptr a mem) wd
      (ReadPost env bb a sw nm 0 p (a.size / nm) out mem wd)
      (fun w' => w'.fs = wd.fs ∧ wd.faults ≠ noFaults) := by
  have has := h.asize
  unfold blockRead blockReadFuel
  rw [wpc_bind, h.elemSizes, wpc_lift_some]
  simp only
  rw [wpc_bind, h.bufInit, wpc_lift_some, wpc_bind]
  rw [h.rows_i64]
  have hdl := Nat.div_le_self a.size nm
  obtain ⟨fo, hfo, hrange⟩ := range_check h.layout hp (Nat.le_trans (Nat.le_add_right _ _) hpn) (show a.size / nm < 9223372036854775808 by omega)
  rw [hfo, wpc_lift_some]
  have hnr : ¬ u64 (i64 ((fo : Int) + ptr.roffset + ((a.size / nm : Nat) : Int))) > bb.size := by
    rw [hrange]; omega
  rw [if_neg hnr, iterInit_eq]
  have hmain := readLoop_spec env bb a w sw nm h out p (a.size / nm) wd.fs h.rows_le hsup hconv
    (loopFuel a) (a.size / nm) ptr 0 mem wd (by unfold loopFuel; omega) rfl (by omega) hp hpn
  rw [Nat.zero_mul] at hmain
  exact hmain

/-- Out of range: refused. -/
theorem blockWrite_range (env : Env) (bb : Block) (a : Arr) (w sw nm : Nat)
    (h : XferOk env bb a w sw nm) (ptr : Ptr) (p : Nat) (mem : Mem) (wd : World)
    (hp : PointsTo bb ptr p) (hpe : p ≤ bb.fsize.sum) (hpn : bb.fsize.sum < p + a.size / nm) :
    blockWrite env bb ptr a mem wd = .ok ⟨-1, { bb with dirty := true }, ptr, mem⟩ wd := by
  have hpos := h.arr.pos
  have has := h.asize
  have hsh : SameShape bb { bb with dirty := true } := ⟨rfl, rfl, rfl, rfl, rfl, rfl, rfl⟩
  have h' : XferOk env { bb with dirty := true } a w sw nm := hsh.xferOk h h.layout.nck h.layout.ck32
  have hw : wpc (blockWrite env bb ptr a mem) wd
      (fun x w' => x = ⟨-1, { bb with dirty := true }, ptr, mem⟩ ∧ w' = wd) (fun _ => False) := by
    unfold blockWrite blockWriteFuel
    rw [if_neg (by omega)]
    simp only
    rw [wpc_bind, h'.elemSizes, wpc_lift_some]
    simp only
    rw [wpc_bind, h'.bufInit, wpc_lift_some, wpc_bind]
    rw [h.rows_i64]
    have hdl := Nat.div_le_self a.size nm
    obtain ⟨fo, hfo, hrange⟩ := range_check h.layout hp hpe (show a.size / nm < 9223372036854775808 by omega)
    have hfo' : ({ bb with dirty := true } : Block).foffset[ptr.fileid]? = some fo := hfo
    rw [hfo', wpc_lift_some]
    have hnr : u64 (i64 ((fo : Int) + ptr.roffset + ((a.size / nm : Nat) : Int))) > bb.size := by
      rw [hrange]; omega
    rw [if_pos hnr, wpc_pure]
    exact ⟨rfl, rfl⟩
  obtain ⟨x, w', h1, h2, h3⟩ := wpc_returns hw (fun _ h => h)
  rw [h1, h2, h3]

theorem blockRead_range (env : Env) (bb : Block) (a : Arr) (w sw nm : Nat)
    (h : XferOk env bb a w sw nm) (ptr : Ptr) (p : Nat) (mem : Mem) (wd : World)
    (hp : PointsTo bb ptr p) (hpe : p ≤ bb.fsize.sum) (hpn : bb.fsize.sum < p + a.size / nm) :
    blockRead env bb ptr a mem wd = .ok ⟨-1, bb, ptr, mem⟩ wd := by
  have has := h.asize
  have hw : wpc (blockRead env bb ptr a mem) wd
      (fun x w' => x = ⟨-1, bb, ptr, mem⟩ ∧ w' = wd) (fun _ => False) := by
    unfold blockRead blockReadFuel
    rw [wpc_bind, h.elemSizes, wpc_lift_some]
    simp only
    rw [wpc_bind, h.bufInit, wpc_lift_some, wpc_bind]
    rw [h.rows_i64]
    have hdl := Nat.div_le_self a.size nm
    obtain ⟨fo, hfo, hrange⟩ := range_check h.layout hp hpe (show a.size / nm < 9223372036854775808 by omega)
    rw [hfo, wpc_lift_some]
    have hnr : u64 (i64 ((fo : Int) + ptr.roffset + ((a.size / nm : Nat) : Int))) > bb.size := by
      rw [hrange]; omega
    rw [if_pos hnr, wpc_pure]
    exact ⟨rfl, rfl⟩
  obtain ⟨x, w', h1, h2, h3⟩ := wpc_returns hw (fun _ h => h)
  rw [h1, h2, h3]

/-- No conversion exists: refused before any file is touched. -/
theorem blockWrite_unsupported (env : Env) (bb : Block) (a : Arr) (w sw nm : Nat)
    (h : XferOk env bb a w sw nm) (ptr : Ptr) (p : Nat) (mem : Mem) (wd : World)
    (hp : PointsTo bb ptr p) (hpn : p + a.size / nm ≤ bb.fsize.sum) (hn : 0 < a.size / nm)
    (hsup : convertible env.m env.fo (dtypeNormalize env.m bb.dtype) a.dtype = false) :
    ∃ mem', blockWrite env bb ptr a mem wd = .ok ⟨-1, { bb with dirty := true }, ptr, mem'⟩ wd ∧
      (foreign env.m a.dtype = false → mem' = mem) := by
  have hpos := h.arr.pos
  have has := h.asize
  have hsh : SameShape bb { bb with dirty := true } := ⟨rfl, rfl, rfl, rfl, rfl, rfl, rfl⟩
  have h' : XferOk env { bb with dirty := true } a w sw nm := hsh.xferOk h h.layout.nck h.layout.ck32
  have hw : wpc (blockWrite env bb ptr a mem) wd
      (fun x w' => (∃ mem', x = ⟨-1, { bb with dirty := true }, ptr, mem'⟩ ∧
        (foreign env.m a.dtype = false → mem' = mem)) ∧ w' = wd) (fun _ => False) := by
    unfold blockWrite blockWriteFuel
    rw [if_neg (by omega)]
    simp only
    rw [wpc_bind, h'.elemSizes, wpc_lift_some]
    simp only
    rw [wpc_bind, h'.bufInit, wpc_lift_some, wpc_bind]
    rw [h.rows_i64]
    have hdl := Nat.div_le_self a.size nm
    obtain ⟨fo, hfo, hrange⟩ := range_check h.layout hp (Nat.le_trans (Nat.le_add_right _ _) hpn) (show a.size / nm < 9223372036854775808 by omega)
    have hfo' : ({ bb with dirty := true } : Block).foffset[ptr.fileid]? = some fo := hfo
    rw [hfo', wpc_lift_some]
    have hnr : ¬ u64 (i64 ((fo : Int) + ptr.roffset + ((a.size / nm : Nat) : Int))) > bb.size := by
      rw [hrange]; omega
    rw [if_neg hnr, iterInit_eq]
    unfold loopFuel
    simp only [writeLoop]
    rw [wpc_bind, eof_spec _ h'.layout ptr p (hsh.pointsTo hp) (Nat.le_trans (Nat.le_add_right _ _) hpn), wpc_lift_some]
    have hcond : (!(decide (((a.size / nm : Nat) : Int) > 0) && !decide (p = bb.fsize.sum))) = false := by
      have h1 : decide (((a.size / nm : Nat) : Int) > 0) = true := decide_eq_true (by omega)
      have h2 : decide (p = bb.fsize.sum) = false := decide_eq_false (by omega)
      rw [h1, h2]; rfl
    rw [hcond]
    simp only [Bool.false_eq_true, if_false]
    obtain ⟨c, hc1, hc0, hcn, hccs, hcfit, hfile⟩ :=
      chunkSize_spec _ h'.layout ptr p (a.size / nm) (env.chunkBytes / (w * nm)) (hsh.pointsTo hp) hpn hn h.cs0
    rw [wpc_bind, hc1, wpc_lift_some, wpc_bind]
    have hcel : c * nm ≤ env.chunkBytes / (w * nm) * nm := Nat.mul_le_mul_right _ hccs
    have hcs_el := h.cs_elems
    have hnn : u64 ((c : Int) * bb.nmemb) = c * nm := by
      rw [h.memb]
      have : (c : Int) * (nm : Int) = ((c * nm : Nat) : Int) := by simp
      rw [this, u64_of_nat (by omega)]
    rw [hnn, iterInit_eq]
    have hca : c * nm ≤ a.size := Nat.le_trans (Nat.mul_le_mul_right _ hcn) h.rows_le
    obtain ⟨sm', hcv, hcv2⟩ := dtypeConvert_unsupported env.m env.fo (bufArr env { bb with dirty := true } w nm)
      a env.junk mem sw (c * nm) 0 0 h.arr h.aitem (by omega) hsup
    rw [hcv, wpc_lift_some]
    rw [if_pos (show (-1 : Int) ≠ 0 by decide), wpc_pure]
    exact ⟨⟨sm', rfl, hcv2⟩, rfl⟩
  obtain ⟨x, w', h1, ⟨mem', h2, h4⟩, h3⟩ := wpc_returns hw (fun _ h => h)
  exact ⟨mem', by rw [h1, h2, h3], h4⟩

theorem blockRead_unsupported (env : Env) (bb : Block) (a : Arr) (w sw nm : Nat)
    (h : XferOk env bb a w sw nm) (ptr : Ptr) (p : Nat) (mem : Mem) (wd : World)
    (hp : PointsTo bb ptr p) (hpn : p + a.size / nm ≤ bb.fsize.sum) (hn : 0 < a.size / nm)
    (hsup : convertible env.m env.fo a.dtype (dtypeNormalize env.m bb.dtype) = false) :
    wpc (blockRead env bb ptr a mem) wd
      (fun x w' => x = ⟨-1, bb, ptr, mem⟩ ∧ w'.fs = wd.fs ∧ w'.faults = wd.faults)
      (fun w' => w'.fs = wd.fs ∧ wd.faults ≠ noFaults) := by
  have has := h.asize
  have hL := h.layout
  unfold blockRead blockReadFuel
  rw [wpc_bind, h.elemSizes, wpc_lift_some]
  simp only
  rw [wpc_bind, h.bufInit, wpc_lift_some, wpc_bind]
  rw [h.rows_i64]
  have hdl := Nat.div_le_self a.size nm
  obtain ⟨fo, hfo, hrange⟩ := range_check h.layout hp (Nat.le_trans (Nat.le_add_right _ _) hpn) (show a.size / nm < 9223372036854775808 by omega)
  rw [hfo, wpc_lift_some]
  have hnr : ¬ u64 (i64 ((fo : Int) + ptr.roffset + ((a.size / nm : Nat) : Int))) > bb.size := by
    rw [hrange]; omega
  rw [if_neg hnr, iterInit_eq]
  unfold loopFuel
  simp only [readLoop]
  rw [wpc_bind, eof_spec _ hL ptr p hp (Nat.le_trans (Nat.le_add_right _ _) hpn), wpc_lift_some]
  have hcond : (!(decide (((a.size / nm : Nat) : Int) > 0) && !decide (p = bb.fsize.sum))) = false := by
    have h1 : decide (((a.size / nm : Nat) : Int) > 0) = true := decide_eq_true (by omega)
    have h2 : decide (p = bb.fsize.sum) = false := decide_eq_false (by omega)
    rw [h1, h2]; rfl
  rw [hcond]
  simp only [Bool.false_eq_true, if_false]
  obtain ⟨c, hc1, hc0, hcn, hccs, hcfit, hfile⟩ :=
    chunkSize_spec _ hL ptr p (a.size / nm) (env.chunkBytes / (w * nm)) hp hpn hn h.cs0
  rw [wpc_bind, hc1, wpc_lift_some, if_neg (by omega), wpc_bind]
  have hroff : ptr.roffset * ((w * nm : Nat) : Int) = ((ptr.roffset.toNat * (w * nm) : Nat) : Int) := by
    rw [Int.natCast_mul ptr.roffset.toNat, Int.toNat_of_nonneg hp.nonneg]
  rw [hroff]
  apply readChunk_spec bb ptr.fileid (ptr.roffset.toNat * (w * nm)) (w * nm) c wd h.fel0 hc0
  · intro w1 hfs1 hfa1 hlen
    simp only
    have hcel : c * nm ≤ env.chunkBytes / (w * nm) * nm := Nat.mul_le_mul_right _ hccs
    have hcs_el := h.cs_elems
    have hnn : u64 ((c : Int) * bb.nmemb) = c * nm := by
      rw [h.memb]
      have : (c : Int) * (nm : Int) = ((c * nm : Nat) : Int) := by simp
      rw [this, u64_of_nat (by omega)]
    rw [hnn, iterInit_eq, wpc_bind]
    have hitem : itemsize env.m (bufArr env bb w nm).dtype = w := by
      show itemsize env.m (dtypeNormalize env.m bb.dtype) = w
      rw [itemsize_normalize]; exact h.item
    obtain ⟨sm', hcv, _⟩ := dtypeConvert_unsupported env.m env.fo a (bufArr env bb w nm) mem
      (poke env.junk 0 (((wd.fs.bytes (fileKey bb.basename (.data ptr.fileid))).drop
              (ptr.roffset.toNat * (w * nm))).take (c * (w * nm)))) w (c * nm) 0 0 h.bufOk hitem
      (by simpa [bufArr] using hcel) hsup
    rw [hcv, wpc_lift_some]
    rw [if_pos (show (-1 : Int) ≠ 0 by decide), wpc_pure]
    exact ⟨rfl, hfs1, hfa1⟩
  · intro w1 hfs1 hfa1 _
    simp only
    rw [wpc_pure]
    exact ⟨rfl, hfs1, hfa1⟩
  · intro w1 hfs1 hnf
    exact ⟨hfs1, hnf⟩

end Verif
