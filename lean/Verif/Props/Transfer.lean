import Verif.Proof.Torn
import Verif.Props.Example
/-!
# C03, C04, C07-C10, C21, C22, C25: reading and writing rows
-/

set_option autoImplicit false

namespace Verif

open Spec

theorem Spec.LegalWrite.spec {env : Env} {bb : Block} {ptr : Ptr} {a : Arr} {mem : Mem}
    {p w sw nm : Nat} {stored : Nat → List Byte}
    (h : LegalWrite env bb ptr a mem p w sw nm stored) (wd : World) :
    wpc (blockWrite env bb ptr a mem) wd
      (WriteDone env bb a sw nm p (a.size / nm) (rowOfElems stored nm) mem wd)
      (fun w' => Torn env.m bb wd.fs w'.fs p (rowOfElems stored nm) (a.size / nm) ∧
        wd.faults ≠ noFaults) :=
  blockWrite_spec env bb a w sw nm h.ok h.dis stored ptr p mem wd h.points
    (by rw [← h.ok.layout.size]; exact h.range) h.conv

theorem Spec.LegalRead.spec {env : Env} {wd : World} {bb : Block} {ptr : Ptr} {a : Arr} {mem : Mem}
    {p w sw nm : Nat} {out : Nat → List Byte}
    (h : LegalRead env wd.fs bb ptr a p w sw nm out) :
    wpc (blockRead env bb ptr a mem) wd
      (ReadPost env bb a sw nm 0 p (a.size / nm) out mem wd)
      (fun w' => w'.fs = wd.fs ∧ wd.faults ≠ noFaults) :=
  blockRead_spec env bb a w sw nm h.ok out ptr p mem wd h.points
    (by rw [← h.ok.layout.size]; exact h.range) (fun _ => h.sup) h.conv

theorem Spec.LegalWrite.stored_length {env : Env} {bb : Block} {ptr : Ptr} {a : Arr} {mem : Mem}
    {p w sw nm : Nat} {stored : Nat → List Byte}
    (h : LegalWrite env bb ptr a mem p w sw nm stored) (e : Nat) (he : e < a.size / nm * nm) :
    (stored e).length = w := h.ok.out_length mem e _ (h.conv e he)

theorem Spec.LegalWrite.row_length {env : Env} {bb : Block} {ptr : Ptr} {a : Arr} {mem : Mem}
    {p w sw nm : Nat} {stored : Nat → List Byte}
    (h : LegalWrite env bb ptr a mem p w sw nm stored) (i : Nat) (hi : i < a.size / nm) :
    (rowOfElems stored nm i).length = rowSize env.m bb := by
  rw [rowOfElems_length stored w nm _ (fun e he => h.stored_length e he) i hi, h.ok.rowSize]

/-- The example write: three `<i8` elements into rows 1, 2, 3 of a `<i4` block. -/
def exStored (e : Nat) : List Byte := [UInt8.ofNat (10 + e), 0, 0, 0]

theorem exLegalWrite : LegalWrite exEnv exBlock exPtr exSrc exMem 1 4 8 1 exStored :=
  { ok := exSrc_ok, dis := fun h => absurd h (by decide), points := exPtr_points, range := by decide,
    conv := by
      have : ∀ e < 3, convElem exEnv.m exEnv.fo (dtypeNormalize exEnv.m exBlock.dtype) exSrc.dtype
        (peek exMem (elemAddr exSrc e) 8) = some (exStored e) := by decide +kernel
      exact this }

/-! ## C03 -/

/-- **C03.** A write that returned 0, then (without further faults) a read of the same rows through
any handle of the same shape: the read returns 0 and element `e` of the destination is the written
element converted to the block's dtype and from there to the reader's dtype. -/
theorem C03_read_back (env : Env) (bb bb2 : Block) (ptr ptr2 : Ptr) (a a2 : Arr) (mem mem2 : Mem)
    (p w sw sw2 nm : Nat) (stored out : Nat → List Byte) (wd w1 wd2 : World) (x : Xfer)
    (hw : LegalWrite env bb ptr a mem p w sw nm stored)
    (hwrite : blockWrite env bb ptr a mem wd = .ok x w1) (hrc : x.rc = 0)
    (hshape : SameShape bb bb2) (hr : XferOk env bb2 a2 w sw2 nm) (hdis2 : Disjoint a2 sw2)
    (hrows : a2.size / nm = a.size / nm) (hp2 : PointsTo bb2 ptr2 p)
    (hfs : wd2.fs = w1.fs) (hnf : wd2.faults = noFaults)
    (hconv : ∀ e, e < a.size / nm * nm →
      convElem env.m env.fo a2.dtype (dtypeNormalize env.m bb.dtype) (stored e) = some (out e)) :
    ∃ x2 w2, blockRead env bb2 ptr2 a2 mem2 wd2 = .ok x2 w2 ∧ x2.rc = 0 ∧
      ∀ e, e < a.size / nm * nm → peek x2.mem (elemAddr a2 e) sw2 = out e := by
  have hx := wpc_ok (hw.spec wd) hwrite
  obtain ⟨hd1, hd2, _⟩ := hx.done hrc
  have hstored : ∀ i, i < a.size / nm → Stored env.m wd2.fs bb (p + i) := by
    intro i hi
    unfold Stored
    rw [hfs, hd1, row_putRows_in env.m bb wd.fs p _ _ (fun i hi => hw.row_length i hi) hd2 i hi,
      hw.row_length i hi]
  have hel : ∀ e, e < a.size / nm * nm → elemOfRows env.m wd2.fs bb p w nm e = stored e := by
    intro e he
    rw [hfs, hd1]
    exact elemOfRows_putRows env.m bb wd.fs p _ w nm stored hw.ok.rowSize hw.ok.memb0
      (fun e he => hw.stored_length e he) hd2 e he
  have hspec := blockRead_spec env bb2 a2 w sw2 nm hr out ptr2 p mem2 wd2 hp2
    (by rw [hrows, hshape.fsize, ← hw.ok.layout.size]; exact hw.range)
    (by
      intro hn
      rw [hrows] at hn
      have h0 := hconv 0 (Nat.mul_pos hn hw.ok.memb0)
      rw [hshape.dtype]
      exact convertible_of_convElem _ _ _ _ _ _ h0)
    (by
      intro e he _
      rw [hrows] at he
      rw [hshape.elemOfRows, hel e he, hshape.dtype]
      exact hconv e he)
  rw [hrows] at hspec
  obtain ⟨x2, w2, h1, h2⟩ := wpc_returns hspec (fun w' hw' => hw'.2 hnf)
  have hrc2 : x2.rc = 0 := h2.succeeds hnf (fun i hi => (hshape.stored _ _ _).mpr (hstored i hi))
  refine ⟨x2, w2, h1, hrc2, ?_⟩
  intro e he
  have := (h2.done hrc2).2.2 hdis2 e he
  rw [Nat.zero_mul, Nat.zero_add] at this
  exact this

/-- The handle after the write has the shape required by `C03_read_back`. -/
theorem C03_handle (env : Env) (bb : Block) (ptr : Ptr) (a : Arr) (mem : Mem)
    (p w sw nm : Nat) (stored : Nat → List Byte) (wd w1 : World) (x : Xfer)
    (hw : LegalWrite env bb ptr a mem p w sw nm stored)
    (hwrite : blockWrite env bb ptr a mem wd = .ok x w1) :
    SameShape bb x.bb ∧ Layout x.bb ∧
      (x.rc = 0 → PointsTo bb x.ptr (p + a.size / nm)) := by
  have hx := wpc_ok (hw.spec wd) hwrite
  exact ⟨hx.shape, hx.layout, fun h => (hx.done h).2.2⟩

-- the hypotheses are met: write three rows, read them back byte-swapped into reversed memory
example : ∃ x2 w2, blockRead exEnv exBlock exPtr exDst (fun _ => 0)
      ⟨putRows exEnv.m exBlock exFS 1 (rowOfElems exStored 1) 3, noFaults, 0⟩ = .ok x2 w2 ∧ x2.rc = 0 ∧
      ∀ e, e < 3 → peek x2.mem (elemAddr exDst e) 4 = [0, 0, 0, UInt8.ofNat (10 + e)] := by
  obtain ⟨x, w1, h1, h2⟩ := wpc_returns (exLegalWrite.spec exWorld) (fun w' hw' => hw'.2 rfl)
  have hdf : DataFiles exFS exBlock := by
    intro f hf
    have : ∀ f < 3, ((exFS.node (fileKey b!"d/x" (.data f))).isSome &&
      exFS.node (fileKey b!"d/x" (.data f)) != some .dir) = true := by decide +kernel
    have h3 := this f hf
    show ∃ d, exFS.node (fileKey b!"d/x" (.data f)) = _
    cases hn : exFS.node (fileKey b!"d/x" (.data f)) with
    | none => rw [hn] at h3; simp at h3
    | some nd =>
      rw [hn] at h3
      cases nd with
      | dir => simp at h3
      | file d => exact ⟨d, rfl⟩
  have hrc := h2.succeeds rfl hdf
  refine C03_read_back exEnv exBlock exBlock exPtr exPtr exSrc exDst exMem (fun _ => 0) 1 4 8 4 1
    exStored (fun e => [0, 0, 0, UInt8.ofNat (10 + e)]) exWorld w1 _ x exLegalWrite h1 hrc
    (SameShape.rfl' _) exDst_ok exDst_disjoint rfl exPtr_points ((h2.done hrc).1.symm) rfl ?_
  have : ∀ e < 3, convElem exEnv.m exEnv.fo exDst.dtype (dtypeNormalize exEnv.m exBlock.dtype)
    (exStored e) = some [0, 0, 0, UInt8.ofNat (10 + e)] := by decide +kernel
  exact this

/-! ## C04, C09 -/

/-- **C04.** Whether it returned 0 or -1, a write leaves every stored row outside `[p, p+n)`
bit-identical, and leaves every path other than the data files of those rows alone. -/
theorem C04_only_its_rows (env : Env) (bb : Block) (ptr : Ptr) (a : Arr) (mem : Mem)
    (p w sw nm : Nat) (stored : Nat → List Byte) (wd w1 : World) (x : Xfer)
    (hw : LegalWrite env bb ptr a mem p w sw nm stored)
    (hwrite : blockWrite env bb ptr a mem wd = .ok x w1) :
    (∀ r, r < p ∨ p + a.size / nm ≤ r → Stored env.m wd.fs bb r →
      row env.m w1.fs bb r = row env.m wd.fs bb r) ∧
    (∀ k, (∀ i, i < a.size / nm → k ≠ fileKey bb.basename (.data (rowFile bb (p + i)))) →
      w1.fs.node k = wd.fs.node k) := by
  have hx := wpc_ok (hw.spec wd) hwrite
  have ht : Torn env.m bb wd.fs w1.fs p (rowOfElems stored nm) (a.size / nm) := by
    by_cases hrc : x.rc = 0
    · rw [(hx.done hrc).1]; exact torn_putRows _ _ _ _ _ _
    · exact (hx.failed hrc).2.1
  exact ⟨fun r hr hs => torn_rows_out _ _ _ _ _ _ _ ht
      (fun i hi => Nat.le_of_eq (hw.row_length i hi)) r hr hs,
    fun k hk => torn_node_other _ _ _ _ _ _ _ ht k hk⟩

/-- C04, for the other files of the same block and for the files of another block: the header, the
attributes and everything in a different directory are among the paths left alone. -/
theorem C04_other_files (env : Env) (bb : Block) (ptr : Ptr) (a : Arr) (mem : Mem)
    (p w sw nm : Nat) (stored : Nat → List Byte) (wd w1 : World) (x : Xfer)
    (hw : LegalWrite env bb ptr a mem p w sw nm stored)
    (hwrite : blockWrite env bb ptr a mem wd = .ok x w1) :
    w1.fs.node (fileKey bb.basename .header) = wd.fs.node (fileKey bb.basename .header) ∧
    w1.fs.node (fileKey bb.basename .attr) = wd.fs.node (fileKey bb.basename .attr) ∧
    w1.fs.node (fileKey bb.basename .attrV2) = wd.fs.node (fileKey bb.basename .attrV2) ∧
    (∀ base id, resolve base ≠ resolve bb.basename →
      w1.fs.node (fileKey base id) = wd.fs.node (fileKey base id)) := by
  have h := (C04_only_its_rows env bb ptr a mem p w sw nm stored wd w1 x hw hwrite).2
  refine ⟨h _ ?_, h _ ?_, h _ ?_, ?_⟩
  · intro i _ hc; exact absurd (fileKey_inj hc) (by simp)
  · intro i _ hc; exact absurd (fileKey_inj hc) (by simp)
  · intro i _ hc; exact absurd (fileKey_inj hc) (by simp)
  · intro base id hne
    apply h
    intro i _ hc
    rw [fileKey_eq, fileKey_eq] at hc
    apply hne
    have := congrArg List.dropLast hc
    simpa using this

/-- **C09.** Whatever the faults, and also if the process is killed inside the write: no undefined
behaviour, no endless loop, and in the file system then left: stored rows outside the range are
unchanged, all paths other than the data files of the addressed rows are unchanged, and each stored
row inside the range consists of a prefix of the new row followed by the old bytes. -/
theorem C09_interrupted (env : Env) (bb : Block) (ptr : Ptr) (a : Arr) (mem : Mem)
    (p w sw nm : Nat) (stored : Nat → List Byte) (wd : World)
    (hw : LegalWrite env bb ptr a mem p w sw nm stored) :
    ∃ fs, (blockWrite env bb ptr a mem wd).fs? = some fs ∧
      (∀ r, r < p ∨ p + a.size / nm ≤ r → Stored env.m wd.fs bb r →
        row env.m fs bb r = row env.m wd.fs bb r) ∧
      (∀ k, (∀ i, i < a.size / nm → k ≠ fileKey bb.basename (.data (rowFile bb (p + i)))) →
        fs.node k = wd.fs.node k) ∧
      (∀ i, i < a.size / nm → Stored env.m wd.fs bb (p + i) →
        ∃ k, row env.m fs bb (p + i) =
          (rowOfElems stored nm i).take k ++ (row env.m wd.fs bb (p + i)).drop k) := by
  have key : ∀ fs, Torn env.m bb wd.fs fs p (rowOfElems stored nm) (a.size / nm) →
      (∀ r, r < p ∨ p + a.size / nm ≤ r → Stored env.m wd.fs bb r →
        row env.m fs bb r = row env.m wd.fs bb r) ∧
      (∀ k, (∀ i, i < a.size / nm → k ≠ fileKey bb.basename (.data (rowFile bb (p + i)))) →
        fs.node k = wd.fs.node k) ∧
      (∀ i, i < a.size / nm → Stored env.m wd.fs bb (p + i) →
        ∃ k, row env.m fs bb (p + i) =
          (rowOfElems stored nm i).take k ++ (row env.m wd.fs bb (p + i)).drop k) := by
    intro fs ht
    exact ⟨fun r hr hs => torn_rows_out _ _ _ _ _ _ _ ht
        (fun i hi => Nat.le_of_eq (hw.row_length i hi)) r hr hs,
      fun k hk => torn_node_other _ _ _ _ _ _ _ ht k hk,
      fun i hi hs => torn_row_in _ _ _ _ _ _ _ (by rw [hw.ok.rowSize]; exact hw.ok.fel0) ht
        (fun i hi => hw.row_length i hi) i hi hs⟩
  have hs := hw.spec wd
  unfold wpc at hs
  cases hr : blockWrite env bb ptr a mem wd with
  | ok x w1 =>
    rw [hr] at hs
    have ht : Torn env.m bb wd.fs w1.fs p (rowOfElems stored nm) (a.size / nm) := by
      by_cases hrc : x.rc = 0
      · rw [(hs.done hrc).1]; exact torn_putRows _ _ _ _ _ _
      · exact (hs.failed hrc).2.1
    exact ⟨w1.fs, rfl, key _ ht⟩
  | crash w1 =>
    rw [hr] at hs
    exact ⟨w1.fs, rfl, key _ hs.1⟩
  | ub => rw [hr] at hs; exact hs.elim
  | hang => rw [hr] at hs; exact hs.elim

-- killed while the second chunk is being written, after three of its bytes
example : ((blockWrite exEnv exBlock exPtr exSrc exMem
      ⟨exFS, fun t => if t = 3 then .crash 3 else .none, 0⟩).fs?.map
    fun fs => (List.range 5).map (row exEnv.m fs exBlock)) =
    some [[1, 1, 1, 1], [10, 0, 0, 0], [11, 0, 0, 3], [4, 4, 4, 4], [5, 5, 5, 5]] := by decide +kernel

/-! ## C07 -/

/-- **C07**, the part that holds: when the transfer buffer holds at least one row, a legal write
returns (or the process is killed), whatever the faults. Missing: a smaller buffer, see
`C07_hangs`. -/
theorem C07_terminates_partial (env : Env) (bb : Block) (ptr : Ptr) (a : Arr) (mem : Mem)
    (p w sw nm : Nat) (stored : Nat → List Byte) (wd : World)
    (hw : LegalWrite env bb ptr a mem p w sw nm stored) :
    (∃ x w', blockWrite env bb ptr a mem wd = .ok x w') ∨
      (wd.faults ≠ noFaults ∧ ∃ w', blockWrite env bb ptr a mem wd = .crash w') := by
  have hs := hw.spec wd
  unfold wpc at hs
  cases hr : blockWrite env bb ptr a mem wd with
  | ok x w1 => exact Or.inl ⟨x, w1, rfl⟩
  | crash w1 => rw [hr] at hs; exact Or.inr ⟨hs.2, w1, rfl⟩
  | ub => rw [hr] at hs; exact hs.elim
  | hang => rw [hr] at hs; exact hs.elim

/-- The example machine with a transfer buffer smaller than a row. -/
def exEnvSmall : Env := { exEnv with chunkBytes := 3 }

theorem exSmall_step (fuel : Nat) (w : World) (hfs : w.fs = exFS) (hnf : w.faults = noFaults) :
    writeLoop exEnvSmall 4 0 { dtype := b!"<i4", dims := [0, 1], strides := [4, 4], size := 0, data := 0 }
      fuel { exBlock with dirty := true } exPtr (iterInit exEnvSmall.m exSrc) 3 exMem w = .hang := by
  induction fuel generalizing w with
  | zero => rfl
  | succ fuel ih =>
    obtain ⟨fs, faults, clock⟩ := w
    simp only at hfs hnf
    subst hfs
    subst hnf
    have h0 : exFS.writeFile (resolve (filePath exBlock.basename (.data 0))) 4 [] = exFS :=
      writeFile_nil _ _ _
    have e : writeLoop exEnvSmall 4 0
        { dtype := b!"<i4", dims := [0, 1], strides := [4, 4], size := 0, data := 0 }
        (fuel + 1) { exBlock with dirty := true } exPtr (iterInit exEnvSmall.m exSrc) 3 exMem
          ⟨exFS, noFaults, clock⟩ =
        writeLoop exEnvSmall 4 0
        { dtype := b!"<i4", dims := [0, 1], strides := [4, 4], size := 0, data := 0 }
        fuel { exBlock with dirty := true } exPtr (iterInit exEnvSmall.m exSrc) 3 exMem
          ⟨exFS.writeFile (resolve (filePath exBlock.basename (.data 0))) 4 [], noFaults, clock + 2⟩ := rfl
    rw [e, h0]
    exact ih _ rfl rfl

/-- **C07 is false** when the buffer is smaller than one row: a legal write of three rows into an
existing block loops forever, with all files present and no fault. No number of iterations is
enough. -/
theorem C07_hangs (fuel : Nat) :
    blockWriteFuel exEnvSmall fuel exBlock exPtr exSrc exMem exWorld = .hang := by
  unfold blockWriteFuel
  rw [if_neg (by decide)]
  have h1 : elemSizes exEnvSmall { exBlock with dirty := true } = some (1, 4, 0) := by decide +kernel
  have h2 : arrayInit exEnvSmall.m 0 exBlock.dtype [0, u64 exBlock.nmemb] none = some
    { dtype := b!"<i4", dims := [0, 1], strides := [4, 4], size := 0, data := 0 } := by decide +kernel
  have h3 : exBlock.foffset[exPtr.fileid]? = some 0 := by decide +kernel
  simp only [h1, M.lift_some_bind]
  rw [h2, M.lift_some_bind, h3, M.lift_some_bind]
  have h4 : ¬ u64 (i64 (((0 : Nat) : Int) + exPtr.roffset + i64 ((exSrc.size / u64 1 : Nat) : Int))) > exBlock.size := by
    decide
  have h5 : i64 ((exSrc.size / u64 1 : Nat) : Int) = 3 := by decide
  rw [if_neg h4, h5]
  exact exSmall_step fuel exWorld rfl rfl

/-! ## C08 -/

/-- **C08.** A transfer past the last row returns -1; the world (files, pointer, memory) is as
before. -/
theorem C08_out_of_range (env : Env) (bb : Block) (ptr : Ptr) (a : Arr) (mem : Mem)
    (p w sw nm : Nat) (wd : World) (h : XferOk env bb a w sw nm) (hp : PointsTo bb ptr p)
    (hpe : p ≤ bb.size) (hout : bb.size < p + a.size / nm) :
    blockWrite env bb ptr a mem wd = .ok ⟨-1, { bb with dirty := true }, ptr, mem⟩ wd ∧
    blockRead env bb ptr a mem wd = .ok ⟨-1, bb, ptr, mem⟩ wd := by
  rw [h.layout.size] at hpe hout
  exact ⟨blockWrite_range env bb a w sw nm h ptr p mem wd hp hpe hout,
    blockRead_range env bb a w sw nm h ptr p mem wd hp hpe hout⟩

-- three rows from row 3 on do not fit five rows
example : PointsTo exBlock ⟨2, 1, 3⟩ 3 ∧ 3 ≤ exBlock.size ∧ exBlock.size < 3 + exSrc.size / 1 :=
  ⟨⟨Or.inl (by decide), by decide, by decide, by decide⟩, by decide, by decide⟩

/-! ## C10 -/

/-- **C10**, writing: under any faults, if the write returned 0 then every addressed row is
stored. -/
theorem C10_write (env : Env) (bb : Block) (ptr : Ptr) (a : Arr) (mem : Mem)
    (p w sw nm : Nat) (stored : Nat → List Byte) (wd w1 : World) (x : Xfer)
    (hw : LegalWrite env bb ptr a mem p w sw nm stored)
    (hwrite : blockWrite env bb ptr a mem wd = .ok x w1) (hrc : x.rc = 0) :
    ∀ i, i < a.size / nm → row env.m w1.fs bb (p + i) = rowOfElems stored nm i := by
  have hx := wpc_ok (hw.spec wd) hwrite
  obtain ⟨hd1, hd2, _⟩ := hx.done hrc
  intro i hi
  rw [hd1]
  exact row_putRows_in env.m bb wd.fs p _ _ (fun i hi => hw.row_length i hi) hd2 i hi

/-- Without faults, and if the data files exist, the write does return 0. -/
theorem C10_write_succeeds (env : Env) (bb : Block) (ptr : Ptr) (a : Arr) (mem : Mem)
    (p w sw nm : Nat) (stored : Nat → List Byte) (wd : World)
    (hw : LegalWrite env bb ptr a mem p w sw nm stored) (hnf : wd.faults = noFaults)
    (hdf : DataFiles wd.fs bb) :
    ∃ x w1, blockWrite env bb ptr a mem wd = .ok x w1 ∧ x.rc = 0 := by
  obtain ⟨x, w1, h1, h2⟩ := wpc_returns (hw.spec wd) (fun w' hw' => hw'.2 hnf)
  exact ⟨x, w1, h1, h2.succeeds hnf hdf⟩

/-- **C10**, reading: under any faults, if the read returned 0 then every addressed row was completely
stored, and (for a destination whose elements do not overlap) element `e` is the stored element
converted. No read returns 0 after a short transfer. -/
theorem C10_read (env : Env) (bb : Block) (ptr : Ptr) (a : Arr) (mem : Mem)
    (p w sw nm : Nat) (out : Nat → List Byte) (wd w1 : World) (x : Xfer)
    (hr : LegalRead env wd.fs bb ptr a p w sw nm out)
    (hread : blockRead env bb ptr a mem wd = .ok x w1) (hrc : x.rc = 0) :
    (∀ i, i < a.size / nm → Stored env.m wd.fs bb (p + i)) ∧
    (Disjoint a sw → ∀ e, e < a.size / nm * nm → peek x.mem (elemAddr a e) sw = out e) := by
  have hx := wpc_ok hr.spec hread
  obtain ⟨h1, _, h3⟩ := hx.done hrc
  refine ⟨h1, fun hd e he => ?_⟩
  have := h3 hd e he
  rw [Nat.zero_mul, Nat.zero_add] at this
  exact this

theorem exLegalRead : LegalRead exEnv exFS exBlock exPtr exDst 1 4 4 1
    (fun e => List.replicate 4 (UInt8.ofNat (e + 2))) :=
  { ok := exDst_ok, points := exPtr_points, range := by decide, sup := by decide,
    conv := by
      intro e he _
      have : ∀ e < 3, convElem exEnv.m exEnv.fo exDst.dtype (dtypeNormalize exEnv.m exBlock.dtype)
        (elemOfRows exEnv.m exFS exBlock 1 4 1 e) = some (List.replicate 4 (UInt8.ofNat (e + 2))) := by
        decide +kernel
      exact this e he }

-- a short read of the second file is an error, not a success
example : rcOf (blockRead exEnv exBlock exPtr exDst (fun _ => 0)
    ⟨exFS, fun t => if t = 3 then .short 7 else .none, 0⟩) = some (-1) ∧
  rcOf (blockRead exEnv exBlock exPtr exDst (fun _ => 0) exWorld) = some 0 := by decide +kernel

/-! ## C21 -/

/-- **C21.** Whatever the faults and whatever is returned, a legal read changes no byte of memory
outside the elements of the destination array; it changes no file either. -/
theorem C21_read_frame (env : Env) (bb : Block) (ptr : Ptr) (a : Arr) (mem : Mem)
    (p w sw nm : Nat) (out : Nat → List Byte) (wd w1 : World) (x : Xfer)
    (hr : LegalRead env wd.fs bb ptr a p w sw nm out)
    (hread : blockRead env bb ptr a mem wd = .ok x w1) :
    (∀ y, ¬ InElems a sw 0 a.size y → x.mem y = mem y) ∧ w1.fs = wd.fs := by
  have hx := wpc_ok hr.spec hread
  refine ⟨fun y hy => hx.memframe y ?_, hx.fs⟩
  intro hc
  apply hy
  exact inElems_sub a sw 0 a.size (0 * nm) (a.size / nm * nm) (by omega)
    (by rw [Nat.zero_mul, Nat.zero_add, Nat.zero_add]; exact Nat.div_mul_le_self _ _) y hc

example : ¬ InElems exDst 4 0 exDst.size 12 := by
  rintro ⟨i, hi, h1, h2⟩
  have : ∀ i < 3, ¬ (elemAddr exDst (0 + i) ≤ 12 ∧ 12 < elemAddr exDst (0 + i) + 4) := by decide
  exact this i hi ⟨h1, by exact_mod_cast h2⟩

/-! ## C22 -/

/-- **C22**, the part that holds: a write leaves the whole memory of the caller as it was, if the array
is in machine byte order. Missing: arrays in the other byte order, see `C22_foreign`. -/
theorem C22_source_kept_partial (env : Env) (bb : Block) (ptr : Ptr) (a : Arr) (mem : Mem)
    (p w sw nm : Nat) (stored : Nat → List Byte) (wd w1 : World) (x : Xfer)
    (hw : LegalWrite env bb ptr a mem p w sw nm stored)
    (hwrite : blockWrite env bb ptr a mem wd = .ok x w1)
    (hnat : foreign env.m a.dtype = false) : x.mem = mem :=
  (wpc_ok (hw.spec wd) hwrite).native hnat

/-- **C22 is false** for arrays in the other byte order: after a write that returned 0 every element
that was written has its bytes reversed in the caller's memory. -/
theorem C22_foreign (env : Env) (bb : Block) (ptr : Ptr) (a : Arr) (mem : Mem)
    (p w sw nm : Nat) (stored : Nat → List Byte) (wd w1 : World) (x : Xfer)
    (hw : LegalWrite env bb ptr a mem p w sw nm stored)
    (hwrite : blockWrite env bb ptr a mem wd = .ok x w1) (hrc : x.rc = 0)
    (hfor : foreign env.m a.dtype = true) (e : Nat) (he : e < a.size / nm * nm) :
    peek x.mem (elemAddr a e) sw = (peek mem (elemAddr a e) sw).reverse := by
  have := (wpc_ok (hw.spec wd) hwrite).memswap hrc hw.dis e he
  rw [this]
  unfold toNative
  rw [hfor]
  rfl

/-- A concrete witness: writing the `>i4` array `exDst` changes the caller's memory. -/
theorem C22_witness : ∃ x w1, blockWrite exEnv exBlock exPtr exDst (fun y => UInt8.ofNat y.toNat) exWorld =
    .ok x w1 ∧ x.rc = 0 ∧ x.mem 8 = 11 := by
  have h : (match blockWrite exEnv exBlock exPtr exDst (fun y => UInt8.ofNat y.toNat) exWorld with
    | .ok x _ => decide (x.rc = 0 ∧ x.mem 8 = 11)
    | _ => false) = true := by decide +kernel
  split at h
  · rename_i x w1 heq
    exact ⟨x, w1, heq, (of_decide_eq_true h).1, (of_decide_eq_true h).2⟩
  · simp at h

/-- An overlapping array in the other byte order: one `>i2` element seen twice (stride 0). -/
def exOverlap : Arr := { dtype := b!">i4", dims := [2], strides := [0], size := 2, data := 0 }

/-- Why `LegalWrite` excludes overlapping foreign arrays: the element is swapped back and forth, so
rows 1 and 2 differ although both elements of the source are the same four bytes `1 2 3 4`. -/
theorem C22_overlap : ((blockWrite { exEnv with chunkBytes := 4 } exBlock exPtr exOverlap
      (fun y => UInt8.ofNat (y.toNat + 1)) exWorld).fs?.map
    fun fs => (row exEnv.m fs exBlock 1, row exEnv.m fs exBlock 2)) =
    some ([4, 3, 2, 1], [1, 2, 3, 4]) := by decide +kernel

/-! ## C25 -/

/-- **C25.** If no conversion between the two dtypes exists, a transfer of at least one row returns
-1; nothing is stored and, for a read, the caller's memory is unchanged. -/
theorem C25_unsupported (env : Env) (bb : Block) (ptr : Ptr) (a : Arr) (mem : Mem)
    (p w sw nm : Nat) (wd : World) (h : XferOk env bb a w sw nm) (hp : PointsTo bb ptr p)
    (hrange : p + a.size / nm ≤ bb.size) (hn : 0 < a.size / nm) :
    (convertible env.m env.fo (dtypeNormalize env.m bb.dtype) a.dtype = false →
      ∃ x, blockWrite env bb ptr a mem wd = .ok x wd ∧ x.rc = -1 ∧ x.ptr = ptr) ∧
    (convertible env.m env.fo a.dtype (dtypeNormalize env.m bb.dtype) = false →
      ∀ r, r = blockRead env bb ptr a mem wd →
        (∃ x w', r = .ok x w' ∧ x.rc = -1 ∧ x.ptr = ptr ∧ x.mem = mem ∧ w'.fs = wd.fs) ∨
        (∃ w', r = .crash w' ∧ w'.fs = wd.fs ∧ wd.faults ≠ noFaults)) := by
  rw [h.layout.size] at hrange
  constructor
  · intro hs
    obtain ⟨mem', h1, _⟩ := blockWrite_unsupported env bb a w sw nm h ptr p mem wd hp hrange hn hs
    exact ⟨_, h1, rfl, rfl⟩
  · intro hs r hr
    have hspec := blockRead_unsupported env bb a w sw nm h ptr p mem wd hp hrange hn hs
    unfold wpc at hspec
    rw [← hr] at hspec
    cases r with
    | ok x w' =>
      simp only at hspec
      obtain ⟨h1, h2, _⟩ := hspec
      exact Or.inl ⟨x, w', rfl, by rw [h1], by rw [h1], by rw [h1], h2⟩
    | crash w' => exact Or.inr ⟨w', rfl, hspec.1, hspec.2⟩
    | ub => exact hspec.elim
    | hang => exact hspec.elim

-- strings cannot be stored as integers
example : convertible exEnv.m exEnv.fo b!"<i4" b!"<S8" = false := by decide

end Verif
