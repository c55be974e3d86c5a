import Verif.Proof.History
import Verif.Props.Transfer
/-!
# C05, C06, C18, C19: splits, buffer size, checksums
-/

set_option autoImplicit false

namespace Verif

open Spec

theorem peek_eq_at {m1 m2 : Mem} {x y : Int} {n : Nat} (h : peek m1 x n = peek m2 x n) (h1 : x ≤ y)
    (h2 : y < x + n) : m1 y = m2 y := by
  have e : x + ((y - x).toNat : Int) = y := by omega
  have a1 := peek_getElem m1 x n (y - x).toNat (by rw [peek_length]; omega)
  have a2 := peek_getElem m2 x n (y - x).toNat (by rw [peek_length]; omega)
  rw [e] at a1 a2
  rw [← a1, ← a2]
  simp only [h]

/-! ## C05 -/

/-- Two blocks that differ only in how their rows are split into files (and in name). -/
structure Spec.SameRows (b1 b2 : Block) : Prop where
  dtype : b1.dtype = b2.dtype
  nmemb : b1.nmemb = b2.nmemb
  size : b1.size = b2.size

/-- **C05**, what is stored: after the same history of legal writes (all of which returned 0) on two
blocks that differ only in their split into files, every row that was ever written holds the same
bytes in both: those last written to it. -/
theorem C05_rows (env : Env) (b1 b2 c1 c2 : Block) (ops : List WOp) (w nm : Nat)
    (wd1 wd2 w1 w2 : World)
    (hL1 : Layout b1) (hL2 : Layout b2)
    (h1 : ∀ op ∈ ops, op.Legal env b1 w nm) (h2 : ∀ op ∈ ops, op.Legal env b2 w nm)
    (r1 : runWrites env b1 ops wd1 = .ok (c1, true) w1)
    (r2 : runWrites env b2 ops wd2 = .ok (c2, true) w2)
    (r : Nat) (b : List Byte) (hr : lastRow nm ops r = some b) :
    row env.m w1.fs b1 r = b ∧ row env.m w2.fs b2 r = b := by
  have d1 := wpc_ok (runWrites_spec ops b1 wd1 hL1 h1) r1
  have d2 := wpc_ok (runWrites_spec ops b2 wd2 hL2 h2) r2
  rw [d1.fs rfl, d2.fs rfl]
  exact ⟨((applyOps_rows ops wd1.fs h1 (d1.files rfl) r).1 b hr).1,
    ((applyOps_rows ops wd2.fs h2 (d2.files rfl) r).1 b hr).1⟩

/-- Whether a write is legal does not depend on the split either. -/
theorem C05_legal (env : Env) (b1 b2 : Block) (op : WOp) (w nm : Nat) (hs : SameRows b1 b2)
    (hL2 : Layout b2) (h : op.Legal env b1 w nm) : op.Legal env b2 w nm :=
  { ok := { layout := hL2, item := by rw [← hs.dtype]; exact h.ok.item, item0 := h.ok.item0,
            memb := by rw [← hs.nmemb]; exact h.ok.memb, memb0 := h.ok.memb0, felInt := h.ok.felInt,
            buf := h.ok.buf, bufMax := h.ok.bufMax,
            offs := by rw [← hL2.size, ← hs.size, h.ok.layout.size]; exact h.ok.offs,
            arr := h.ok.arr, asize := h.ok.asize, anorm := h.ok.anorm, aitem := h.ok.aitem,
            aitem0 := h.ok.aitem0, abytes := h.ok.abytes },
    dis := h.dis, range := by rw [← hs.size]; exact h.range,
    conv := by rw [← hs.dtype]; exact h.conv }

/-- **C05**, what is read: reading the same rows, all written before, from the two blocks into the
same array gives the same return code 0 and the same memory. -/
theorem C05_reads (env : Env) (b1 b2 c1 c2 : Block) (ops : List WOp) (w nm : Nat)
    (wd1 wd2 w1 w2 : World) (a : Arr) (sw p : Nat) (mem : Mem) (p1 p2 : Ptr) (out : Nat → List Byte)
    (hs : SameRows b1 b2) (hL1 : Layout b1) (hL2 : Layout b2)
    (h1 : ∀ op ∈ ops, op.Legal env b1 w nm)
    (r1 : runWrites env b1 ops wd1 = .ok (c1, true) w1)
    (r2 : runWrites env b2 ops wd2 = .ok (c2, true) w2)
    (hnf1 : wd1.faults = noFaults) (hnf2 : wd2.faults = noFaults)
    (hr : LegalRead env w1.fs b1 p1 a p w sw nm out) (hp2 : PointsTo b2 p2 p) (hd : Disjoint a sw)
    (hwritten : ∀ i, i < a.size / nm → (lastRow nm ops (p + i)).isSome) :
    ∃ x1 v1 x2 v2, blockRead env b1 p1 a mem w1 = .ok x1 v1 ∧ blockRead env b2 p2 a mem w2 = .ok x2 v2 ∧
      x1.rc = 0 ∧ x2.rc = 0 ∧ x1.mem = x2.mem := by
  have h2 : ∀ op ∈ ops, op.Legal env b2 w nm := fun op ho => C05_legal env b1 b2 op w nm hs hL2 (h1 op ho)
  have d1 := wpc_ok (runWrites_spec ops b1 wd1 hL1 h1) r1
  have d2 := wpc_ok (runWrites_spec ops b2 wd2 hL2 h2) r2
  have hrs : rowSize env.m b2 = rowSize env.m b1 := by unfold rowSize; rw [hs.dtype, hs.nmemb]
  have hrow : ∀ i, i < a.size / nm → row env.m w1.fs b1 (p + i) = row env.m w2.fs b2 (p + i) ∧
      Stored env.m w1.fs b1 (p + i) ∧ Stored env.m w2.fs b2 (p + i) := by
    intro i hi
    obtain ⟨b, hb⟩ := Option.isSome_iff_exists.mp (hwritten i hi)
    have := C05_rows env b1 b2 c1 c2 ops w nm wd1 wd2 w1 w2 hL1 hL2 h1 h2 r1 r2 (p + i) b hb
    have hl := ((applyOps_rows ops wd1.fs h1 (d1.files rfl) (p + i)).1 b hb).2
    refine ⟨by rw [this.1, this.2], ?_, ?_⟩
    · unfold Stored; rw [this.1, hl]
    · unfold Stored; rw [this.2, hl, hrs]
  have hr2 : LegalRead env w2.fs b2 p2 a p w sw nm out :=
    { ok := { layout := hL2, item := by rw [← hs.dtype]; exact hr.ok.item, item0 := hr.ok.item0,
              memb := by rw [← hs.nmemb]; exact hr.ok.memb, memb0 := hr.ok.memb0, felInt := hr.ok.felInt,
              buf := hr.ok.buf, bufMax := hr.ok.bufMax,
              offs := by rw [← hL2.size, ← hs.size, hr.ok.layout.size]; exact hr.ok.offs,
              arr := hr.ok.arr, asize := hr.ok.asize, anorm := hr.ok.anorm, aitem := hr.ok.aitem,
              aitem0 := hr.ok.aitem0, abytes := hr.ok.abytes },
      points := hp2, range := by rw [← hs.size]; exact hr.range,
      sup := by rw [← hs.dtype]; exact hr.sup,
      conv := by
        intro e he _
        have hi : e / nm < a.size / nm := Nat.div_lt_of_lt_mul (by rw [Nat.mul_comm]; exact he)
        rw [← hs.dtype]
        have : elemOfRows env.m w2.fs b2 p w nm e = elemOfRows env.m w1.fs b1 p w nm e := by
          unfold elemOfRows
          rw [(hrow _ hi).1]
        rw [this]
        exact hr.conv e he (hrow _ hi).2.1 }
  obtain ⟨x1, v1, e1, q1⟩ := wpc_returns (hr.spec (mem := mem)) (fun w' hw' => hw'.2 (by rw [d1.faults]; exact hnf1))
  obtain ⟨x2, v2, e2, q2⟩ := wpc_returns (hr2.spec (mem := mem)) (fun w' hw' => hw'.2 (by rw [d2.faults]; exact hnf2))
  have rc1 := q1.succeeds (by rw [d1.faults]; exact hnf1) (fun i hi => (hrow i hi).2.1)
  have rc2 := q2.succeeds (by rw [d2.faults]; exact hnf2) (fun i hi => (hrow i hi).2.2)
  refine ⟨x1, v1, x2, v2, e1, e2, rc1, rc2, ?_⟩
  funext y
  by_cases hy : InElems a sw (0 * nm) (a.size / nm * nm) y
  · obtain ⟨i, hi, hy1, hy2⟩ := hy
    have a1 := (q1.done rc1).2.2 hd i hi
    have a2 := (q2.done rc2).2.2 hd i hi
    have e := a1.trans a2.symm
    exact peek_eq_at e hy1 hy2
  · rw [q1.memframe y hy, q2.memframe y hy]

/-! ## C06 -/

/-- Two lists of 32-bit checksums that agree at every index are equal. -/
theorem ext_getD {l1 l2 : List Nat} (hl : l1.length = l2.length) (h : ∀ i, l1.getD i 0 = l2.getD i 0) :
    l1 = l2 := by
  apply List.ext_getElem hl
  intro i h1 h2
  have := h i
  rw [List.getD_eq_getElem?_getD, List.getD_eq_getElem?_getD, List.getElem?_eq_getElem h1,
    List.getElem?_eq_getElem h2] at this
  exact this

/-- **C06**, writing. With any two buffer sizes that hold a row, a legal write (no faults, data files
present) has the same result: return code 0, same files, same handle including checksums, pointers
denoting the same row, same caller memory. -/
theorem C06_write (env : Env) (buf2 : Nat) (bb : Block) (ptr : Ptr) (a : Arr) (mem : Mem)
    (p w sw nm : Nat) (stored : Nat → List Byte) (wd : World)
    (h1 : LegalWrite env bb ptr a mem p w sw nm stored)
    (hbuf : w * nm ≤ buf2) (hbufMax : buf2 < 18446744073709551616)
    (hnf : wd.faults = noFaults) (hdf : DataFiles wd.fs bb) :
    ∃ x1 w1 x2 w2, blockWrite env bb ptr a mem wd = .ok x1 w1 ∧
      blockWrite { env with chunkBytes := buf2 } bb ptr a mem wd = .ok x2 w2 ∧
      x1.rc = 0 ∧ x2.rc = 0 ∧ w1.fs = w2.fs ∧ x1.bb = x2.bb ∧ x1.mem = x2.mem ∧
      PointsTo bb x1.ptr (p + a.size / nm) ∧ PointsTo bb x2.ptr (p + a.size / nm) := by
  have h2 : LegalWrite { env with chunkBytes := buf2 } bb ptr a mem p w sw nm stored :=
    { ok := { layout := h1.ok.layout, item := h1.ok.item, item0 := h1.ok.item0, memb := h1.ok.memb,
              memb0 := h1.ok.memb0, felInt := h1.ok.felInt, buf := hbuf, bufMax := hbufMax,
              offs := h1.ok.offs, arr := h1.ok.arr, asize := h1.ok.asize, anorm := h1.ok.anorm,
              aitem := h1.ok.aitem, aitem0 := h1.ok.aitem0, abytes := h1.ok.abytes },
      dis := h1.dis, points := h1.points, range := h1.range, conv := h1.conv }
  obtain ⟨x1, w1, e1, q1⟩ := wpc_returns (h1.spec wd) (fun w' hw' => hw'.2 hnf)
  obtain ⟨x2, w2, e2, q2⟩ := wpc_returns (h2.spec wd) (fun w' hw' => hw'.2 hnf)
  have rc1 := q1.succeeds hnf hdf
  have rc2 := q2.succeeds hnf hdf
  obtain ⟨f1, _, g1⟩ := q1.done rc1
  obtain ⟨f2, _, g2⟩ := q2.done rc2
  refine ⟨x1, w1, x2, w2, e1, e2, rc1, rc2, by rw [f1, f2], ?_, ?_, g1, g2⟩
  · have c : x1.bb.fchecksum = x2.bb.fchecksum := by
      apply ext_getD
      · rw [q1.layout.nck, q2.layout.nck, q1.shape.nfile, q2.shape.nfile]
      · intro i; rw [q1.cksum rc1, q2.cksum rc2]
    have s1 := q1.shape
    have s2 := q2.shape
    have a1 := q1.attrs
    have a2 := q2.attrs
    have t1 := q1.dirty
    have t2 := q2.dirty
    revert c s1 s2 a1 a2 t1 t2
    cases x1.bb
    cases x2.bb
    rintro c ⟨_, _, _, _, _, _, _⟩ ⟨_, _, _, _, _, _, _⟩ a1 a2 t1 t2
    simp_all
  · funext y
    by_cases hy : InElems a sw 0 (a.size / nm * nm) y
    · obtain ⟨i, hi, hy1, hy2⟩ := hy
      have m1 := q1.memswap rc1 h1.dis i hi
      have m2 := q2.memswap rc2 h2.dis i hi
      have e := m1.trans m2.symm
      rw [Nat.zero_add] at hy1 hy2
      exact peek_eq_at e hy1 hy2
    · rw [q1.memframe y hy, q2.memframe y hy]

/-- **C06**, reading: the return code does not depend on the buffer size, and if it is 0 neither does
the caller's memory (for a destination whose elements do not overlap). -/
theorem C06_read (env : Env) (buf2 : Nat) (bb : Block) (ptr : Ptr) (a : Arr) (mem : Mem)
    (p w sw nm : Nat) (out : Nat → List Byte) (wd : World)
    (h1 : LegalRead env wd.fs bb ptr a p w sw nm out)
    (hbuf : w * nm ≤ buf2) (hbufMax : buf2 < 18446744073709551616)
    (hnf : wd.faults = noFaults) (hd : Disjoint a sw) :
    ∃ x1 w1 x2 w2, blockRead env bb ptr a mem wd = .ok x1 w1 ∧
      blockRead { env with chunkBytes := buf2 } bb ptr a mem wd = .ok x2 w2 ∧
      x1.rc = x2.rc ∧ w1.fs = w2.fs ∧ x1.bb = x2.bb ∧ (x1.rc = 0 → x1.mem = x2.mem) ∧
      (x1.rc = 0 ↔ ∀ i, i < a.size / nm → Stored env.m wd.fs bb (p + i)) := by
  have h2 : LegalRead { env with chunkBytes := buf2 } wd.fs bb ptr a p w sw nm out :=
    { ok := { layout := h1.ok.layout, item := h1.ok.item, item0 := h1.ok.item0, memb := h1.ok.memb,
              memb0 := h1.ok.memb0, felInt := h1.ok.felInt, buf := hbuf, bufMax := hbufMax,
              offs := h1.ok.offs, arr := h1.ok.arr, asize := h1.ok.asize, anorm := h1.ok.anorm,
              aitem := h1.ok.aitem, aitem0 := h1.ok.aitem0, abytes := h1.ok.abytes },
      points := h1.points, range := h1.range, sup := h1.sup, conv := h1.conv }
  obtain ⟨x1, w1, e1, q1⟩ := wpc_returns (h1.spec (mem := mem)) (fun w' hw' => hw'.2 hnf)
  obtain ⟨x2, w2, e2, q2⟩ := wpc_returns (h2.spec (mem := mem)) (fun w' hw' => hw'.2 hnf)
  have i1 : x1.rc = 0 ↔ ∀ i, i < a.size / nm → Stored env.m wd.fs bb (p + i) :=
    ⟨fun h => (q1.done h).1, fun h => q1.succeeds hnf h⟩
  have i2 : x2.rc = 0 ↔ ∀ i, i < a.size / nm → Stored env.m wd.fs bb (p + i) :=
    ⟨fun h => (q2.done h).1, fun h => q2.succeeds hnf h⟩
  refine ⟨x1, w1, x2, w2, e1, e2, ?_, by rw [q1.fs, q2.fs], by rw [q1.same, q2.same], ?_, i1⟩
  · by_cases h : x1.rc = 0
    · rw [h, i2.mpr (i1.mp h)]
    · have h' : x2.rc ≠ 0 := fun h2 => h (i1.mpr (i2.mp h2))
      rw [(q1.failed h).1, (q2.failed h').1]
  · intro rc1
    have rc2 := i2.mpr (i1.mp rc1)
    funext y
    by_cases hy : InElems a sw (0 * nm) (a.size / nm * nm) y
    · obtain ⟨i, hi, hy1, hy2⟩ := hy
      have e := ((q1.done rc1).2.2 hd i hi).trans ((q2.done rc2).2.2 hd i hi).symm
      exact peek_eq_at e hy1 hy2
    · rw [q1.memframe y hy, q2.memframe y hy]

-- two buffer sizes that hold a row of the example
example : 4 * 1 ≤ exEnv.chunkBytes ∧ 4 * 1 ≤ 5 ∧ exEnv.chunkBytes ≠ 5 := by decide

/-! ## C18 -/

/-- **C18.** After any history of legal writes through a handle, under any faults, as long as all
returned 0: the checksum of each file is, modulo 2^32, its old value plus the sum of all bytes
written to that file. -/
theorem C18_checksum (env : Env) (bb c : Block) (ops : List WOp) (w nm : Nat) (wd w1 : World)
    (hL : Layout bb) (h : ∀ op ∈ ops, op.Legal env bb w nm)
    (hrun : runWrites env bb ops wd = .ok (c, true) w1) (f : Nat) :
    c.fchecksum.getD f 0 = (bb.fchecksum.getD f 0 + writtenSum bb nm f ops) % 4294967296 :=
  (wpc_ok (runWrites_spec ops bb wd hL h) hrun).cksum rfl f

/-- C18: if moreover the files were empty and the checksums zero (as after creation) and each row was
written exactly once, the checksum of each file is the byte sum of the file, and the reduced
checksum printed in the header is `sum -s` of the file. -/
theorem C18_once (env : Env) (bb c : Block) (ops : List WOp) (w nm : Nat) (wd w1 : World)
    (hL : Layout bb) (h : ∀ op ∈ ops, op.Legal env bb w nm)
    (hrun : runWrites env bb ops wd = .ok (c, true) w1)
    (hitem : 0 < rowSize env.m bb)
    (hempty : ∀ f, f < bb.nfile → wd.fs.bytes (fileKey bb.basename (.data f)) = [])
    (hzero : ∀ f, f < bb.nfile → bb.fchecksum.getD f 0 = 0)
    (honce : ∀ r, r < bb.size → (ops.filter (·.covers nm r)).length = 1)
    (f : Nat) (hf : f < bb.nfile) :
    c.fchecksum.getD f 0 = byteSum (w1.fs.bytes (fileKey bb.basename (.data f))) % 4294967296 ∧
    sysvReduce (c.fchecksum.getD f 0) = sumS (w1.fs.bytes (fileKey bb.basename (.data f))) := by
  have d := wpc_ok (runWrites_spec ops bb wd hL h) hrun
  have e : c.fchecksum.getD f 0 =
      byteSum (w1.fs.bytes (fileKey bb.basename (.data f))) % 4294967296 := by
    rw [C18_checksum env bb c ops w nm wd w1 hL h hrun f, hzero f hf, Nat.zero_add, d.fs rfl,
      once_sum hL ops wd.fs h (d.files rfl) hitem hempty honce f hf]
  refine ⟨e, ?_⟩
  rw [e]
  unfold sysvReduce sumS
  rw [Nat.mod_mod]

/-- The example block after creation: five rows, three files, all empty. -/
def exFS0 : FS :=
  { exFS with node := fun k =>
      if k = fileKey b!"d/x" (.data 0) ∨ k = fileKey b!"d/x" (.data 1) ∨ k = fileKey b!"d/x" (.data 2)
      then some (.file []) else exFS.node k }

/-- Two `<i8` elements. -/
def exSrc2 : Arr := { dtype := b!"<i8", dims := [2], strides := [16], size := 2, data := 100 }

def exOps : List WOp := [⟨2, exSrc, exMem, 8, exStored⟩, ⟨0, exSrc2, exMem, 8, exStored⟩]

theorem exSrc2_ok : XferOk exEnv exBlock exSrc2 4 8 1 :=
  { layout := exBlock_layout, item := by decide, item0 := by decide, memb := rfl, memb0 := by decide,
    felInt := by decide, buf := by decide, bufMax := by decide, offs := by decide,
    arr := ⟨by decide, rfl, by decide, by decide, by decide⟩, asize := by decide, anorm := by decide,
    aitem := by decide, aitem0 := by decide, abytes := by decide }

theorem exOps_legal : ∀ op ∈ exOps, op.Legal exEnv exBlock 4 1 := by
  intro op hop
  simp only [exOps, List.mem_cons, List.not_mem_nil, or_false] at hop
  rcases hop with rfl | rfl
  · exact { ok := exSrc_ok, dis := fun h => absurd h (by decide), range := by decide,
            conv := exLegalWrite.conv }
  · exact { ok := exSrc2_ok, dis := fun h => absurd h (by decide), range := by decide,
            conv := by
              have : ∀ e < 2, convElem exEnv.m exEnv.fo (dtypeNormalize exEnv.m exBlock.dtype)
                exSrc2.dtype (peek exMem (elemAddr exSrc2 e) 8) = some (exStored e) := by decide +kernel
              exact this }

-- each row exactly once, files empty, checksums zero; and the history does return 0
example : (∀ r < 5, (exOps.filter (·.covers 1 r)).length = 1) ∧
    (∀ f < 3, exFS0.bytes (fileKey exBlock.basename (.data f)) = []) ∧
    (∀ f < 3, exBlock.fchecksum.getD f 0 = 0) ∧
    (match runWrites exEnv exBlock exOps ⟨exFS0, noFaults, 0⟩ with
      | .ok (c, true) _ => c.fchecksum == [21, 0, 33]
      | _ => false) = true := by decide +kernel

/-! ## C19 -/

/-- **C19 is false**: after two legal writes of the same row, both returning 0, the checksum is twice
the byte sum of the file. -/
theorem C19_rewrite : ∃ c w1, runWrites exEnv exBlock [⟨0, exSrc2, exMem, 8, exStored⟩,
      ⟨0, exSrc2, exMem, 8, exStored⟩] ⟨exFS0, noFaults, 0⟩ = .ok (c, true) w1 ∧
    c.fchecksum.getD 0 0 = 42 ∧ byteSum (w1.fs.bytes (fileKey exBlock.basename (.data 0))) = 21 := by
  have h : (match runWrites exEnv exBlock [⟨0, exSrc2, exMem, 8, exStored⟩,
      ⟨0, exSrc2, exMem, 8, exStored⟩] ⟨exFS0, noFaults, 0⟩ with
    | .ok (c, true) w1 => decide (c.fchecksum.getD 0 0 = 42 ∧
        byteSum (w1.fs.bytes (fileKey exBlock.basename (.data 0))) = 21)
    | _ => false) = true := by decide +kernel
  split at h
  · rename_i c w1 heq
    exact ⟨c, w1, heq, (of_decide_eq_true h).1, (of_decide_eq_true h).2⟩
  · simp at h

/-- **C19**, the part that holds: if the checksums matched before and no written row was stored before
(new rows of empty files, each written once) they match afterwards. Missing: rewriting a row, see
`C19_rewrite`. This is `C18_once` for the byte sum. -/
theorem C19_partial (env : Env) (bb c : Block) (ops : List WOp) (w nm : Nat) (wd w1 : World)
    (hL : Layout bb) (h : ∀ op ∈ ops, op.Legal env bb w nm)
    (hrun : runWrites env bb ops wd = .ok (c, true) w1) (hitem : 0 < rowSize env.m bb)
    (hempty : ∀ f, f < bb.nfile → wd.fs.bytes (fileKey bb.basename (.data f)) = [])
    (hzero : ∀ f, f < bb.nfile → bb.fchecksum.getD f 0 = 0)
    (honce : ∀ r, r < bb.size → (ops.filter (·.covers nm r)).length = 1)
    (f : Nat) (hf : f < bb.nfile) :
    c.fchecksum.getD f 0 = byteSum (w1.fs.bytes (fileKey bb.basename (.data f))) % 4294967296 :=
  (C18_once env bb c ops w nm wd w1 hL h hrun hitem hempty hzero honce f hf).1

/-! ## An example for C05: the same five rows in one file -/

def exBlock1 : Block :=
  { dtype := b!"<i4", nmemb := 1, basename := b!"d/y", size := 5, fsize := [5],
    foffset := [0, 5], fchecksum := [0], nfile := 1,
    attrset := ⟨false, 0, fun _ => 0, 0, 0, [], 0⟩, dirty := false }

def exFS1 : FS :=
  { exFS with node := fun k =>
      if k = fileKey b!"d/y" (.data 0) then some (.file []) else exFS.node k }

example : SameRows exBlock exBlock1 ∧ Layout exBlock1 ∧
    (match runWrites exEnv exBlock exOps ⟨exFS0, noFaults, 0⟩,
        runWrites exEnv exBlock1 exOps ⟨exFS1, noFaults, 0⟩ with
      | .ok (_, true) w1, .ok (_, true) w2 => (List.range 5).all fun r =>
          row exEnv.m w1.fs exBlock r == row exEnv.m w2.fs exBlock1 r
      | _, _ => false) = true := by
  exact ⟨⟨rfl, rfl, rfl⟩, ⟨rfl, rfl, by decide, rfl, by decide, by decide⟩, by decide +kernel⟩

end Verif
