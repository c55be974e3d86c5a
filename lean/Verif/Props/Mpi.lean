import Verif.Proof.MpiWrite
import Verif.Proof.AggRead
import Verif.Proof.Value
/-!
# C45, C46 and C47: collective writes and reads
-/

set_option autoImplicit false

namespace Verif

open Spec

section
variable {env : Env} {bb : Block} {w nm n : Nat} {R : Nat → Rank} {p : Nat} {rows sw : Nat → Nat}
  {stored : Nat → Nat → List Byte}

theorem Spec.CollectiveWrite.rowsWritten (h : CollectiveWrite env bb w nm n R p rows sw stored) {fs : FS} {nd : Nodes}
    (hf : ∀ i, i < rowsBefore rows n → IsFile fs (fileKey bb.basename (.data (rowFile bb (p + i)))))
    (hn : nd = putList env.m bb p (allRows n rows nm stored) fs.node) :
    RowsWritten env.m bb fs nd p (allRows n rows nm stored) := by
  have hlen := allRows_length n rows nm stored
  have hrs : rowSize env.m bb = w * nm := by
    have hs := h.shape 0 h.procs.1
    rw [← (h.block 0 h.procs.1).dummy.rowSize]
    unfold rowSize
    rw [hs.dtype, hs.nmemb]
  have hll : ∀ x ∈ allRows n rows nm stored, x.length = rowSize env.m bb := by
    intro x hx
    obtain ⟨r, hr, hx⟩ := List.mem_flatMap.mp hx
    rw [hrs]
    exact h.row_length (List.mem_range.mp hr) x hx
  have hli : ∀ i, i < (allRows n rows nm stored).length → ((allRows n rows nm stored).getD i []).length = rowSize env.m bb := by
    intro i hi
    apply hll
    rw [List.getD_eq_getElem?_getD, List.getElem?_eq_getElem hi]
    exact List.getElem_mem hi
  have hnode : nd = (putRows env.m bb fs p (fun i => (allRows n rows nm stored).getD i []) (allRows n rows nm stored).length).node := by
    rw [hn]
    exact putRows_node rfl
  have hrow : ∀ q, row env.m ⟨nd, fs.dom⟩ bb q =
      row env.m (putRows env.m bb fs p (fun i => (allRows n rows nm stored).getD i []) (allRows n rows nm stored).length) bb q := by
    intro q
    unfold row FS.bytes
    rw [hnode]
  refine ⟨?_, ?_, ?_⟩
  · intro i hi
    rw [hrow]
    exact row_putRows_in env.m bb fs p _ _ hli (fun i hi => hf i (by omega)) i hi
  · intro q hq hs
    rw [hrow]
    exact row_putRows_out env.m bb fs p _ _ (fun i hi => by rw [hli i hi]; exact Nat.le_refl _) q hq hs
  · intro k hk
    rw [hnode]
    apply node_putRows_other
    intro i hi
    apply hk
    have hs := h.shape 0 h.procs.1
    have hL := (h.block 0 h.procs.1).layout
    have hr := h.range
    rw [← hs.size, hL.size, hs.fsize] at hr
    have := locate_lt bb.fsize (p + i) (by omega)
    have hn := hL.nfile
    rw [hs.fsize, hs.nfile] at hn
    rw [← hn]
    exact this.1

end

/-- **C45.** `n` processes call `big_block_mpi_write` on a block whose data files exist, and no file
operation fails. For every distribution of the rows, every concurrency limit and aggregation threshold,
and every interleaving of the processes: no run is longer than a fixed number of steps; no run gets
stuck before all processes have returned; all return 0 with their pointers behind the last row; the
rows of all arrays, in rank order, are stored from row `p` on and nothing else has changed; the
checksums of all processes together have grown by the bytes of these rows; if there are any, the handle of
some process is marked as changed; and the files are the same
as after one `big_block_write`, by one process, of an array that holds these rows. -/
theorem C45_collective_write (env : Env) (bb : Block) (w nm n : Nat) (R : Nat → Rank) (p : Nat) (rows sw : Nat → Nat)
    (stored : Nat → Nat → List Byte) (fs : FS) (concurrency : Int) (threshold : Nat)
    (h : CollectiveWrite env bb w nm n R p rows sw stored) (hc : concurrency < 2147483648) (hd : DataFiles fs bb) :
    ∃ B, ∀ es s, Run faultless n (startWrite env n concurrency threshold R fs) es s → es.length ≤ B ∧
      (s.Stuck faultless n →
        ∃ st : Nat → Rank,
          (∀ r, r < n → (s.thr r).prog = .ret (0, st r) ∧ WriteReturned env bb R sw p (rowsBefore rows n) r (st r)) ∧
          RowsWritten env.m bb fs s.nodes p (allRows n rows nm stored) ∧
          (∀ f, totalChecksum n st f % 4294967296 = (totalChecksum n R f +
            rowsSum bb p (fun i => (allRows n rows nm stored).getD i []) f (rowsBefore rows n)) % 4294967296) ∧
          (0 < rowsBefore rows n → ∃ r, r < n ∧ (st r).bb.dirty = true) ∧
          ∀ bb1 ptr a mem sw1 stored1, SameShape bb bb1 → LegalWrite env bb1 ptr a mem p w sw1 nm stored1 →
            (List.range (a.size / nm)).map (rowOfElems stored1 nm) = allRows n rows nm stored →
            ∃ x w', blockWrite env bb1 ptr a mem ⟨fs, noFaults, 0⟩ = .ok x w' ∧ x.rc = 0 ∧ s.nodes = w'.fs.node) := by
  have hF : NoCrash faultless := by intro r t m; simp [faultless, noFaults]
  obtain ⟨B, hB⟩ := write_runs h concurrency threshold hc hF fs
  refine ⟨B, fun es s hr => ?_⟩
  obtain ⟨h1, _, h3⟩ := hB es s hr
  refine ⟨h1, fun hs => ?_⟩
  rcases h3 hs with ⟨st, hst, hck, hdt, hfi, hnod⟩ | ⟨hbad, _⟩
  · refine ⟨st, hst, h.rowsWritten hfi hnod, hck, hdt, ?_⟩
    intro bb1 ptr a mem sw1 stored1 hsh hlw hrows
    obtain ⟨x, w', hrun, hx⟩ := wpc_returns (hlw.spec ⟨fs, noFaults, 0⟩) (fun w' hc => hc.2 rfl)
    have hrc := hx.succeeds rfl ((hsh.dataFiles _).mpr hd)
    obtain ⟨e1, _, _⟩ := hx.done hrc
    refine ⟨x, w', hrun, hrc, ?_⟩
    rw [e1, hnod, hsh.putRows]
    unfold putList
    rw [← hrows]
    simp only [List.length_map, List.length_range]
    rw [putRows_congr (rows' := rowOfElems stored1 nm)]
    · exact putRows_node rfl
    · intro i hi
      simp [List.getD_eq_getElem?_getD, hi]
  · exact absurd ⟨fun _ _ => rfl, hd⟩ hbad

/-- **C47**, for `big_block_mpi_write`. File operations of any process may fail or be cut short in any
pattern. In every interleaving all processes return, with the same code. If it is 0 all rows are stored;
otherwise every process has the error message of one of them. At every moment, whatever has failed,
nothing but the rows to be written has changed. -/
theorem C47_write_agreement (env : Env) (bb : Block) (w nm n : Nat) (R : Nat → Rank) (p : Nat) (rows sw : Nat → Nat)
    (stored : Nat → Nat → List Byte) (fs : FS) (concurrency : Int) (threshold : Nat)
    (h : CollectiveWrite env bb w nm n R p rows sw stored) (hc : concurrency < 2147483648)
    (F : Nat → Nat → Fault) (hF : NoCrash F) :
    ∃ B, ∀ es s, Run F n (startWrite env n concurrency threshold R fs) es s → es.length ≤ B ∧
      RowsTouched env.m bb fs s.nodes p (rowsBefore rows n) ∧
      (s.Stuck F n → ∃ rc : Int, ∃ st : Nat → Rank, (∀ r, r < n → (s.thr r).prog = .ret (rc, st r)) ∧
        (rc = 0 → RowsWritten env.m bb fs s.nodes p (allRows n rows nm stored) ∧
          ∀ r, r < n → WriteReturned env bb R sw p (rowsBefore rows n) r (st r)) ∧
        (rc ≠ 0 → ∃ r0, r0 < n ∧ ∀ r, r < n → (st r).err = some (R r0).fail)) := by
  obtain ⟨B, hB⟩ := write_runs h concurrency threshold hc hF fs
  refine ⟨B, fun es s hr => ?_⟩
  obtain ⟨h1, h2, h3⟩ := hB es s hr
  refine ⟨h1, h2, fun hs => ?_⟩
  rcases h3 hs with ⟨st, hst, _, _, hfi, hnod⟩ | ⟨_, e, r0, he, hr0, hall⟩
  · exact ⟨0, st, fun r hr => (hst r hr).1, fun _ => ⟨h.rowsWritten hfi hnod, fun r hr => (hst r hr).2⟩,
      fun hne => absurd rfl hne⟩
  · have hst : ∃ st : Nat → Rank, ∀ r, r < n → (s.thr r).prog = .ret (e, st r) ∧ (st r).err = some (R r0).fail := by
      refine ⟨fun r => if hr : r < n then (hall r hr).choose else R 0, fun r hr => ?_⟩
      simp only [dif_pos hr]
      exact (hall r hr).choose_spec
    obtain ⟨st, hst⟩ := hst
    exact ⟨e, st, fun r hr => (hst r hr).1, fun h0 => absurd h0 he, fun _ => ⟨r0, hr0, fun r hr => (hst r hr).2⟩⟩

/-- **C46.** `n` processes call `big_block_mpi_read` on rows that are all stored, and no file operation
fails. For every distribution of the rows, every concurrency limit and aggregation threshold, and every
interleaving: no run is longer than a fixed number of steps; no run gets stuck before all processes have
returned; all return 0 with their pointers behind the last row; the array of each process has the rows
that start at its offset in rank order, converted, and no other byte of its memory has changed; no file
changes. An array of the same dtype read by one process with one `big_block_read` has the same elements
at the corresponding places. -/
theorem C46_collective_read (env : Env) (fs : FS) (bb : Block) (w nm n : Nat) (R : Nat → Rank) (p : Nat)
    (rows sw : Nat → Nat) (out : Nat → Nat → List Byte) (concurrency : Int) (threshold : Nat)
    (h : CollectiveRead env fs bb w nm n R p rows sw out) (hc : concurrency < 2147483648)
    (hst : ∀ i, i < rowsBefore rows n → Stored env.m fs bb (p + i)) :
    ∃ B, ∀ es s, Run faultless n (startRead env n concurrency threshold R fs) es s → es.length ≤ B ∧
      s.nodes = fs.node ∧
      (s.Stuck faultless n →
        ∃ st : Nat → Rank,
          (∀ r, r < n → (s.thr r).prog = .ret (0, st r) ∧
            ReadReturned env fs bb nm R p rows sw out (rowsBefore rows n) r (st r)) ∧
          ∀ bb1 ptr a mem sw1 out1, SameShape bb bb1 → LegalRead env fs bb1 ptr a p w sw1 nm out1 →
            a.size / nm = rowsBefore rows n → Disjoint a sw1 →
            ∃ x w', blockRead env bb1 ptr a mem ⟨fs, noFaults, 0⟩ = .ok x w' ∧ x.rc = 0 ∧
              ∀ r, r < n → (R r).arr.dtype = a.dtype → ∀ e, e < rows r * nm →
                peek x.mem (elemAddr a (rowsBefore rows r * nm + e)) sw1 =
                  peek (st r).mem (elemAddr (R r).arr e) (sw r)) := by
  have hF : NoCrash faultless := by intro r t m; simp [faultless, noFaults]
  obtain ⟨B, hB⟩ := read_runs h concurrency threshold hc hF (Or.inl ⟨fun _ _ => rfl, hst⟩)
  refine ⟨B, fun es s hr => ?_⟩
  obtain ⟨h1, h2, h3⟩ := hB es s hr
  refine ⟨h1, h2, fun hs => ?_⟩
  rcases h3 hs with ⟨st, hall⟩ | ⟨hbad, _⟩
  · refine ⟨st, hall, ?_⟩
    intro bb1 ptr a mem sw1 out1 hsh hlr hrows hdis
    have hlr' : LegalRead env (World.mk fs noFaults 0).fs bb1 ptr a p w sw1 nm out1 := hlr
    obtain ⟨x, w', hrun, hx⟩ := wpc_returns (hlr'.spec (mem := mem)) (fun w' hc => hc.2 rfl)
    have hsto : ∀ q, Stored env.m fs bb1 q ↔ Stored env.m fs bb q := by
      intro q
      unfold Stored rowSize
      rw [hsh.row, hsh.dtype, hsh.nmemb]
    rw [hrows] at hx
    have hrc := hx.succeeds rfl (fun i hi => (hsto _).mpr (hst i hi))
    refine ⟨x, w', hrun, hrc, ?_⟩
    obtain ⟨_, _, h4⟩ := hx.done hrc
    intro r hr hdt e he
    have hnm := (h.block r hr).memb0
    have hle := rows_le rows hr
    have hlt : rowsBefore rows r * nm + e < rowsBefore rows n * nm := by
      have := Nat.mul_le_mul_right nm hle
      rw [Nat.add_mul] at this
      omega
    have h5 := h4 hdis _ hlt
    rw [Nat.zero_mul, Nat.zero_add] at h5
    rw [h5, (hall r hr).2.elems e he]
    have hq : e / nm < rows r := by rw [Nat.div_lt_iff_lt_mul hnm]; exact he
    have hdiv : (rowsBefore rows r * nm + e) / nm = rowsBefore rows r + e / nm := by
      rw [Nat.mul_comm, Nat.mul_add_div hnm]
    have hmod : (rowsBefore rows r * nm + e) % nm = e % nm := by
      rw [Nat.mul_comm, Nat.mul_add_mod]
    have hstq : Stored env.m fs bb (p + rowsBefore rows r + e / nm) := by
      have := hst (rowsBefore rows r + e / nm) (by omega)
      rwa [← Nat.add_assoc] at this
    have c1 := hlr.conv (rowsBefore rows r * nm + e) (by rw [hrows]; exact hlt)
      (by rw [hdiv, hsto, ← Nat.add_assoc]; exact hstq)
    have c2 := h.conv r hr e he hstq
    have e1 : elemOfRows env.m fs bb1 p w nm (rowsBefore rows r * nm + e) =
        elemOfRows env.m fs bb (p + rowsBefore rows r) w nm e := by
      rw [hsh.elemOfRows]
      unfold elemOfRows
      rw [hdiv, hmod, ← Nat.add_assoc]
    rw [e1, hsh.dtype, ← hdt, c2] at c1
    exact (Option.some.inj c1).symm
  · exact absurd ⟨fun _ _ => rfl, hst⟩ hbad

/-- **C47**, for `big_block_mpi_read`, if the conversion of every block element is defined whatever its
bytes are (after a failure the processes convert whatever the buffer holds). File operations of any
process may fail or be cut short in any pattern. In every interleaving all processes return, with the
same code. If it is 0 all rows were stored and everybody has its rows; otherwise every process has the
error message of one of them. No file changes. -/
theorem C47_read_agreement (env : Env) (fs : FS) (bb : Block) (w nm n : Nat) (R : Nat → Rank) (p : Nat)
    (rows sw : Nat → Nat) (out : Nat → Nat → List Byte) (concurrency : Int) (threshold : Nat)
    (h : CollectiveRead env fs bb w nm n R p rows sw out) (hc : concurrency < 2147483648)
    (hany : ConvertsAny env bb w n R rows) (F : Nat → Nat → Fault) (hF : NoCrash F) :
    ∃ B, ∀ es s, Run F n (startRead env n concurrency threshold R fs) es s → es.length ≤ B ∧ s.nodes = fs.node ∧
      (s.Stuck F n → ∃ rc : Int, ∃ st : Nat → Rank, (∀ r, r < n → (s.thr r).prog = .ret (rc, st r)) ∧
        (rc = 0 → ∀ r, r < n → ReadReturned env fs bb nm R p rows sw out (rowsBefore rows n) r (st r)) ∧
        (rc ≠ 0 → ∃ r0, r0 < n ∧ ∀ r, r < n → (st r).err = some (R r0).fail)) := by
  obtain ⟨B, hB⟩ := read_runs h concurrency threshold hc hF (Or.inr hany)
  refine ⟨B, fun es s hr => ?_⟩
  obtain ⟨h1, h2, h3⟩ := hB es s hr
  refine ⟨h1, h2, fun hs => ?_⟩
  rcases h3 hs with ⟨st, hall⟩ | ⟨_, e, r0, he, hr0, hall⟩
  · exact ⟨0, st, fun r hr => (hall r hr).1, fun _ r hr => (hall r hr).2, fun hne => absurd rfl hne⟩
  · have hst : ∃ st : Nat → Rank, ∀ r, r < n → (s.thr r).prog = .ret (e, st r) ∧ (st r).err = some (R r0).fail := by
      refine ⟨fun r => if hr : r < n then (hall r hr).choose else R 0, fun r hr => ?_⟩
      simp only [dif_pos hr]
      exact (hall r hr).choose_spec
    obtain ⟨st, hst⟩ := hst
    exact ⟨e, st, fun r hr => (hst r hr).1, fun h0 => absurd h0 he, fun _ => ⟨r0, hr0, fun r hr => (hst r hr).2⟩⟩

/-- **C47**, for the exchange of errors that ends every collective call: process `r` arrives with code
`rt r` and message `err r`. In every interleaving all processes leave with the same code; it is nonzero
iff some process arrived with a nonzero code, and then code and message are those of such a process;
otherwise everybody keeps its message. -/
theorem C47_exchange (n : Nat) (hn : 0 < n) (rt : Nat → Int) (err : Nat → Option CStr) (nodes : Nodes)
    (hmsg : ∀ r, r < n → rt r ≠ 0 → ∃ t, err r = some t) :
    ∃ B, ∀ es s, Run faultless n ⟨fun r => ⟨anyerrorP .world (List.range n) r (rt r) (err r), 0⟩, nodes⟩ es s →
      es.length ≤ B ∧ (s.Stuck faultless n → s.nodes = nodes ∧
        (((∀ r, r < n → rt r = 0) ∧ ∀ r, r < n → (s.thr r).prog = .ret (0, err r)) ∨
        ∃ r0, r0 < n ∧ rt r0 ≠ 0 ∧ ∀ r, r < n → (s.thr r).prog = .ret (rt r0, err r0))) := by
  have hF : NoCrash faultless := by intro r t m; simp [faultless, noFaults]
  have hne : List.range n ≠ [] := by
    intro h
    have := List.length_range (n := n)
    rw [h] at this
    simp at this
    omega
  obtain ⟨s', ⟨⟨es0, hrun, hev⟩, _⟩, hnodes, _, hout⟩ := anyerror_run faultless (n := n) (E := fun e => ∃ c, e = .coll c)
    (fun c => ⟨c, rfl⟩) .world (List.range n) hne List.nodup_range rt err (fun r hr => hmsg r (List.mem_range.mp hr))
    (s := ⟨fun r => ⟨anyerrorP .world (List.range n) r (rt r) (err r), 0⟩, nodes⟩) (fun _ x => Prog.ret x)
    (fun r hr => ⟨List.mem_range.mp hr, (Prog.bind_ret _).symm⟩)
  have hI : ∀ a ∈ es0, ∀ b ∈ es0, Indep a b := by
    intro a ha b hb
    obtain ⟨c, rfl⟩ := hev a ha
    trivial
  have hfin : s'.Finished n := by
    intro r hr
    rcases hout with ⟨_, h⟩ | ⟨r0, _, _, h⟩
    · exact ⟨_, h r (List.mem_range.mpr hr)⟩
    · exact ⟨_, h r (List.mem_range.mpr hr)⟩
  refine ⟨es0.length, fun es s hr => ?_⟩
  obtain ⟨h1, h2⟩ := hrun.unique hF hfin hI hr
  refine ⟨h1, fun hs => ?_⟩
  rw [h2 hs]
  refine ⟨hnodes, ?_⟩
  rcases hout with ⟨h0, h⟩ | ⟨r0, hr0, h0, h⟩
  · exact Or.inl ⟨fun r hr => h0 r (List.mem_range.mpr hr), fun r hr => h r (List.mem_range.mpr hr)⟩
  · exact Or.inr ⟨r0, List.mem_range.mp hr0, h0, fun r hr => h r (List.mem_range.mpr hr)⟩

/-! ## An example: three processes with two, no and one row, of different types -/

/-- Two elements of type `<i8` with a stride of 16 bytes. -/
def exTwo : Arr := { dtype := b!"<i8", dims := [2], strides := [16], size := 2, data := 100 }

/-- No elements. -/
def exNone : Arr := { dtype := b!"<i8", dims := [0], strides := [8], size := 0, data := 0 }

def exRanks (r : Nat) : Rank :=
  if r = 0 then ⟨exBlock, exPtr, exTwo, exMem, none, b!"disk full"⟩
  else if r = 1 then ⟨exBlock, exPtr, exNone, exMem, none, b!"no"⟩
  else ⟨exBlock, exPtr, exOne, fun y => UInt8.ofNat y.toNat, none, b!"gone"⟩

def exRankRows (r : Nat) : Nat := if r = 0 then 2 else if r = 1 then 0 else 1

def exRankStored (r e : Nat) : List Byte := if r = 0 then exStored e else [3, 2, 1, 0]

theorem exBlockOk : BlockOk exEnv exBlock 4 1 :=
  ⟨exBlock_layout, by decide, by decide, rfl, by decide, by decide, by decide, by decide, by decide⟩

theorem exCollective : CollectiveWrite exEnv exBlock 4 1 3 exRanks 1 exRankRows (fun r => if r = 2 then 4 else 8) exRankStored := by
  refine ⟨⟨by decide, ?_, ?_, ?_, ?_, ?_, ?_, ?_, by decide, by decide⟩, ?_, ?_⟩
  · intro r hr
    match r, hr with
    | 0, _ | 1, _ | 2, _ => exact exBlockOk
  · intro r hr
    match r, hr with
    | 0, _ | 1, _ | 2, _ => exact ⟨rfl, rfl, rfl, rfl, rfl, rfl, rfl⟩
  · intro r hr
    match r, hr with
    | 0, _ | 1, _ | 2, _ => exact exPtr_points
  · intro r hr
    match r, hr with
    | 0, _ | 1, _ | 2, _ => rfl
  · intro r hr
    match r, hr with
    | 0, _ | 1, _ | 2, _ => rfl
  · intro r hr
    match r, hr with
    | 0, _ | 1, _ | 2, _ => exact List.cons_ne_nil _ _
  · intro r hr h0
    match r, hr, h0 with
    | 0, _, _ =>
      exact ⟨exBlock_layout, by decide, by decide, rfl, by decide, by decide, by decide, by decide, by decide,
          ⟨by decide, rfl, by decide, by decide, by decide⟩, by decide, by decide, by decide, by decide, by decide⟩
    | 1, _, h0 => exact absurd h0 (by decide)
    | 2, _, _ =>
      exact ⟨exBlock_layout, by decide, by decide, rfl, by decide, by decide, by decide, by decide, by decide,
          ⟨by decide, rfl, by decide, by decide, by decide⟩, by decide, by decide, by decide, by decide, by decide⟩
  · intro r hr hf
    match r, hr with
    | 0, _ => exact absurd hf (by decide)
    | 1, _ => exact absurd hf (by decide)
    | 2, _ =>
      intro i j hi hj hne
      have hi : i < 1 := hi
      have hj : j < 1 := hj
      omega
  · intro r hr
    match r, hr with
    | 0, _ =>
      have : ∀ e < 2, convElem exEnv.m exEnv.fo (dtypeNormalize exEnv.m exBlock.dtype) exTwo.dtype
        (peek exMem (elemAddr exTwo e) 8) = some (exStored e) := by decide +kernel
      exact this
    | 1, _ =>
      intro e he
      exact absurd he (Nat.not_lt_zero e)
    | 2, _ =>
      intro e he
      have he : e < 1 := he
      obtain rfl : e = 0 := by omega
      decide +kernel

-- however the three processes are scheduled, rows 1, 2 and 3 become 10, 11 and 0x00010203
example : ∃ B, ∀ es s, Run faultless 3 (startWrite exEnv 3 2 1 exRanks exFS) es s → es.length ≤ B ∧
    (s.Stuck faultless 3 → row exEnv.m ⟨s.nodes, exFS.dom⟩ exBlock 1 = [10, 0, 0, 0] ∧
      row exEnv.m ⟨s.nodes, exFS.dom⟩ exBlock 2 = [11, 0, 0, 0] ∧
      row exEnv.m ⟨s.nodes, exFS.dom⟩ exBlock 3 = [3, 2, 1, 0]) := by
  obtain ⟨B, hB⟩ := C45_collective_write exEnv exBlock 4 1 3 exRanks 1 exRankRows (fun r => if r = 2 then 4 else 8)
    exRankStored exFS 2 1 exCollective (by decide) exFS_data
  refine ⟨B, fun es s hr => ⟨(hB es s hr).1, fun hs => ?_⟩⟩
  obtain ⟨st, _, hw, _⟩ := (hB es s hr).2 hs
  exact ⟨hw.inside 0 (by decide), hw.inside 1 (by decide), hw.inside 2 (by decide)⟩

-- the first file operation of every process fails: all processes return the same code
example : ∃ B, ∀ es s, Run (fun _ t => if t = 0 then .fail else .none) 3 (startWrite exEnv 3 2 1 exRanks exFS) es s →
    es.length ≤ B ∧ (s.Stuck (fun _ t => if t = 0 then .fail else .none) 3 →
      ∃ rc : Int, ∀ r, r < 3 → ∃ st, (s.thr r).prog = .ret (rc, st)) := by
  obtain ⟨B, hB⟩ := C47_write_agreement exEnv exBlock 4 1 3 exRanks 1 exRankRows (fun r => if r = 2 then 4 else 8)
    exRankStored exFS 2 1 exCollective (by decide) (fun _ t => if t = 0 then .fail else .none) (by
      intro r t m; dsimp only; split <;> simp)
  refine ⟨B, fun es s hr => ⟨(hB es s hr).1, fun hs => ?_⟩⟩
  obtain ⟨rc, st, h, _⟩ := (hB es s hr).2.2 hs
  exact ⟨rc, fun r hr => ⟨st r, h r hr⟩⟩

-- two of four processes failed
example : ∃ B, ∀ es s, Run faultless 4 ⟨fun r => ⟨anyerrorP .world (List.range 4) r ([0, -1, 0, -2].getD r 0)
      (some [UInt8.ofNat r]), 0⟩, exFS.node⟩ es s → es.length ≤ B ∧ (s.Stuck faultless 4 →
    ∃ rc t, rc ≠ 0 ∧ ∀ r, r < 4 → (s.thr r).prog = .ret (rc, t)) := by
  obtain ⟨B, hB⟩ := C47_exchange 4 (by decide) (fun r => [0, -1, 0, -2].getD r 0) (fun r => some [UInt8.ofNat r])
    exFS.node (fun r _ _ => ⟨_, rfl⟩)
  refine ⟨B, fun es s hr => ⟨(hB es s hr).1, fun hs => ?_⟩⟩
  rcases ((hB es s hr).2 hs).2 with ⟨h, _⟩ | ⟨r0, _, h0, h⟩
  · exact absurd (h 1 (by decide)) (by decide)
  · exact ⟨_, _, h0, h⟩

/-- What the processes of `exRanks` read: rows 1 and 2 as `<i8`, row 3 as `>i4`. -/
def exRankOut (r e : Nat) : List Byte :=
  if r = 0 then List.replicate 4 (UInt8.ofNat (e + 2)) ++ [0, 0, 0, 0] else [4, 4, 4, 4]

theorem exCollectiveRead : CollectiveRead exEnv exFS exBlock 4 1 3 exRanks 1 exRankRows (fun r => if r = 2 then 4 else 8)
    exRankOut := by
  refine ⟨exCollective.toCollective, ?_, ?_, ?_⟩
  · intro r hr
    match r, hr with
    | 0, _ =>
      have : ∀ i < 2, ∀ j < 2, i ≠ j → elemAddr exTwo i + (8 : Nat) ≤ elemAddr exTwo j ∨
        elemAddr exTwo j + (8 : Nat) ≤ elemAddr exTwo i := by decide
      exact fun i j hi hj => this i hi j hj
    | 1, _ => exact fun i j hi => absurd hi (Nat.not_lt_zero i)
    | 2, _ =>
      intro i j hi hj hne
      have hi : i < 1 := hi
      have hj : j < 1 := hj
      omega
  · intro r hr h0
    match r, hr, h0 with
    | 0, _, _ => decide
    | 1, _, h0 => exact absurd h0 (by decide)
    | 2, _, _ => decide
  · intro r hr e he _
    match r, hr with
    | 0, _ =>
      have : ∀ e < 2, convElem exEnv.m exEnv.fo exTwo.dtype (dtypeNormalize exEnv.m exBlock.dtype)
        (elemOfRows exEnv.m exFS exBlock 1 4 1 e) = some (List.replicate 4 (UInt8.ofNat (e + 2)) ++ [0, 0, 0, 0]) := by
        decide +kernel
      exact this e he
    | 1, _ => exact absurd he (Nat.not_lt_zero e)
    | 2, _ =>
      have he : e < 1 := he
      obtain rfl : e = 0 := by omega
      decide +kernel

-- the rows are stored: all processes get theirs
example : ∃ B, ∀ es s, Run faultless 3 (startRead exEnv 3 2 1 exRanks exFS) es s → es.length ≤ B ∧ s.nodes = exFS.node ∧
    (s.Stuck faultless 3 → ∃ st : Nat → Rank, (∀ r, r < 3 → (s.thr r).prog = .ret (0, st r)) ∧
      peek (st 0).mem 100 8 = [2, 2, 2, 2, 0, 0, 0, 0] ∧ peek (st 0).mem 116 8 = [3, 3, 3, 3, 0, 0, 0, 0]) := by
  obtain ⟨B, hB⟩ := C46_collective_read exEnv exFS exBlock 4 1 3 exRanks 1 exRankRows (fun r => if r = 2 then 4 else 8)
    exRankOut 2 1 exCollectiveRead (by decide) (by
      have : ∀ i < 3, Stored exEnv.m exFS exBlock (1 + i) := by unfold Stored; decide
      exact this)
  refine ⟨B, fun es s hr => ⟨(hB es s hr).1, (hB es s hr).2.1, fun hs => ?_⟩⟩
  obtain ⟨st, hw, _⟩ := (hB es s hr).2.2 hs
  exact ⟨st, fun r hr => (hw r hr).1, (hw 0 (by decide)).2.elems 0 (by decide), (hw 0 (by decide)).2.elems 1 (by decide)⟩

-- integers convert whatever their bytes are
theorem exConvertsAny : ConvertsAny exEnv exBlock 4 3 exRanks exRankRows := by
  intro r hr h0 bs hl
  match r, hr, h0 with
  | 0, _, _ =>
    obtain ⟨o, ho, _⟩ := convElem_int exEnv.m exEnv.fo .i8 .i4 .little .little bs hl
    exact ⟨o, ho⟩
  | 1, _, h0 => exact absurd h0 (by decide)
  | 2, _, _ =>
    obtain ⟨o, ho, _⟩ := convElem_int exEnv.m exEnv.fo .i4 .i4 .big .little bs hl
    exact ⟨o, ho⟩

end Verif
