import Verif.Proof.IoSim
import Verif.Props.MpiTools
/-!
# C88: bigfile-iosim
-/

set_option autoImplicit false

namespace Verif

open Spec

variable {env : Env} {A : Content} {w : World} {n nm : Nat}

/-! ## Arrays -/

/-- The array of a process. -/
def simArr (m : Machine) (buf : Int) (rows nm : Nat) : Arr :=
  { dtype := dtypeNormalize m b!"i8", dims := [rows, nm], strides := defaultStrides 8 [rows, nm], size := rows * nm, data := buf }

theorem sim_norm (m : Machine) : dtypeNormalize m (dtypeNormalize m b!"i8") = dtypeNormalize m b!"i8" ∧ itemsize m b!"i8" = 8 ∧
    itemsize m (dtypeNormalize m b!"i8") = 8 ∧ PlainDtype (dtypeNormalize m b!"i8") := by
  obtain ⟨le, cs⟩ := m
  cases le <;> cases cs <;> exact ⟨by decide, by decide, by decide, ⟨by decide, by decide, by decide, by decide⟩⟩

theorem simArr_init (m : Machine) (buf : Int) (rows : Nat) (hb : rows * nm < 18446744073709551616) (hnm : nm < 2147483648)
    (hr : rows < 18446744073709551616) :
    arrayInit m buf b!"i8" [rows, u64 (nm : Int)] none = some (simArr m buf rows nm) := by
  rw [u64_of_nat (by omega)]
  unfold arrayInit simArr
  rw [(sim_norm m).2.1]
  have : dimsProd [rows, nm] = rows * nm := by
    unfold dimsProd
    simp only [List.foldl_cons, List.foldl_nil, Nat.one_mul]
    rw [u64_of_nat hr, u64_of_nat hb]
  rw [this]
  rfl

theorem simArr_addr (m : Machine) (buf : Int) (rows e : Nat) (he : e < rows * nm) : elemAddr (simArr m buf rows nm) e = buf + 8 * e := by
  rw [elemAddr_default (simArr m buf rows nm) 8 rfl (by simp [simArr, prodN]) e he]
  show buf + (e : Int) * 8 = _
  omega

theorem simArr_share (env : Env) (buf : Int) (rows : Nat) (hnm : 0 < nm) (hb : rows * nm * 8 < 9223372036854775808) :
    ShareOk env (simKind env.m nm) (simArr env.m buf rows nm) 8 := by
  have hd : rows * nm / nm = rows := Nat.mul_div_cancel _ hnm
  refine ⟨?_, ?_, by simp [simArr, defaultStrides], fun h => ?_⟩
  · show some rows = some (rows * nm / nm)
    rw [hd]
  · show rows * nm = rows * nm / nm * nm
    rw [hd]
  · change 0 < rows * nm / nm at h
    rw [hd] at h
    refine ⟨⟨by simp [simArr], by simp [simArr, defaultStrides], by simp [simArr], by simp [simArr, prodN], Nat.mul_pos h hnm⟩, ?_,
      (sim_norm env.m).1, (sim_norm env.m).2.2.1, by decide, ?_⟩
    · show rows * nm < _; omega
    · show rows * nm * 8 < _; omega

theorem simArr_disjoint (m : Machine) (buf : Int) (rows : Nat) : Disjoint (simArr m buf rows nm) 8 := by
  intro i j hi hj hij
  rw [simArr_addr m buf rows i hi, simArr_addr m buf rows j hj]
  omega

theorem flatN_same (v : List Byte) (k : Nat) : flatN (fun _ => v) k = (List.replicate k v).flatten := by
  induction k with
  | zero => rfl
  | succ k ih =>
    rw [List.replicate_succ', List.flatten_append]
    show flatN _ k ++ v = _
    rw [ih]
    simp

theorem flatN_congr' {g g' : Nat → List Byte} {k : Nat} (h : ∀ j, j < k → g j = g' j) : flatN g k = flatN g' k := by
  induction k with
  | zero => rfl
  | succ k ih =>
    show flatN g k ++ g k = flatN g' k ++ g' k
    rw [ih (fun j hj => h j (by omega)), h k (by omega)]

/-- A row of the data that were made. -/
theorem simFill_row (env : Env) (buf : Int) (start rows i : Nat) (mem : Mem) (hnm : 0 < nm) (hi : i < rows)
    (hs : start + rows < 18446744073709551616) :
    arrayRow env (simKind env.m nm) (simArr env.m buf rows nm) (simFill env.m buf start rows nm mem) 8 i = simRow env.m nm (start + i) := by
  unfold arrayRow rowOfElems simRow
  rw [← flatN_same]
  apply flatN_congr'
  intro j hj
  change j < nm at hj
  show ((toBlock env (simKind env.m nm) (simArr env.m buf rows nm) _ 8 (i * nm + j)).getD []) = _
  have he : i * nm + j < rows * nm := by
    calc i * nm + j < i * nm + nm := by omega
      _ = (i + 1) * nm := (Nat.succ_mul _ _).symm
      _ ≤ _ := Nat.mul_le_mul_right _ hi
  unfold toBlock
  rw [show (simKind env.m nm).dtype = (simArr env.m buf rows nm).dtype from rfl, convElem_same, simArr_addr env.m buf rows _ he,
    simFill_slot env.m buf start nm mem hnm rows _ he]
  have : (i * nm + j) / nm = i := by rw [Nat.mul_comm, Nat.mul_add_div hnm, Nat.div_eq_of_lt hj]; rfl
  rw [this, u64_of_nat (by omega)]
  rfl

/-- The data of all processes, one after the other, are the row numbers. -/
theorem sim_gathered (env : Env) (size : Nat) (arr : Nat → Arr) (mem : Nat → Mem) (buf : Nat → Int) (hnm : 0 < nm)
    (hn : size * n < 18446744073709551616) (hs : size < 9223372036854775808)
    (harr : ∀ r, r < n → arr r = simArr env.m (buf r) (simLocal size n r) nm) :
    ∀ k, k ≤ n → gathered env (simKind env.m nm) k arr
      (fun r => simFill env.m (buf r) (simStart size n r) (simLocal size n r) nm (mem r)) (fun _ => 8) =
      (List.range (rowsBefore (simLocal size n) k)).map (simRow env.m nm) := by
  intro k
  induction k with
  | zero => intro _; rfl
  | succ k ih =>
    intro hk
    unfold gathered at ih ⊢
    rw [List.range_succ, List.flatMap_append, ih (by omega), rowsBefore_succ, List.range_add, List.map_append]
    congr 1
    simp only [List.flatMap_cons, List.flatMap_nil, List.append_nil, List.map_map]
    have hrows : rowsOf (simKind env.m nm) arr k = simLocal size n k := by
      unfold rowsOf
      rw [harr k (by omega)]
      exact Nat.mul_div_cancel _ hnm
    rw [hrows, harr k (by omega)]
    apply List.map_congr_left
    intro i hi
    rw [List.mem_range] at hi
    have hle := simLocal_le hn (by omega) (r := k) (by omega)
    have hst := simStart_eq hn (r := k) (by omega) (by omega)
    rw [simFill_row env (buf k) (simStart size n k) (simLocal size n k) i (mem k) hnm hi (by omega), hst]
    rfl

theorem sim_rowsOf (env : Env) (size : Nat) (arr : Nat → Arr) (buf : Nat → Int) (hnm : 0 < nm)
    (harr : ∀ r, r < n → arr r = simArr env.m (buf r) (simLocal size n r) nm) {k : Nat} (hk : k ≤ n) :
    rowsBefore (rowsOf (simKind env.m nm) arr) k = rowsBefore (simLocal size n) k := by
  apply rowsBefore_congr
  intro r hr
  unfold rowsOf
  rw [harr r (by omega)]
  exact Nat.mul_div_cancel _ hnm

/-! ## Transfers -/

theorem simWriters_small (o : SimOpts) (hn : n < 2147483648) : simWriters n o < 2147483648 := by
  unfold simWriters
  split <;> omega

/-- The bounds that hold for all rows of a block hold for those of a process. -/
theorem sim_bytes {K : Kind} {b : Block} {fs : FS} (h : Holds env K b fs A) {k : Nat} (hk : k ≤ A.size) : k * (K.w * K.nm) < 9223372036854775808 := by
  have := h.ok.offs
  rw [← h.ok.layout.size, h.size] at this
  exact Nat.lt_of_le_of_lt (Nat.mul_le_mul_right _ hk) this

theorem sim_written {H : Nat → Block} (o : SimOpts) (file : CStr) (size row : Nat) (buf : Nat → Int) (mem : Nat → Mem) (mode : SimMode)
    (hmode : mode ≠ .read) (hfile : file ≠ []) (hlen : (mpiPath file b!"TestBlock").length ≤ 8192)
    (hmeta : isMeta (pathJoin file b!"TestBlock") = false) (h : HoldsAll env (simKind env.m nm) n H w.fs A) (hnf : w.faults = noFaults)
    (hb : (H 0).basename = mpiPath file b!"TestBlock") (hnm : nm < 2147483648) (hrow : row + size ≤ A.size) (hs : size < 2147483648) :
    (simTransfer env n mode o size nm row H buf mem).Ensures faultless w fun e w' => e = .done ∧
      OnDisk env (simKind env.m nm) w'.fs (pathJoin file b!"TestBlock") (A.numbered env.m nm row size).closed ∧
      SameOutside (pathJoin file b!"TestBlock") w.fs w'.fs ∧ w'.faults = noFaults ∧ (TreeOk w.fs → Later w.fs w'.fs) := by
  obtain ⟨hn0, hn1, bb, hh, _⟩ := id h
  have hnm0 : 0 < nm := hh.ok.memb0
  have hov : size * n < 18446744073709551616 := by
    calc size * n ≤ 2147483648 * 2147483648 := Nat.mul_le_mul (by omega) (by omega)
      _ < _ := by decide
  have hloc : ∀ r, r < n → simLocal size n r ≤ size := fun r hr => by
    have := simLocal_le hov hn0 hr
    omega
  have hbytes : ∀ r, r < n → simLocal size n r * nm * 8 < 9223372036854775808 := by
    intro r hr
    have := sim_bytes hh (k := simLocal size n r) (by have := hloc r hr; omega)
    change _ * (8 * nm) < _ at this
    rw [Nat.mul_assoc, Nat.mul_comm nm 8]
    exact this
  unfold simTransfer
  apply Phases.ensures_bind
  apply lift_all (a := fun r => simArr env.m (buf r) (simLocal size n r) nm)
    (fun r hr => simArr_init env.m (buf r) _ (by have := hbytes r hr; omega) hnm (by have := hloc r hr; omega))
  intro arr dom harr hlat
  have h1 : HoldsAll env (simKind env.m nm) n H (⟨w.fs.node, dom⟩ : FS) A := by
    obtain ⟨hn0, hn1, bb, hh, hr⟩ := h
    exact ⟨hn0, hn1, bb, hh.node rfl, hr⟩
  have hl : A.legalAll env (simKind env.m nm) n (.write row arr
      (fun r => simFill env.m (buf r) (simStart size n r) (simLocal size n r) nm (mem r)) (fun _ => 8) (simWriters n o) (simThreshold o)) := by
    refine ⟨?_, ?_, simWriters_small o hn1, fun r hr => ?_⟩
    · rw [sim_rowsOf env size arr buf hnm0 harr (Nat.le_refl n), simLocal_total hov hn0]
      exact hrow
    · rw [sim_rowsOf env size arr buf hnm0 harr (Nat.le_refl n), simLocal_total hov hn0]
      exact hs
    · rw [harr r hr]
      refine ⟨simArr_share env _ _ hnm0 (hbytes r hr), fun _ => simArr_disjoint _ _ _, fun e _ => ?_⟩
      unfold toBlock
      rw [show (simKind env.m nm).dtype = (simArr env.m (buf r) (simLocal size n r) nm).dtype from rfl, convElem_same]
      rfl
  have hnext : A.nextAll env (simKind env.m nm) n (.write row arr
      (fun r => simFill env.m (buf r) (simStart size n r) (simLocal size n r) nm (mem r)) (fun _ => 8) (simWriters n o) (simThreshold o)) =
      A.numbered env.m nm row size := by
    show { A with rows := _ } = { A with rows := _ }
    congr 1
    funext q
    rw [sim_rowsOf env size arr buf hnm0 harr (Nat.le_refl n), simLocal_total hov hn0,
      sim_gathered env size arr mem buf hnm0 hov (by omega) harr n (Nat.le_refl n), simLocal_total hov hn0]
    by_cases hq : row ≤ q ∧ q < row + size
    · rw [if_pos hq, if_pos hq]
      congr 1
      rw [List.getD_eq_getElem?_getD, List.getElem?_eq_getElem (by simp; omega)]
      simp
    · rw [if_neg hq, if_neg hq]
  have hstep := mop_step (w := ⟨⟨w.fs.node, dom⟩, w.faults, w.clock⟩) h1 hnf _ hl
  have main : (do
      let out ← Phases.together n fun r => xferP env true n (simWriters n o) (simThreshold o) r row (H r) (arr r)
        (simFill env.m (buf r) (simStart size n r) (simLocal size n r) nm (mem r))
      let _ ← Phases.alone (mpiClose env n fun r => (out r).2.bb)
      pure .done : Phases Exit).Ensures faultless ⟨⟨w.fs.node, dom⟩, w.faults, w.clock⟩ fun e w' => e = .done ∧
      OnDisk env (simKind env.m nm) w'.fs (pathJoin file b!"TestBlock") (A.numbered env.m nm row size).closed ∧
      SameOutside (pathJoin file b!"TestBlock") w.fs w'.fs ∧ w'.faults = noFaults ∧ (TreeOk w.fs → Later w.fs w'.fs) := by
    apply Phases.ensures_bind
    refine Phases.ensures_mono hstep ?_
    intro out w2 d
    have h2 := d.holds
    rw [hnext] at h2
    obtain ⟨w3, e3, f3, d3, o3, l3⟩ := C71_closed env (simKind env.m nm) _ file b!"TestBlock" n _ w2 hfile hlen hmeta (d.faults.trans hnf) h2
      (d.base.trans hb)
    apply Phases.ensures_bind
    apply Phases.ensures_alone e3
    have o2 := d.out
    rw [hb] at o2
    refine Phases.ensures_pure ⟨rfl, d3, fun k hk => ?_, f3, fun ht => ?_⟩
    · exact ((o2.renamed (resolve_mpiPath file b!"TestBlock" hfile)).trans o3) k hk
    · have l0 := hlat ht
      have l2 := d.tree l0.1
      exact (l0.trans l2).trans (l3 l2.1)
  cases mode with
  | read => exact absurd rfl hmode
  | create => exact main
  | update => exact main
  | grow => exact main

/-- A row is the row of a number if all its elements are that number. -/
theorem simRow_iff (m : Machine) (q : Nat) (bytes : List Byte) : ∀ nm : Nat, bytes.length = nm * 8 →
    ((∀ j, j < nm → (bytes.drop (j * 8)).take 8 = natEnc m 8 q) ↔ bytes = simRow m nm q) := by
  intro nm
  induction nm generalizing bytes with
  | zero =>
    intro hl
    have : bytes = [] := List.length_eq_zero_iff.mp (by omega)
    subst this
    exact ⟨fun _ => rfl, fun _ j hj => absurd hj (by omega)⟩
  | succ k ih =>
    intro hl
    have hrow : simRow m (k + 1) q = natEnc m 8 q ++ simRow m k q := by
      unfold simRow
      rw [List.replicate_succ]
      rfl
    have hlen := natEnc_length m 8 q
    rw [hrow]
    have h2 := ih (bytes.drop 8) (by simp; omega)
    have hshift : ∀ j, ((bytes.drop 8).drop (j * 8)).take 8 = (bytes.drop ((j + 1) * 8)).take 8 := by
      intro j
      rw [List.drop_drop, show 8 + j * 8 = (j + 1) * 8 by omega]
    constructor
    · intro h
      have h0 := h 0 (by omega)
      have h3 := h2.mp (fun j hj => by rw [hshift]; exact h (j + 1) (by omega))
      rw [← h3, ← h0]
      exact (List.take_append_drop 8 bytes).symm
    · intro h j hj
      cases j with
      | zero => rw [h]; simp [hlen]
      | succ j =>
        rw [← hshift]
        refine h2.mpr ?_ j (by omega)
        rw [h]
        simp [hlen]

/-- Reading. -/
theorem sim_checked {H : Nat → Block} (o : SimOpts) (buf : Nat → Int) (mem : Nat → Mem)
    (h : HoldsAll env (simKind env.m nm) n H w.fs A) (hclean : ∀ r, r < n → (H r).dirty = false) (hattr : (H 0).attrset.dirty = false)
    (hnf : w.faults = noFaults) (hnm : nm < 2147483648) (hs : A.size < 2147483648) (hfull : A.full) :
    (simTransfer env n .read o A.size nm 0 H buf mem).Ensures faultless w fun e w' => w'.fs.node = w.fs.node ∧ w'.faults = noFaults ∧
      (TreeOk w.fs → TreeOk w'.fs) ∧
      e = if (∀ q, q < A.size → A.rows q = some (simRow env.m nm q)) then .done else .aborted := by
  obtain ⟨hn0, hn1, bb, hh, _⟩ := id h
  have hnm0 : 0 < nm := hh.ok.memb0
  have hov : A.size * n < 18446744073709551616 := by
    calc A.size * n ≤ 2147483648 * 2147483648 := Nat.mul_le_mul (by omega) (by omega)
      _ < _ := by decide
  have hloc : ∀ r, r < n → rowsBefore (simLocal A.size n) r + simLocal A.size n r ≤ A.size := fun r hr => simLocal_le hov hn0 hr
  have hbytes : ∀ r, r < n → simLocal A.size n r * nm * 8 < 9223372036854775808 := by
    intro r hr
    have := sim_bytes hh (k := simLocal A.size n r) (by have := hloc r hr; omega)
    change _ * (8 * nm) < _ at this
    rw [Nat.mul_assoc, Nat.mul_comm nm 8]
    exact this
  unfold simTransfer
  apply Phases.ensures_bind
  apply lift_all (a := fun r => simArr env.m (buf r) (simLocal A.size n r) nm)
    (fun r hr => simArr_init env.m (buf r) _ (by have := hbytes r hr; omega) hnm (by have := hloc r hr; omega))
  intro arr dom harr hlat
  have h1 : HoldsAll env (simKind env.m nm) n H (⟨w.fs.node, dom⟩ : FS) A := by
    obtain ⟨hn0, hn1, bb, hh, hr⟩ := h
    exact ⟨hn0, hn1, bb, hh.node rfl, hr⟩
  have hbefore : ∀ {k}, k ≤ n → rowsBefore (rowsOf (simKind env.m nm) arr) k = rowsBefore (simLocal A.size n) k :=
    fun hk => sim_rowsOf env A.size arr buf hnm0 harr hk
  have hrows : ∀ r, r < n → rowsOf (simKind env.m nm) arr r = simLocal A.size n r := by
    intro r hr
    unfold rowsOf
    rw [harr r hr]
    exact Nat.mul_div_cancel _ hnm0
  have hconv : ∀ r, r < n → ∀ bytes j, fromBlock env (simKind env.m nm) (arr r) bytes j = some ((bytes.drop (j * 8)).take 8) := by
    intro r hr bytes j
    unfold fromBlock
    rw [harr r hr]
    exact convElem_same _ _ _ _
  have hl : A.legalAll env (simKind env.m nm) n (.read 0 arr mem (fun _ => 8) (simWriters n o) (simThreshold o)) := by
    refine ⟨?_, ?_, simWriters_small o hn1, fun r hr => ⟨?_, ?_, fun _ => ?_, fun i hi => ?_⟩⟩
    · rw [hbefore (Nat.le_refl n), simLocal_total hov hn0]; omega
    · rw [hbefore (Nat.le_refl n), simLocal_total hov hn0]; exact hs
    · rw [harr r hr]; exact simArr_share env _ _ hnm0 (hbytes r hr)
    · rw [harr r hr]; exact simArr_disjoint _ _ _
    · rw [harr r hr]; exact convertible_same _ _ _
    · rw [hrows r hr] at hi
      rw [hbefore (Nat.le_of_lt hr)]
      obtain ⟨bytes, hb⟩ := Option.isSome_iff_exists.mp (hfull (0 + rowsBefore (simLocal A.size n) r + i) (by have := hloc r hr; omega))
      exact ⟨bytes, hb, fun j _ => by rw [hconv r hr]; rfl⟩
  apply Phases.ensures_bind
  have hread : (Phases.together n fun r => xferP env false n (simWriters n o) (simThreshold o) r ((0 : Nat) : Int) (H r) (arr r) (mem r)).Ensures
      faultless ⟨⟨w.fs.node, dom⟩, w.faults, w.clock⟩ fun out w' =>
        MDone env (simKind env.m nm) n H ⟨⟨w.fs.node, dom⟩, w.faults, w.clock⟩ A
          (.read 0 arr mem (fun _ => 8) (simWriters n o) (simThreshold o))
          (fun r => ⟨(out r).1, (out r).2.mem, none⟩, fun r => (out r).2.bb) w' ∧ w'.fs.node = w.fs.node ∧ ∀ r, r < n → (out r).2.bb = H r :=
    read_all_keeps (w := ⟨⟨w.fs.node, dom⟩, w.faults, w.clock⟩) h1 (simWriters n o) (simThreshold o) hl
  refine Phases.ensures_mono hread ?_
  rintro out w2 ⟨d, hnode, hkeep⟩
  have hchk : ((List.range n).all fun r => simRight env.m (buf r) (simStart A.size n r) (simLocal A.size n r) (nm : Int) (out r).2.mem) = true ↔
      ∀ q, q < A.size → A.rows q = some (simRow env.m nm q) := by
    rw [List.all_eq_true]
    have key : ∀ r, r < n → ∀ i, i < simLocal A.size n r → ((∀ j, j < nm →
        peek (out r).2.mem (buf r + 8 * ((i * nm + j : Nat) : Int)) 8 = natEnc env.m 8 (rowsBefore (simLocal A.size n) r + i)) ↔
        A.rows (rowsBefore (simLocal A.size n) r + i) = some (simRow env.m nm (rowsBefore (simLocal A.size n) r + i))) := by
      intro r hr i hi
      obtain ⟨_, hans, _⟩ := d.ans r hr
      obtain ⟨bytes, hb⟩ := Option.isSome_iff_exists.mp (hfull (rowsBefore (simLocal A.size n) r + i) (by have := hloc r hr; omega))
      have hlen : bytes.length = nm * 8 := by
        obtain ⟨_, e1, e2⟩ := hh.rows _ _ hb
        rw [← e1, e2, hh.rowSize]
        rfl
      have hel : ∀ j, j < nm → peek (out r).2.mem (buf r + 8 * ((i * nm + j : Nat) : Int)) 8 = (bytes.drop (j * 8)).take 8 := by
        intro j hj
        have he : i * nm + j < simLocal A.size n r * nm := by
          calc i * nm + j < i * nm + nm := by omega
            _ = (i + 1) * nm := (Nat.succ_mul _ _).symm
            _ ≤ _ := Nat.mul_le_mul_right _ hi
        obtain ⟨bytes', hb', hv⟩ := hans i (by rw [hrows r hr]; exact hi) j hj
        rw [hbefore (Nat.le_of_lt hr), Nat.zero_add, hb] at hb'
        cases hb'
        rw [hconv r hr, harr r hr] at hv
        have := Option.some.inj hv
        rw [this]
        show _ = peek _ (elemAddr (simArr env.m (buf r) (simLocal A.size n r) nm) (i * nm + j)) 8
        rw [simArr_addr _ _ _ _ he]
      rw [hb, Option.some_inj, ← simRow_iff env.m _ bytes nm hlen]
      constructor
      · intro g j hj
        rw [← hel j hj]
        exact g j hj
      · intro g j hj
        rw [hel j hj]
        exact g j hj
    constructor
    · intro hall q hq
      rw [← simLocal_total hov hn0] at hq
      obtain ⟨r, hr, i, hi, rfl⟩ := rowsBefore_split (simLocal A.size n) hq
      have := hall r (List.mem_range.mpr hr)
      have hst := simStart_eq hov hr (by omega)
      rw [simRight_iff _ _ _ _ _ _ (by rw [hst]; have := hloc r hr; omega), hst] at this
      exact (key r hr i hi).mp (this i hi)
    · intro hall r hr
      rw [List.mem_range] at hr
      by_cases h0 : 0 < simLocal A.size n r
      · have hst := simStart_eq hov hr h0
        rw [simRight_iff _ _ _ _ _ _ (by rw [hst]; have := hloc r hr; omega), hst]
        intro i hi
        exact (key r hr i hi).mpr (hall _ (by have := hloc r hr; omega))
      · rw [show simLocal A.size n r = 0 by omega]
        rfl
  by_cases hg : ∀ q, q < A.size → A.rows q = some (simRow env.m nm q)
  · rw [if_pos (hchk.mpr hg), if_pos hg]
    apply Phases.ensures_bind
    apply Phases.ensures_alone (mpiClose_clean (fun r hr => by rw [hkeep r hr]; exact hclean r hr) (by rw [hkeep 0 hn0]; exact hattr))
    exact Phases.ensures_pure ⟨hnode, d.faults.trans hnf, fun ht => (d.tree (hlat ht).1).1, rfl⟩
  · rw [if_neg (fun hc => hg (hchk.mp hc)), if_neg hg]
    exact Phases.ensures_pure ⟨hnode, d.faults.trans hnf, fun ht => (d.tree (hlat ht).1).1, rfl⟩

/-! ## Opening -/

/-- All processes open the block. -/
theorem sim_opens {α : Type} {K : Kind} (file : CStr) (G : (Nat → Block) → Phases (Option α)) {Q : Option α → World → Prop} (hfile : file ≠ [])
    (hfl : file.length ≤ 8192) (hz : (0 : Byte) ∉ mpiPath file b!"TestBlock") (hlen : (mpiPath file b!"TestBlock").length ≤ 8192)
    (hn : 0 < n ∧ n < 2147483648) (hnf : w.faults = noFaults) (ht : TreeOk w.fs) (h : OnDisk env K w.fs (pathJoin file b!"TestBlock") A)
    (hG : ∀ H w1, HoldsAll env K n H w1.fs A → (∀ r, r < n → (H r).dirty = false) → (H 0).attrset.dirty = false →
      (H 0).basename = mpiPath file b!"TestBlock" → (H 0).size = A.size → (H 0).nmemb = K.nm → w1.fs.node = w.fs.node → w1.faults = noFaults →
      TreeOk w1.fs → (G H).Ensures faultless w1 Q) :
    (do
      let bf ← mpiFileOpen n file
      together0 n (fun r => (bf r).1) (do
        match ← Phases.alone (mpiOpenBlock env (bf 0).2 b!"TestBlock") with
        | (0, some H) => G H
        | _ => .ub) (pure none) : Phases (Option α)).Ensures faultless w Q := by
  have hdir : w.fs.node (resolve (pathJoin file b!"TestBlock")) = some .dir := by
    obtain ⟨_, _, b, hb, _, h⟩ := h
    rw [← hb]
    exact h.dir.dir
  have hfdir : w.fs.node (resolve file) = some .dir := by
    rw [resolve_join file b!"TestBlock" hfile] at hdir
    exact ht.prefix_dir _ _ (by rw [hdir]; rfl) (by decide)
  apply Phases.ensures_bind
  refine Phases.ensures_mono (fileOpen_all n file w hn.1 hnf ht hfile hfl (by rw [hfdir]; rfl)) ?_
  rintro bf w1 ⟨o1, o2, nf1, t1⟩
  apply together0_good (fun r hr => by rw [o1 r hr])
  rw [o1 0 hn.1]
  have src1 : OnDisk env K w1.fs (mpiPath file b!"TestBlock") A :=
    (h.congr (by rw [o2]) (fun id => by rw [o2])).renamed (resolve_mpiPath file _ hfile) hlen (isMeta_mpiPath file _)
  obtain ⟨b, w2, e2, f2, nf2, b2, hd2, hs2⟩ := src1.opens nf1
  have hzb : (0 : Byte) ∉ b.basename := by rw [b2]; exact hz
  have e2' : mpiOpenBlock env file b!"TestBlock" w1 = .ok (0, some (mpiBroadcast env b)) w2 := by
    unfold mpiOpenBlock mpiOpen
    simp only [bind, M.bind]
    rw [e2]
    rfl
  apply Phases.ensures_bind
  apply Phases.ensures_alone e2'
  rw [← f2] at hs2
  refine hG _ _ ⟨hn.1, hn.2, b, hs2, hzb, fun hd => ⟨0, hn.1, hd⟩, fun r _ => mate_broadcast hs2.ok.layout hzb (by rw [b2]; exact hlen)
    hs2.savable.attrs r⟩ (fun r _ => (broadcast_lists hs2 hzb r).2.trans hd2) (hs2.pending.trans h.1) b2 hs2.size hs2.ok.memb ?_ nf2 ?_
  · rw [f2, o2]
  · rw [f2]; exact t1

/-- A block that was closed, and whose rows then are numbered, is closed. -/
theorem numbered_closed {m : Machine} {row size : Nat} (h1 : A.pending = false) (h2 : A.saved = A.attrs) :
    (A.numbered m nm row size).closed = A.numbered m nm row size := by
  unfold Content.closed Content.numbered
  dsimp only
  rw [if_neg (by rw [h1]; decide), h2]

theorem simFiles_count (o : SimOpts) (hw : 0 ≤ o.nwriter) : simFiles n o = simFileCount n o := by
  unfold simFiles simWriters simFileCount
  split
  · split <;> split <;> omega
  · rfl

theorem simFiles_pos (o : SimOpts) (hn : 0 < n) (hw : 0 ≤ o.nwriter) : 0 < simFiles n o := by
  unfold simFiles simWriters
  split
  · split <;> omega
  · omega

/-! ## The properties -/

/-- **C88, `create`.** If nothing fails, `bigfile-iosim create` on any number of processes, with any number of writers and files,
aggregated or not, ends; whatever the interleaving, the file then has the block `TestBlock` with as many rows as asked for, each of which
holds its own number in every member. Nothing else has changed but that the directories on the way to the block are there. -/
theorem C88_create (env : Env) (o : SimOpts) (file : CStr) (buf : Nat → Int) (mem : Nat → Mem) (n nm : Nat) (w : World)
    (hnf : w.faults = noFaults) (ht : TreeOk w.fs) (hfmt : FmtOk env) (hn : 0 < n ∧ n < 2147483648) (hfile : file ≠ []) (hfl : file.length ≤ 8192)
    (hz : (0 : Byte) ∉ mpiPath file b!"TestBlock") (hlen : (mpiPath file b!"TestBlock").length ≤ 8192)
    (hmeta : isMeta (pathJoin file b!"TestBlock") = false) (hblank : hasBlank (pathJoin file b!"TestBlock") = false)
    (hroom : Room w.fs (pathJoin file b!"TestBlock")) (hnm : o.nmemb = nm) (hnm0 : 0 < nm) (hrow : 8 * nm < 2147483648)
    (hbuf : 8 * nm ≤ env.chunkBytes) (hbufm : env.chunkBytes < 18446744073709551616) (hw : 0 ≤ o.nwriter) (hfiles : o.nfile ≤ 16777216)
    (hwf : simWriters n o ≤ 16777216) (hs : o.size < 2147483648) :
    (ioSim env n .create o file buf mem).Ensures faultless w fun e w' => e = .done ∧
      OnDisk env (simKind env.m nm) w'.fs (pathJoin file b!"TestBlock")
        ((Content.fresh (evenSplit o.size (simFileCount n o))).numbered env.m nm 0 o.size) ∧
      (Content.fresh (evenSplit o.size (simFileCount n o))).size = o.size ∧ w'.faults = noFaults ∧ TreeOk w'.fs ∧
      ∀ k, w'.fs.node k ≠ w.fs.node k → (∃ id, k = fileKey (pathJoin file b!"TestBlock") id) ∨
        (k <+: resolve (pathJoin file b!"TestBlock") ∧ w.fs.node k = none ∧ w'.fs.node k = some .dir) := by
  rw [← simFiles_count o hw]
  have hfpos : 0 < simFiles n o := simFiles_pos o hn.1 hw
  have hfmax : simFiles n o ≤ 16777216 := by
    unfold simFiles
    split <;> omega
  have hsum : (evenSplit o.size (simFiles n o)).sum = o.size := evenSplit_sum _ _ (by
    calc o.size * simFiles n o ≤ 2147483648 * 16777216 := Nat.mul_le_mul (by omega) hfmax
      _ < _ := by decide) (Or.inl hfpos)
  have hlenS := evenSplit_length o.size (simFiles n o)
  have hres := resolve_join file b!"TestBlock" hfile
  have hpre : ∀ k, k <+: resolve file → k <+: resolve (pathJoin file b!"TestBlock") := by
    intro k hk
    rw [hres]
    exact hk.trans (List.prefix_append _ _)
  have hkeynot : ∀ id, ¬ fileKey (pathJoin file b!"TestBlock") id <+: resolve (pathJoin file b!"TestBlock") := by
    intro id hc
    have := hc.length_le
    rw [fileKey_eq] at this
    simp at this
    omega
  unfold ioSim simOpen
  apply Phases.ensures_bind
  apply Phases.ensures_bind
  refine Phases.ensures_mono (C73_create n file w hn.1 hnf ht hfile hfl (fun k hk => hroom.way k (hpre k hk))) ?_
  rintro bf w1 ⟨p1, nf1, t1, d1, c1⟩
  apply together0_good (fun r hr => by rw [p1 r hr])
  rw [p1 0 hn.1]
  have room1 : Room w1.fs (pathJoin file b!"TestBlock") := by
    have same : ∀ id, w1.fs.node (fileKey (pathJoin file b!"TestBlock") id) = w.fs.node (fileKey (pathJoin file b!"TestBlock") id) := by
      intro id
      by_cases he : w1.fs.node (fileKey (pathJoin file b!"TestBlock") id) = w.fs.node (fileKey (pathJoin file b!"TestBlock") id)
      · exact he
      · exact absurd (hpre _ (c1 _ he).1) (hkeynot id)
    refine ⟨?_, ?_, ?_⟩
    · intro k hk hf
      by_cases he : w1.fs.node k = w.fs.node k
      · apply hroom.way k hk
        unfold IsFile at hf ⊢
        rw [← he]
        exact hf
      · obtain ⟨d, hd⟩ := hf
        rw [(c1 k he).2.2] at hd
        cases hd
    · intro id
      rw [same]
      exact hroom.files id
    · rw [same]
      exact hroom.noOld
  apply Phases.ensures_bind
  refine Phases.ensures_mono (C71_created env file b!"TestBlock" b!"i8" o.nmemb (evenSplit o.size (simFiles n o)) n 8 nm w1 hfile hz hlen hmeta
    hblank hn nf1 t1 d1 room1 hfmt (sim_norm env.m).2.2.2 (sim_norm env.m).2.1 (by decide) hnm hnm0 hrow hbuf hbufm (by omega) (by omega) (by
      rw [hsum]
      calc o.size * (8 * nm) ≤ 2147483648 * 2147483648 := Nat.mul_le_mul (by omega) (by omega)
        _ < _ := by decide)) ?_
  rintro ⟨c, oH⟩ w2 ⟨H, rfl, q1, h2, f2, b2, ⟨t2, l2⟩, c2⟩
  dsimp only at q1 ⊢
  apply together0_good q1
  apply Phases.ensures_pure
  dsimp only
  rw [hnm]
  refine Phases.ensures_mono (sim_written o file o.size 0 buf mem .create (by decide) hfile hlen hmeta h2 f2 b2 (by omega)
    (by show 0 + o.size ≤ (evenSplit _ _).sum; omega) hs) ?_
  rintro e w3 ⟨rfl, d3, o3, f3, l3⟩
  rw [numbered_closed rfl rfl] at d3
  refine ⟨rfl, d3, hsum, f3, (l3 t2).1, fun k hk => ?_⟩
  by_cases h8 : ∃ id, k = fileKey (pathJoin file b!"TestBlock") id
  · exact Or.inl h8
  · right
    have h9 : w3.fs.node k = w2.fs.node k := o3 k (fun id he => h8 ⟨id, he⟩)
    rw [h9] at hk ⊢
    have hp : k <+: resolve (pathJoin file b!"TestBlock") := by
      by_cases h10 : w2.fs.node k = w1.fs.node k
      · rw [h10] at hk
        exact hpre k (c1 k hk).1
      · rcases c2 k h10 with h11 | h11
        · exact absurd h11 h8
        · exact h11
    have hdst : w2.fs.node (resolve (pathJoin file b!"TestBlock")) = some .dir := by
      obtain ⟨_, _, bb, hh, _, _, hm⟩ := h2
      have := hh.dir.dir
      rw [← (hm 0 hn.1).shape.base, b2, resolve_mpiPath file _ hfile] at this
      exact this
    have hd : w2.fs.node k = some .dir := by
      by_cases h10 : k = resolve (pathJoin file b!"TestBlock")
      · rw [h10]; exact hdst
      · exact prefix_dir_of t2 (by rw [hdst]; rfl) hp h10
    refine ⟨hp, ?_, hd⟩
    rw [hd] at hk
    cases h10 : w.fs.node k with
    | none => rfl
    | some nd =>
      cases nd with
      | dir => exact absurd h10.symm hk
      | file d => exact absurd ⟨d, h10⟩ (hroom.way k hp)

/-- **C88, `update`.** If nothing fails, `bigfile-iosim update` on any number of processes ends, whatever the interleaving; every row of the
block then holds its own number in every member, and nothing else has changed: neither its attributes nor anything outside it. -/
theorem C88_update (env : Env) (A : Content) (o : SimOpts) (file : CStr) (buf : Nat → Int) (mem : Nat → Mem) (n nm : Nat) (w : World)
    (hnf : w.faults = noFaults) (ht : TreeOk w.fs) (hn : 0 < n ∧ n < 2147483648) (hfile : file ≠ []) (hfl : file.length ≤ 8192)
    (hz : (0 : Byte) ∉ mpiPath file b!"TestBlock") (hlen : (mpiPath file b!"TestBlock").length ≤ 8192)
    (hmeta : isMeta (pathJoin file b!"TestBlock") = false) (h : OnDisk env (simKind env.m nm) w.fs (pathJoin file b!"TestBlock") A)
    (hs : A.size < 2147483648) :
    (ioSim env n .update o file buf mem).Ensures faultless w fun e w' => e = .done ∧
      OnDisk env (simKind env.m nm) w'.fs (pathJoin file b!"TestBlock") (A.numbered env.m nm 0 A.size) ∧
      SameOutside (pathJoin file b!"TestBlock") w.fs w'.fs ∧ w'.faults = noFaults ∧ TreeOk w'.fs := by
  unfold ioSim
  apply Phases.ensures_bind
  refine sim_opens (K := simKind env.m nm) file _ hfile hfl hz hlen hn hnf ht h ?_
  intro H w1 h1 _ _ b1 s1 m1 n1 f1 t1
  apply Phases.ensures_pure
  dsimp only
  rw [s1, m1]
  obtain ⟨_, _, bb, hh, _⟩ := id h1
  have hnm : nm < 2147483648 := by have := hh.ok.felInt; change 8 * nm < _ at this; omega
  refine Phases.ensures_mono (sim_written o file A.size 0 buf mem .update (by decide) hfile hlen hmeta h1 f1 b1 hnm (by omega) hs) ?_
  rintro e w2 ⟨rfl, d2, o2, f2, l2⟩
  rw [numbered_closed h.1 h.2.1] at d2
  exact ⟨rfl, d2, fun k hk => by rw [o2 k hk, n1], f2, (l2 t1).1⟩

/-- **C88, `read`.** If nothing fails, `bigfile-iosim read` on any number of processes ends normally if every row of the block holds its own number
in every member, and aborts otherwise, whatever the interleaving; it changes nothing. -/
theorem C88_read (env : Env) (A : Content) (o : SimOpts) (file : CStr) (buf : Nat → Int) (mem : Nat → Mem) (n nm : Nat) (w : World)
    (hnf : w.faults = noFaults) (ht : TreeOk w.fs) (hn : 0 < n ∧ n < 2147483648) (hfile : file ≠ []) (hfl : file.length ≤ 8192)
    (hz : (0 : Byte) ∉ mpiPath file b!"TestBlock") (hlen : (mpiPath file b!"TestBlock").length ≤ 8192)
    (h : OnDisk env (simKind env.m nm) w.fs (pathJoin file b!"TestBlock") A) (hfull : A.full) (hs : A.size < 2147483648) :
    (ioSim env n .read o file buf mem).Ensures faultless w fun e w' => w'.fs.node = w.fs.node ∧ w'.faults = noFaults ∧ TreeOk w'.fs ∧
      e = if (∀ q, q < A.size → A.rows q = some (simRow env.m nm q)) then .done else .aborted := by
  unfold ioSim
  apply Phases.ensures_bind
  refine sim_opens (K := simKind env.m nm) file _ hfile hfl hz hlen hn hnf ht h ?_
  intro H w1 h1 c1 a1 b1 s1 m1 n1 f1 t1
  apply Phases.ensures_pure
  dsimp only
  rw [s1, m1]
  obtain ⟨_, _, bb, hh, _⟩ := id h1
  have hnm : nm < 2147483648 := by have := hh.ok.felInt; change 8 * nm < _ at this; omega
  refine Phases.ensures_mono (sim_checked o buf mem h1 c1 a1 f1 hnm hs hfull) ?_
  rintro e w2 ⟨g1, g3, g4, g2⟩
  exact ⟨g1.trans n1, g3, g4 t1, g2⟩

/-- **C88, `grow`.** If nothing fails, `bigfile-iosim grow` on any number of processes ends, whatever the interleaving; the block then has as many
more rows as asked for, numbered from 0, and the old rows, the attributes and everything else are as before. -/
theorem C88_grow (env : Env) (A : Content) (o : SimOpts) (file : CStr) (buf : Nat → Int) (mem : Nat → Mem) (n nm : Nat) (w : World)
    (hnf : w.faults = noFaults) (ht : TreeOk w.fs) (hn : 0 < n ∧ n < 2147483648) (hfile : file ≠ []) (hfl : file.length ≤ 8192)
    (hz : (0 : Byte) ∉ mpiPath file b!"TestBlock") (hlen : (mpiPath file b!"TestBlock").length ≤ 8192)
    (hmeta : isMeta (pathJoin file b!"TestBlock") = false) (h : OnDisk env (simKind env.m nm) w.fs (pathJoin file b!"TestBlock") A)
    (hw : 0 ≤ o.nwriter) (hfiles : A.nfile + simFileCount n o ≤ 16777216) (hs : o.size < 2147483648)
    (hbytes : (A.size + o.size) * (8 * nm) < 9223372036854775808) :
    (ioSim env n .grow o file buf mem).Ensures faultless w fun e w' => e = .done ∧
      OnDisk env (simKind env.m nm) w'.fs (pathJoin file b!"TestBlock")
        ({ A with size := A.size + o.size, nfile := A.nfile + simFileCount n o }.numbered env.m nm A.size o.size) ∧
      SameOutside (pathJoin file b!"TestBlock") w.fs w'.fs ∧ w'.faults = noFaults ∧ TreeOk w'.fs := by
  rw [← simFiles_count o hw] at hfiles ⊢
  have hfpos : 0 < simFiles n o := simFiles_pos o hn.1 hw
  have hsum : (evenSplit o.size (simFiles n o)).sum = o.size := evenSplit_sum _ _ (by
    calc o.size * simFiles n o ≤ 2147483648 * 16777216 := Nat.mul_le_mul (by omega) (by omega)
      _ < _ := by decide) (Or.inl hfpos)
  have hlenS := evenSplit_length o.size (simFiles n o)
  unfold ioSim
  apply Phases.ensures_bind
  refine sim_opens (K := simKind env.m nm) file _ hfile hfl hz hlen hn hnf ht h ?_
  intro H w1 h1 _ _ b1 s1 m1 n1 f1 t1
  obtain ⟨_, _, bb, hh, _⟩ := id h1
  have hnm : nm < 2147483648 := by have := hh.ok.felInt; change 8 * nm < _ at this; omega
  have hnm0 : 0 < nm := hh.ok.memb0
  have hl : A.legalAll env (simKind env.m nm) n (.grow (evenSplit o.size (simFiles n o))) := by
    refine ⟨?_, ?_, ?_⟩
    · rw [hsum]
      exact Nat.lt_of_le_of_lt (Nat.le_mul_of_pos_right _ (by omega)) hbytes
    · rw [hsum]; exact hbytes
    · rw [hlenS]; exact hfiles
  have hgrow : (mpiGrow env n H (evenSplit o.size (simFiles n o))).Ensures faultless w1 fun x w' =>
      MDone env (simKind env.m nm) n H w1 A (.grow (evenSplit o.size (simFiles n o))) (fun r => ⟨x.1 r, env.junk, none⟩, x.2) w' :=
    mop_step h1 f1 _ hl
  apply Phases.ensures_bind
  refine Phases.ensures_mono hgrow ?_
  rintro ⟨c, H'⟩ w2 d
  dsimp only
  apply together0_good (fun r hr => d.ans r hr)
  apply Phases.ensures_pure
  dsimp only
  have h2 : HoldsAll env (simKind env.m nm) n H' w2.fs { A with size := A.size + o.size, nfile := A.nfile + simFiles n o } := by
    have := d.holds
    rw [show A.nextAll env (simKind env.m nm) n (.grow (evenSplit o.size (simFiles n o))) =
      { A with size := A.size + (evenSplit o.size (simFiles n o)).sum, nfile := A.nfile + (evenSplit o.size (simFiles n o)).length } from rfl,
      hsum, hlenS] at this
    exact this
  have m2 : (H' 0).nmemb = nm := by
    obtain ⟨_, _, b2, hh2, _, _, hm⟩ := h2
    rw [(hm 0 hn.1).shape.nmemb]
    exact hh2.ok.memb
  rw [s1, m2]
  refine Phases.ensures_mono (sim_written o file o.size A.size buf mem .grow (by decide) hfile hlen hmeta h2 (d.faults.trans f1)
    (d.base.trans b1) hnm (Nat.le_refl _) hs) ?_
  rintro e w3 ⟨rfl, d3, o3, f3, l3⟩
  rw [numbered_closed (A := { A with size := A.size + o.size, nfile := A.nfile + simFiles n o }) h.1 h.2.1] at d3
  refine ⟨rfl, d3, fun k hk => ?_, f3, (l3 (d.tree t1).1).1⟩
  have o2 := d.out
  rw [b1] at o2
  rw [o3 k hk, (o2.renamed (resolve_mpiPath file b!"TestBlock" hfile)) k hk, n1]

theorem afterSim_full {m : Machine} (s : SimRun) (h : A.full) : (A.afterSim m nm s).full := by
  unfold Content.afterSim Content.full
  intro q hq
  split at hq
  · show (if 0 ≤ q ∧ q < 0 + A.size then some (simRow m nm (q - 0)) else A.rows q).isSome = true
    change q < A.size at hq
    rw [if_pos (by omega)]
    rfl
  · show (if A.size ≤ q ∧ q < A.size + s.opts.size then some (simRow m nm (q - A.size)) else A.rows q).isSome = true
    change q < A.size + s.opts.size at hq
    split
    · rfl
    · exact h q (by omega)
  · exact h q hq

/-- **C88, histories.** Any legal runs of `update`, `read` and `grow` on an existing block, each on its own number of processes, end as the
specification says, and the block then holds what it says; nothing outside the block has changed. -/
theorem C88_history (env : Env) (file : CStr) (nm : Nat) (hfile : file ≠ []) (hfl : file.length ≤ 8192)
    (hz : (0 : Byte) ∉ mpiPath file b!"TestBlock") (hlen : (mpiPath file b!"TestBlock").length ≤ 8192)
    (hmeta : isMeta (pathJoin file b!"TestBlock") = false) (runs : List SimRun) :
    ∀ (A : Content) (w : World), w.faults = noFaults → TreeOk w.fs → OnDisk env (simKind env.m nm) w.fs (pathJoin file b!"TestBlock") A →
      A.full → A.size < 2147483648 → A.simsLegal env.m nm runs →
      (runSims env file runs).Ensures faultless w fun es w' => es = A.simExits env.m nm runs ∧
        OnDisk env (simKind env.m nm) w'.fs (pathJoin file b!"TestBlock") (A.afterSims env.m nm runs) ∧
        SameOutside (pathJoin file b!"TestBlock") w.fs w'.fs := by
  induction runs with
  | nil =>
    intro A w _ _ h _ _ _
    exact Phases.ensures_pure ⟨rfl, h, fun _ _ => rfl⟩
  | cons s ss ih =>
    intro A w hnf ht h hfull hs ⟨⟨hn0, hn1, hcre, hgr⟩, hrest⟩
    have step : (ioSim env s.n s.mode s.opts file s.buf s.mem).Ensures faultless w fun e w' => e = A.simExit env.m nm s ∧
        OnDisk env (simKind env.m nm) w'.fs (pathJoin file b!"TestBlock") (A.afterSim env.m nm s) ∧
        SameOutside (pathJoin file b!"TestBlock") w.fs w'.fs ∧ w'.faults = noFaults ∧ TreeOk w'.fs ∧
        (A.afterSim env.m nm s).size < 2147483648 := by
      cases hmode : s.mode with
      | create => exact absurd hmode hcre
      | update =>
        refine Phases.ensures_mono (C88_update env A s.opts file s.buf s.mem s.n nm w hnf ht ⟨hn0, hn1⟩ hfile hfl hz hlen hmeta h hs) ?_
        rintro e w1 ⟨rfl, d1, o1, f1, t1⟩
        refine ⟨?_, ?_, o1, f1, t1, ?_⟩
        · simp [Content.simExit, hmode]
        · simpa [Content.afterSim, hmode] using d1
        · simpa [Content.afterSim, hmode, Content.numbered] using hs
      | read =>
        refine Phases.ensures_mono (C88_read env A s.opts file s.buf s.mem s.n nm w hnf ht ⟨hn0, hn1⟩ hfile hfl hz hlen h hfull hs) ?_
        rintro e w1 ⟨n1, f1, t1, rfl⟩
        refine ⟨?_, ?_, fun k _ => by rw [n1], f1, t1, ?_⟩
        · unfold Content.simExit
          rw [hmode]
          by_cases hc : ∀ q, q < A.size → A.rows q = some (simRow env.m nm q)
          · rw [if_pos hc, if_neg (fun h => h.2 hc)]
          · rw [if_neg hc, if_pos ⟨rfl, hc⟩]
        · simpa [Content.afterSim, hmode] using h.congr (by rw [n1]) (fun _ => by rw [n1])
        · simpa [Content.afterSim, hmode] using hs
      | grow =>
        obtain ⟨g1, g2, g3, g4⟩ := hgr hmode
        refine Phases.ensures_mono (C88_grow env A s.opts file s.buf s.mem s.n nm w hnf ht ⟨hn0, hn1⟩ hfile hfl hz hlen hmeta h g1 g2 (by omega) g4) ?_
        rintro e w1 ⟨rfl, d1, o1, f1, t1⟩
        refine ⟨?_, ?_, o1, f1, t1, ?_⟩
        · simp [Content.simExit, hmode]
        · simpa [Content.afterSim, hmode] using d1
        · simpa [Content.afterSim, hmode, Content.numbered] using g3
    unfold runSims
    apply Phases.ensures_bind
    refine Phases.ensures_mono step ?_
    rintro e w1 ⟨rfl, d1, o1, f1, t1, s1⟩
    apply Phases.ensures_bind
    refine Phases.ensures_mono (ih (A.afterSim env.m nm s) w1 f1 t1 d1 (afterSim_full s hfull) s1 hrest) ?_
    rintro es w2 ⟨rfl, d2, o2⟩
    exact Phases.ensures_pure ⟨rfl, d2, fun k hk => by rw [o2 k hk, o1 k hk]⟩

/-- What `create` or `update` wrote, `read` accepts. -/
theorem simExit_numbered (m : Machine) (nm : Nat) (s : SimRun) : (A.numbered m nm 0 A.size).simExit m nm s = .done := by
  unfold Content.simExit
  rw [if_neg]
  rintro ⟨_, h⟩
  apply h
  intro q hq
  change q < A.size at hq
  show (if 0 ≤ q ∧ q < 0 + A.size then some (simRow m nm (q - 0)) else A.rows q) = _
  rw [if_pos (by omega)]
  rfl

/-- What `grow` wrote, `read` does not accept. -/
theorem simExit_grown (m : Machine) (nm : Nat) (hnm : 0 < nm) (g s : SimRun) (hg : g.mode = .grow) (hs : s.mode = .read) (h0 : 0 < A.size)
    (h1 : 0 < g.opts.size) (h2 : A.size < 2147483648) : (A.afterSim m nm g).simExit m nm s = .aborted := by
  unfold Content.simExit
  rw [if_pos]
  refine ⟨hs, fun h => ?_⟩
  have h3 := h A.size (by simp [Content.afterSim, hg, Content.numbered]; omega)
  simp only [Content.afterSim, hg, Content.numbered] at h3
  rw [if_pos (by omega)] at h3
  have h4 := Option.some.inj h3
  rw [Nat.sub_self] at h4
  unfold simRow at h4
  obtain ⟨k, rfl⟩ : ∃ k, nm = k + 1 := ⟨nm - 1, by omega⟩
  rw [List.replicate_succ, List.replicate_succ, List.flatten_cons, List.flatten_cons] at h4
  have h5 := congrArg (natDec m) (List.append_inj_left h4 (by rw [natEnc_length, natEnc_length]))
  rw [natDec_natEnc, natDec_natEnc] at h5
  omega

/-- **C88, round trip.** What `create` wrote on any number of processes, `read` accepts on any other number of processes. -/
theorem C88_round_trip (env : Env) (o o' : SimOpts) (file : CStr) (buf buf' : Nat → Int) (mem mem' : Nat → Mem) (n n' nm : Nat) (w : World)
    (hnf : w.faults = noFaults) (ht : TreeOk w.fs) (hfmt : FmtOk env) (hn : 0 < n ∧ n < 2147483648) (hn' : 0 < n' ∧ n' < 2147483648)
    (hfile : file ≠ []) (hfl : file.length ≤ 8192)
    (hz : (0 : Byte) ∉ mpiPath file b!"TestBlock") (hlen : (mpiPath file b!"TestBlock").length ≤ 8192)
    (hmeta : isMeta (pathJoin file b!"TestBlock") = false) (hblank : hasBlank (pathJoin file b!"TestBlock") = false)
    (hroom : Room w.fs (pathJoin file b!"TestBlock")) (hnm : o.nmemb = nm) (hnm0 : 0 < nm) (hrow : 8 * nm < 2147483648)
    (hbuf : 8 * nm ≤ env.chunkBytes) (hbufm : env.chunkBytes < 18446744073709551616) (hw : 0 ≤ o.nwriter) (hfiles : o.nfile ≤ 16777216)
    (hwf : simWriters n o ≤ 16777216) (hs : o.size < 2147483648) :
    (do let e ← ioSim env n .create o file buf mem
        let e' ← ioSim env n' .read o' file buf' mem'
        pure (e, e') : Phases (Exit × Exit)).Ensures faultless w fun x _ => x = (.done, .done) := by
  apply Phases.ensures_bind
  refine Phases.ensures_mono (C88_create env o file buf mem n nm w hnf ht hfmt hn hfile hfl hz hlen hmeta hblank hroom hnm hnm0 hrow hbuf hbufm hw
    hfiles hwf hs) ?_
  rintro e w1 ⟨rfl, d1, z1, f1, t1, _⟩
  have hful : ((Content.fresh (evenSplit o.size (simFileCount n o))).numbered env.m nm 0 o.size).full := by
    intro q hq
    change q < (Content.fresh (evenSplit o.size (simFileCount n o))).size at hq
    show (if 0 ≤ q ∧ q < 0 + o.size then some (simRow env.m nm (q - 0)) else none).isSome = true
    rw [if_pos (by omega)]
    rfl
  apply Phases.ensures_bind
  refine Phases.ensures_mono (C88_read env _ o' file buf' mem' n' nm w1 f1 t1 hn' hfile hfl hz hlen d1 hful (by
    show (Content.fresh (evenSplit o.size (simFileCount n o))).size < _; omega)) ?_
  rintro e w2 ⟨_, _, _, rfl⟩
  rw [if_pos (by
    intro q hq
    change q < (Content.fresh (evenSplit o.size (simFileCount n o))).size at hq
    show (if 0 ≤ q ∧ q < 0 + o.size then some (simRow env.m nm (q - 0)) else none) = _
    rw [if_pos (by omega)]
    rfl)]
  exact Phases.ensures_pure rfl

/-- **C88: a false alarm.** After `grow` of a block that has rows by at least one row, `read` on any number of processes aborts ("data is
corrupted"), though nothing has failed and every row holds what `grow` and its predecessors wrote. -/
theorem C88_false_alarm (env : Env) (A : Content) (o o' : SimOpts) (file : CStr) (buf buf' : Nat → Int) (mem mem' : Nat → Mem) (n n' nm : Nat) (w : World)
    (hnf : w.faults = noFaults) (ht : TreeOk w.fs) (hn : 0 < n ∧ n < 2147483648) (hn' : 0 < n' ∧ n' < 2147483648) (hfile : file ≠ [])
    (hfl : file.length ≤ 8192) (hz : (0 : Byte) ∉ mpiPath file b!"TestBlock") (hlen : (mpiPath file b!"TestBlock").length ≤ 8192)
    (hmeta : isMeta (pathJoin file b!"TestBlock") = false) (h : OnDisk env (simKind env.m nm) w.fs (pathJoin file b!"TestBlock") A) (hfull : A.full)
    (hw : 0 ≤ o.nwriter) (hfiles : A.nfile + simFileCount n o ≤ 16777216) (hs : A.size + o.size < 2147483648)
    (hbytes : (A.size + o.size) * (8 * nm) < 9223372036854775808) (h0 : 0 < A.size) (h1 : 0 < o.size) :
    (do let e ← ioSim env n .grow o file buf mem
        let e' ← ioSim env n' .read o' file buf' mem'
        pure (e, e') : Phases (Exit × Exit)).Ensures faultless w fun x _ => x = (.done, .aborted) := by
  have hnm : 0 < nm := by
    obtain ⟨_, _, _, _, _, hh⟩ := h
    exact hh.ok.memb0
  apply Phases.ensures_bind
  refine Phases.ensures_mono (C88_grow env A o file buf mem n nm w hnf ht hn hfile hfl hz hlen hmeta h hw hfiles (by omega) hbytes) ?_
  rintro e w1 ⟨rfl, d1, _, f1, t1⟩
  have hful := afterSim_full (m := env.m) (nm := nm) ⟨n, .grow, o, buf, mem⟩ hfull
  have hexit := simExit_grown (A := A) env.m nm hnm ⟨n, .grow, o, buf, mem⟩ ⟨n', .read, o', buf', mem'⟩ rfl rfl h0 h1 (by omega)
  apply Phases.ensures_bind
  refine Phases.ensures_mono (C88_read env _ o' file buf' mem' n' nm w1 f1 t1 hn' hfile hfl hz hlen d1 hful hs) ?_
  rintro e w2 ⟨_, _, _, rfl⟩
  rw [if_neg (by
    intro hc
    unfold Content.simExit at hexit
    rw [if_neg (fun hx => hx.2 hc)] at hexit
    cases hexit)]
  exact Phases.ensures_pure rfl

/-- **C88, no file.** `update`, `read` and `grow` of a file that is not there change nothing and end normally: the program reports no error by its
exit code. -/
theorem C88_missing (env : Env) (mode : SimMode) (o : SimOpts) (file : CStr) (buf : Nat → Int) (mem : Nat → Mem) (n : Nat) (w : World)
    (hnf : w.faults = noFaults) (hn : 0 < n) (hmode : mode ≠ .create) (h : w.fs.node (resolve file) = none) :
    (ioSim env n mode o file buf mem).Ensures faultless w fun e w' => e = .done ∧ w'.fs.node = w.fs.node := by
  have hopen : (simOpen env n o file mode).Ensures faultless w fun x w' => x = none ∧ w'.fs.node = w.fs.node := by
    cases mode with
    | create => exact absurd rfl hmode
    | _ =>
      unfold simOpen
      apply Phases.ensures_bind
      refine Phases.ensures_mono (C73_open_missing n file w hn hnf h) ?_
      rintro bf w1 ⟨c1, n1⟩
      unfold together0
      rw [if_neg (by
        rw [List.all_eq_true]
        intro hc
        have := hc 0 (List.mem_range.mpr hn)
        dsimp only at this
        rw [c1 0 hn] at this
        exact absurd this (by decide)), if_pos (by
        rw [List.all_eq_true]
        intro r hr
        dsimp only
        rw [c1 r (List.mem_range.mp hr)]
        decide)]
      exact Phases.ensures_pure ⟨rfl, n1⟩
  unfold ioSim
  apply Phases.ensures_bind
  refine Phases.ensures_mono hopen ?_
  rintro x w1 ⟨rfl, n1⟩
  exact Phases.ensures_pure ⟨rfl, n1⟩

/-! ## Examples -/

def exEnvSim : Env := { exEnv with chunkBytes := 40 }

/-- Two members, 10 rows, 2 writers, 3 files, aggregated. -/
def exSim : SimOpts := ⟨2, 2, 3, 10, true⟩

/-- Three processes create a block; it is read by two, grown by five rows by four, read by one, which is the false alarm, updated by five,
and read by three. -/
example : (do
      let e ← ioSim exEnvSim 3 .create exSim b!"d" (fun _ => 500) (fun _ => exMem)
      let es ← runSims exEnvSim b!"d" [⟨2, .read, exSim, fun _ => 500, fun _ => exMem⟩, ⟨4, .grow, ⟨7, 0, 0, 5, false⟩, fun _ => 500, fun _ => exMem⟩,
        ⟨1, .read, exSim, fun _ => 500, fun _ => exMem⟩, ⟨5, .update, exSim, fun _ => 500, fun _ => exMem⟩,
        ⟨3, .read, exSim, fun _ => 500, fun _ => exMem⟩]
      pure (e :: es) : Phases (List Exit)).Ensures faultless exTreeWorld fun es w' => es = [.done, .done, .done, .aborted, .done, .done] ∧
        ∃ A, OnDisk exEnvSim (simKind exEnvSim.m 2) w'.fs b!"d/TestBlock" A ∧ A.size = 15 ∧ A.nfile = 7 ∧ A.rows 14 = some (simRow exEnvSim.m 2 14) := by
  apply Phases.ensures_bind
  refine Phases.ensures_mono (C88_create exEnvSim exSim b!"d" (fun _ => 500) (fun _ => exMem) 3 2 exTreeWorld rfl exTree_ok exFmt (by decide) (by decide)
    (by decide) (by decide) (by decide) (by decide) (by decide) (Room.of_absent exTree_ok (by decide) (by decide)) rfl (by decide) (by decide)
    (by decide) (by decide) (by decide) (by decide) (by decide) (by decide)) ?_
  rintro e w1 ⟨rfl, d1, z1, f1, t1, _⟩
  apply Phases.ensures_bind
  refine Phases.ensures_mono (C88_history exEnvSim b!"d" 2 (by decide) (by decide) (by decide) (by decide) (by decide) _ _ w1 f1 t1 d1 ?_ ?_ ?_) ?_
  · intro q hq
    change q < (Content.fresh (evenSplit exSim.size (simFileCount 3 exSim))).size at hq
    show (if 0 ≤ q ∧ q < 0 + exSim.size then some (simRow exEnvSim.m 2 (q - 0)) else none).isSome = true
    rw [if_pos (by omega)]
    rfl
  · decide
  · refine ⟨?_, ?_, ?_, ?_, ?_, trivial⟩ <;> refine ⟨by decide, by decide, by decide, by decide⟩
  · rintro es w2 ⟨rfl, d2, _⟩
    refine Phases.ensures_pure ⟨?_, _, d2, ?_, ?_, ?_⟩ <;> decide +kernel

/-- A file that is not there: the program ends normally. -/
example : (ioSim exEnvSim 3 .read exSim b!"nofile" (fun _ => 500) (fun _ => exMem)).Ensures faultless exTreeWorld fun e w' =>
    e = .done ∧ w'.fs.node = exTreeWorld.fs.node :=
  C88_missing exEnvSim .read exSim b!"nofile" _ _ 3 exTreeWorld rfl (by decide) (by decide) (by decide)

end Verif
