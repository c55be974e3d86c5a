import Verif.Proof.Python
import Verif.Props.Copy
/-!
# C54, C55, C63: the Python interface
-/

set_option autoImplicit false

namespace Verif

open Spec

variable {env : Env} {K : Kind} {bb : Block} {w : World} {A : Content}

/-! ## C54: slices and scalars -/

/-- **C54** (partial: slices whose end is before their start are in `C54_reversed` and `C54_reversed_by_one`; the scalar index `-1`
is in `C54_minus_one`). `column[start:stop]` gives exactly the rows that NumPy gives for an array with the rows of the block, for
every combination of missing, negative and too large bounds. The files are not touched. -/
theorem C54_slice_partial (env : Env) (K : Kind) (A : Content) (bb : Block) (w : World) (s : PySlice) (buf : Int) (mem : Mem)
    (h : Holds env K bb w.fs A) (hnf : w.faults = noFaults) (hstep : s.step.getD 1 = 1)
    (hdir : clipTo A.size (npBound A.size 0 s.start) ≤ clipTo A.size (npBound A.size A.size s.stop))
    (hrows : ∀ r ∈ npRows A.size s.start s.stop, (A.rows r).isSome = true) :
    ∃ a mem' w', pyGetSlice env bb s buf mem w = .ok (.ok a, mem') w' ∧ w'.fs = w.fs ∧
      (arrRows a mem' K.w K.nm).map some = (npRows A.size s.start s.stop).map A.rows := by
  have hnp := npRows_eq A.size s.start s.stop hdir
  have hi := indices_one s bb.size hstep
  rw [h.size] at hi
  rw [hnp] at hrows ⊢
  unfold pyGetSlice
  rw [h.size, hi]
  dsimp only
  rw [if_neg (by simp)]
  have hc1 : clipTo A.size (npBound A.size A.size s.stop) ≤ A.size := by unfold clipTo; omega
  have hc2 : 0 ≤ clipTo A.size (npBound A.size 0 s.start) := by unfold clipTo; omega
  generalize clipTo A.size (npBound A.size 0 s.start) = x at *
  generalize clipTo A.size (npBound A.size A.size s.stop) = y at *
  obtain ⟨a, mem', w', e, f, _, hr⟩ := pyRead_rows h hnf x.toNat (y - x).toNat buf mem (y - x)
    (by unfold pyReadLength; simp only; rw [if_neg (by omega), if_neg (by omega)]; omega) (by omega)
    (fun i hi => hrows _ (List.mem_map.mpr ⟨i, List.mem_range.mpr hi, rfl⟩))
  refine ⟨a, mem', w', ?_, f, ?_⟩
  · rw [← e]
    congr 1
    omega
  · rw [hr, List.map_map]
    rfl

/-- Any step but 1 is refused, as documented. -/
theorem C54_steps (env : Env) (bb : Block) (w : World) (s : PySlice) (buf : Int) (mem : Mem) (h : s.step.getD 1 ≠ 1) :
    pyGetSlice env bb s buf mem w = .ok (.error .valueError, mem) w := by
  unfold pyGetSlice PySlice.indices
  by_cases h0 : s.step.getD 1 = 0
  · simp only [h0, if_true]
    rfl
  · simp only [h0, if_false]
    rw [if_pos h]
    rfl

/-- A slice whose end is more than one row before its start is refused; NumPy gives no rows. -/
theorem C54_reversed (env : Env) (K : Kind) (A : Content) (bb : Block) (w : World) (s : PySlice) (buf : Int) (mem : Mem)
    (h : Holds env K bb w.fs A) (hstep : s.step.getD 1 = 1)
    (hrev : clipTo A.size (npBound A.size A.size s.stop) + 1 < clipTo A.size (npBound A.size 0 s.start)) :
    pyGetSlice env bb s buf mem w = .ok (.error .valueError, mem) w ∧ npRows A.size s.start s.stop = [] := by
  refine ⟨?_, npRows_nil _ _ _ (by omega)⟩
  have hi := indices_one s bb.size hstep
  rw [h.size] at hi
  unfold pyGetSlice
  rw [h.size, hi]
  dsimp only
  rw [if_neg (by simp)]
  have hc1 : clipTo A.size (npBound A.size 0 s.start) ≤ A.size := by unfold clipTo; omega
  have hc2 : 0 ≤ clipTo A.size (npBound A.size A.size s.stop) := by unfold clipTo; omega
  generalize clipTo A.size (npBound A.size 0 s.start) = x at *
  generalize clipTo A.size (npBound A.size A.size s.stop) = y at *
  unfold pyRead pyReadLength
  rw [h.size]
  simp only [bind]
  rw [if_neg (show ¬ y - x = -1 by omega), if_neg (show ¬ y - x + x > (A.size : Int) by omega), if_pos (by omega)]
  rfl

/-- A slice whose end is exactly one row before its start gives all rows from its start on; NumPy gives no rows. -/
theorem C54_reversed_by_one (env : Env) (K : Kind) (A : Content) (bb : Block) (w : World) (s : PySlice) (buf : Int) (mem : Mem)
    (h : Holds env K bb w.fs A) (hnf : w.faults = noFaults) (hstep : s.step.getD 1 = 1)
    (hrev : clipTo A.size (npBound A.size A.size s.stop) + 1 = clipTo A.size (npBound A.size 0 s.start))
    (hrows : ∀ r : Nat, clipTo A.size (npBound A.size 0 s.start) ≤ (r : Int) → r < A.size → (A.rows r).isSome = true) :
    (∃ a mem' w', pyGetSlice env bb s buf mem w = .ok (.ok a, mem') w' ∧
      (arrRows a mem' K.w K.nm).map some = (npRows A.size s.start none).map A.rows) ∧ npRows A.size s.start s.stop = [] := by
  refine ⟨?_, npRows_nil _ _ _ (by omega)⟩
  have hi := indices_one s bb.size hstep
  rw [h.size] at hi
  have hend : clipTo A.size (npBound A.size A.size none) = A.size := by unfold clipTo npBound; dsimp only; omega
  have hc1 : clipTo A.size (npBound A.size 0 s.start) ≤ A.size := by unfold clipTo; omega
  have hnp := npRows_eq A.size s.start none (by rw [hend]; exact hc1)
  rw [hnp, hend]
  unfold pyGetSlice
  rw [h.size, hi]
  dsimp only
  rw [if_neg (by simp)]
  have hc2 : 0 ≤ clipTo A.size (npBound A.size A.size s.stop) := by unfold clipTo; omega
  generalize clipTo A.size (npBound A.size 0 s.start) = x at *
  generalize clipTo A.size (npBound A.size A.size s.stop) = y at *
  obtain ⟨a, mem', w', e, f, _, hr⟩ := pyRead_rows h hnf x.toNat ((A.size : Int) - x).toNat buf mem (y - x)
    (by unfold pyReadLength; simp only; rw [if_pos (show y - x = -1 by omega), if_neg (by omega)]; omega) (by omega)
    (fun i hi => hrows _ (by omega) (by omega))
  refine ⟨a, mem', w', ?_, ?_⟩
  · rw [← e]
    congr 1
    omega
  · rw [hr, List.map_map]
    rfl

theorem arrRows_length (a : Arr) (mem : Mem) (w nm : Nat) : (arrRows a mem w nm).length = a.dims.headD 0 := by
  unfold arrRows
  simp

/-- **C54** for scalars: `column[i]` is row `i`, or for negative `i` row `i + size`; if there is no such row, `IndexError` is raised.
The index `-1` is excluded, see `C54_minus_one`. -/
theorem C54_scalar_partial (env : Env) (K : Kind) (A : Content) (bb : Block) (w : World) (i : Int) (buf : Int) (mem : Mem)
    (h : Holds env K bb w.fs A) (hnf : w.faults = noFaults) (hi : i ≠ -1)
    (hrow : ∀ r : Nat, (r : Int) = npBound A.size 0 (some i) → r < A.size → (A.rows r).isSome = true) :
    (∀ r : Nat, (r : Int) = npBound A.size 0 (some i) → r < A.size →
      ∃ a mem' w', pyGetScalar env bb i buf mem w = .ok (.ok a, mem') w' ∧ w'.fs = w.fs ∧
        (arrRows a mem' K.w K.nm).map some = [A.rows r]) ∧
    ((npBound A.size 0 (some i) < 0 ∨ (A.size : Int) ≤ npBound A.size 0 (some i)) →
      ∃ mem' w', pyGetScalar env bb i buf mem w = .ok (.error .indexError, mem') w' ∧ w'.fs = w.fs) := by
  have hb : npBound A.size A.size (some (i + 1)) = npBound A.size 0 (some i) + 1 := by
    unfold npBound
    simp only
    by_cases h1 : i < 0
    · rw [if_pos h1, if_pos (by omega)]; omega
    · rw [if_neg h1, if_neg (by omega)]
  have hdir : clipTo A.size (npBound A.size 0 (some i)) ≤ clipTo A.size (npBound A.size A.size (some (i + 1))) := by
    rw [hb]; unfold clipTo; omega
  have hnp := npRows_eq A.size (some i) (some (i + 1)) hdir
  have hslice := fun hr => C54_slice_partial env K A bb w ⟨some i, some (i + 1), none⟩ buf mem h hnf rfl hdir hr
  dsimp only at hslice
  constructor
  · intro r hr hlt
    have hnp' : npRows A.size (some i) (some (i + 1)) = [r] := by
      rw [hnp, hb, ← hr]
      have e1 : clipTo A.size (r : Int) = r := by unfold clipTo; omega
      have e2 : clipTo A.size ((r : Int) + 1) = r + 1 := by unfold clipTo; omega
      rw [e1, e2, show ((r : Int) + 1 - r).toNat = 1 by omega]
      simp
    rw [hnp'] at hslice
    obtain ⟨a, mem', w', e, f, hrs⟩ := hslice (fun x hx => by
      rw [List.mem_singleton.mp hx]
      exact hrow r hr hlt)
    refine ⟨a, mem', w', ?_, f, hrs⟩
    have hl := congrArg List.length hrs
    simp only [List.length_map, arrRows_length, List.length_singleton] at hl
    unfold pyGetScalar
    simp only [bind, M.bind]
    rw [e]
    dsimp only
    rw [if_neg (by omega)]
    rfl
  · intro hout
    have hnp' : npRows A.size (some i) (some (i + 1)) = [] := by
      apply npRows_nil
      rw [hb]
      unfold clipTo
      omega
    rw [hnp'] at hslice
    obtain ⟨a, mem', w', e, f, hrs⟩ := hslice (fun x hx => by cases hx)
    refine ⟨mem', w', ?_, f⟩
    have hl := congrArg List.length hrs
    simp only [List.length_map, arrRows_length, List.length_nil] at hl
    unfold pyGetScalar
    simp only [bind, M.bind]
    rw [e]
    dsimp only
    rw [if_pos hl]
    rfl

/-- `column[-1]` is not the last row: with one row `IndexError` is raised, with three or more `ValueError`. -/
theorem C54_minus_one (env : Env) (K : Kind) (A : Content) (bb : Block) (w : World) (buf : Int) (mem : Mem)
    (h : Holds env K bb w.fs A) (hnf : w.faults = noFaults) :
    (A.size = 1 → ∃ mem' w', pyGetScalar env bb (-1) buf mem w = .ok (.error .indexError, mem') w') ∧
    (3 ≤ A.size → pyGetScalar env bb (-1) buf mem w = .ok (.error .valueError, mem) w) := by
  constructor
  · intro h1
    have hdir : clipTo A.size (npBound A.size 0 (some (-1))) ≤ clipTo A.size (npBound A.size A.size (some 0)) := by
      unfold clipTo npBound; rw [h1]; decide
    have hnp' : npRows A.size (some (-1)) (some 0) = [] := by rw [h1]; decide
    obtain ⟨a, mem', w', e, f, hrs⟩ := C54_slice_partial env K A bb w ⟨some (-1), some 0, none⟩ buf mem h hnf rfl hdir (by
      dsimp only; rw [hnp']; intro r hr; cases hr)
    dsimp only at hrs
    rw [hnp'] at hrs
    refine ⟨mem', w', ?_⟩
    have hl := congrArg List.length hrs
    simp only [List.length_map, arrRows_length, List.length_nil] at hl
    unfold pyGetScalar
    simp only [bind, M.bind]
    rw [show ((-1 : Int) + 1) = 0 by rfl, e]
    dsimp only
    rw [if_pos hl]
    rfl
  · intro h3
    have := (C54_reversed env K A bb w ⟨some (-1), some 0, none⟩ buf mem h rfl (by
      unfold clipTo npBound
      simp only [show ((-1 : Int) < 0) by omega, show ¬ ((0 : Int) < 0) by omega, if_true, if_false]
      omega)).1
    unfold pyGetScalar
    simp only [bind, M.bind]
    rw [show ((-1 : Int) + 1) = 0 by rfl, this]
    rfl

/-- `column[start:stop] = array` for an array that has as many rows as the slice: these rows become the rows of the array, the
others stay. -/
theorem C54_assign_partial (env : Env) (K : Kind) (A : Content) (bb : Block) (w : World) (s : PySlice) (a : Arr) (mem : Mem) (sw : Nat)
    (h : Holds env K bb w.fs A) (hnf : w.faults = noFaults) (hstep : s.step.getD 1 = 1) (ha : ArrayOk env a sw)
    (hdis : foreign env.m a.dtype = true → Disjoint a sw)
    (hconv : ∀ e, e < a.size / K.nm * K.nm → (toBlock env K a mem sw e).isSome = true)
    (hsame : a.size / K.nm = (npRows A.size s.start s.stop).length) (hpos : npRows A.size s.start s.stop ≠ []) :
    ∃ bb' mem' w', pySetSlice env bb s a mem w = .ok (.ok (), bb', mem') w' ∧ w'.faults = noFaults ∧
      ∃ B, Holds env K bb' w'.fs B ∧ B.size = A.size ∧ B.nfile = A.nfile ∧ B.attrs = A.attrs ∧
        (∀ r, r ∉ npRows A.size s.start s.stop → B.rows r = A.rows r) ∧
        (npRows A.size s.start s.stop).map B.rows = (List.range (a.size / K.nm)).map fun i => some (arrayRow env K a mem sw i) := by
  have hdir : clipTo A.size (npBound A.size 0 s.start) ≤ clipTo A.size (npBound A.size A.size s.stop) := by
    by_cases hc : clipTo A.size (npBound A.size 0 s.start) ≤ clipTo A.size (npBound A.size A.size s.stop)
    · exact hc
    · exact absurd (npRows_nil _ _ _ (by omega)) hpos
  have hnp := npRows_eq A.size s.start s.stop hdir
  have hi := indices_one s bb.size hstep
  rw [h.size] at hi
  rw [hnp] at hsame ⊢
  unfold pySetSlice
  rw [h.size, hi]
  dsimp only
  rw [if_neg (by simp)]
  have hc1 : clipTo A.size (npBound A.size A.size s.stop) ≤ A.size := by unfold clipTo; omega
  have hc2 : 0 ≤ clipTo A.size (npBound A.size 0 s.start) := by unfold clipTo; omega
  generalize clipTo A.size (npBound A.size 0 s.start) = x at *
  generalize clipTo A.size (npBound A.size A.size s.stop) = y at *
  simp only [List.length_map, List.length_range] at hsame
  have hsm : A.size < 9223372036854775808 := by
    have h1 := h.ok.layout.small
    have h2 := h.ok.layout.size
    have h3 := h.size
    omega
  obtain ⟨b3, m3, w3, e3, _, nf3, _, hh3⟩ := pyWrite_holds h hnf x.toNat a mem sw ⟨by omega, ha, hdis, fun _ => hconv⟩ (by rw [hsame]; omega)
  rw [show ((x.toNat : Nat) : Int) = x by omega] at e3
  refine ⟨b3, m3, w3, e3, nf3, _, hh3, ?_⟩
  simp only [Content.next]
  rw [if_pos (by rw [hsame]; omega)]
  dsimp only
  refine ⟨rfl, rfl, rfl, fun r hr => ?_, ?_⟩
  · rw [if_neg]
    rintro ⟨q1, q2⟩
    exact hr (List.mem_map.mpr ⟨r - x.toNat, List.mem_range.mpr (by omega), by omega⟩)
  · rw [List.map_map, ← hsame]
    apply List.map_congr_left
    intro i hi
    have hi := List.mem_range.mp hi
    simp only [Function.comp_apply]
    rw [if_pos (by omega), show x.toNat + i - x.toNat = i by omega]

/-- The end of the slice is not looked at: with a larger array, rows behind the slice are overwritten as well. -/
theorem C54_assign_beyond (env : Env) (bb : Block) (start stop stop' : Option Int) (a : Arr) (mem : Mem) :
    pySetSlice env bb ⟨start, stop, none⟩ a mem = pySetSlice env bb ⟨start, stop', none⟩ a mem := by
  unfold pySetSlice
  rw [indices_one _ _ rfl, indices_one _ _ rfl]

/-! ## C55: `create_from_array` -/

theorem flush_clean (h : Holds env K bb w.fs A) (hnf : w.faults = noFaults) :
    ∃ bb' w', blockFlush env bb w = .ok (0, bb') w' ∧ bb'.basename = bb.basename ∧ w'.faults = noFaults ∧
      bb'.dirty = false ∧ bb'.attrset.dirty = false ∧ Holds env K bb' w'.fs (A.next env K .flush) := by
  obtain ⟨txt, s1, k1, _, _, _⟩ := h.flush_says
  obtain ⟨⟨rc, bb'⟩, w1, e1, f1, _, _, l1, l2⟩ := wpc_returns (wpc_blockFlush env bb txt s1 w k1) (fun _ hc => hc.1 hnf)
  have hrc : rc = 0 := l2 hnf h.dir
  subst hrc
  have hbb := (l1 rfl).1
  obtain ⟨x, b2, w2, e2, d⟩ := flush_step h hnf
  unfold runBOp at e2
  simp only [bind, M.bind] at e2
  rw [e1] at e2
  simp only [pure, M.pure, Res.ok.injEq, Prod.mk.injEq] at e2
  obtain ⟨⟨_, rfl⟩, rfl⟩ := e2
  refine ⟨bb', w1, e1, d.base, d.faults, ?_, ?_, d.holds⟩
  · simp only at hbb
    rw [hbb]
    rfl
  · simp only at hbb
    rw [hbb]
    unfold flushed
    dsimp only
    split
    · rfl
    · simp_all

/-- What `create_from_array` needs: a directory to put the block into, a dtype that can be stored, sizes in range. -/
structure Spec.CanCreate (env : Env) (K : Kind) (w : World) (bf name : CStr) (src : PySource) (nfile : Nat) : Prop where
  fmt : FmtOk env
  faults : w.faults = noFaults
  file : bf ≠ []
  dir : w.fs.node (resolve bf) = some .dir
  short : (pathJoin bf name).length ≤ 8192
  notMeta : isMeta (pathJoin bf name) = false
  noBlank : hasBlank (pathJoin bf name) = false
  room : Room w.fs (pathJoin bf name)
  plain : PlainDtype (dtypeNormalize env.m src.dtype)
  source : SourceOk env K src
  item0 : 0 < K.w
  memb0 : 0 < K.nm
  rowInt : K.w * K.nm < 2147483648
  buf : K.w * K.nm ≤ env.chunkBytes
  bufMax : env.chunkBytes < 18446744073709551616
  files : 0 < nfile ∨ src.size = 0
  filesMax : nfile ≤ 16777216
  bytes : src.size * (K.w * K.nm) < 9223372036854775808

theorem Spec.CanCreate.created {bf name : CStr} {src : PySource} {nfile : Nat} (h : CanCreate env K w bf name src nfile) :
    ∃ b w', createBlock env bf name (some src.dtype) (pyItems src.inner) (pySizes nfile src.size) w = .ok (0, some b) w' ∧
      b.basename = pathJoin bf name ∧ b.dirty = false ∧ w'.faults = noFaults ∧
      Holds env K b w'.fs (Content.fresh (pySizes nfile src.size)) := by
  obtain ⟨w1, e1⟩ := createBlock_succeeds (env := env) (dt := src.dtype) (nmemb := pyItems src.inner)
    (fsize := pySizes nfile src.size) (name := name) h.faults h.file h.dir h.short h.notMeta h.noBlank h.room
  have hsum := pySizes_sum nfile src.size h.files
  have hitems : (pyItems src.inner : Int) = K.nm := by
    unfold pyItems
    rcases h.source.inner with ⟨h1, h2⟩ | h1
    · rw [h1, h2]; rfl
    · rw [h1]; rfl
  have hsz : src.size ≤ src.size * (K.w * K.nm) := Nat.le_mul_of_pos_right _ (Nat.mul_pos h.item0 h.memb0)
  obtain ⟨h2, nf2⟩ := fresh_holds h.fmt h.faults h.short h.notMeta h.plain
    (by rw [itemsize_normalize]; exact h.source.item) h.item0 hitems h.memb0 h.rowInt h.buf h.bufMax
    (by rw [pySizes_length]; exact h.filesMax) (by rw [hsum]; have := h.bytes; omega) (by rw [hsum]; exact h.bytes) e1
    (fun d hd => h.room.way _ (List.prefix_refl _) ⟨d, hd⟩) h.room.noOld (fun f => h.room.files _)
  rw [normalize_idem, h.source.dtype] at h2
  exact ⟨_, w1, e1, rfl, rfl, nf2, h2⟩

/-- **C55** (partial: one element type that can be stored, no fault, no files of an older block in the way, and a memory limit
of at least 1024 rows; see `C55_small_limit`). `create_from_array` returns a column that holds the rows of the array, as
many and in the same order, in the number of files asked for; everything is on disk. -/
theorem C55_create_from_array_partial (env : Env) (K : Kind) (bf name : CStr) (src : PySource) (nfile : Option Nat)
    (memorylimit : Nat) (buf : Int) (mem : Mem) (w : World) (h : CanCreate env K w bf name src (pyNfile nfile src.size))
    (hlim : 1024 * (K.w * K.nm) ≤ memorylimit) :
    ∃ b w', createFromArray env bf name src nfile memorylimit buf mem w = .ok (.ok b) w' ∧ w'.faults = noFaults ∧
      b.basename = pathJoin bf name ∧ Holds env K b w'.fs (ofSource src (pyNfile nfile src.size)) ∧
      OnDisk env K w'.fs (pathJoin bf name) (ofSource src (pyNfile nfile src.size)) := by
  have hsum := pySizes_sum _ _ h.files
  have hpos : 0 < K.w * K.nm := Nat.mul_pos h.item0 h.memb0
  have hrb : (itemsize env.m src.dtype).toNat * pyItems src.inner = K.w * K.nm := by
    rw [h.source.item, Int.toNat_natCast]
    unfold pyItems
    rcases h.source.inner with ⟨h1, h2⟩ | h1
    · rw [h1, h2]; rfl
    · rw [h1]; rfl
  have hL : 0 < pyItemlimit memorylimit (K.w * K.nm) := by
    unfold pyItemlimit
    have h1 : 1024 ≤ memorylimit / (K.w * K.nm) := (Nat.le_div_iff_mul_le hpos).mpr hlim
    generalize memorylimit / (K.w * K.nm) = q at *
    omega
  have hinner : ¬ 1 < src.inner.length := by
    rcases h.source.inner with ⟨h1, _⟩ | h1 <;> rw [h1] <;> simp
  obtain ⟨b1, w1, e1, hb1, _, nf1, h1⟩ := h.created
  have h1' : Holds env K b1 w1.fs ((Content.fresh (pySizes (pyNfile nfile src.size) src.size)).upTo src
      (min (0 * pyItemlimit memorylimit (K.w * K.nm)) src.size)) := by
    refine Eq.mp ?_ h1
    congr 1
    unfold Content.upTo
    simp
  obtain ⟨b2, m2, w2, e2, nf2, hb2, h2⟩ := pyWriteChunks_holds h.source (pyItemlimit memorylimit (K.w * K.nm)) hL buf
    (Content.fresh (pySizes (pyNfile nfile src.size) src.size)) hsum (pathJoin bf name) _ rfl _ 0 b1 mem w1 (Nat.zero_add _) h1' nf1 hb1
  obtain ⟨b3, w3, e3, hb3, nf3, hd3, ha3, h3⟩ := flush_clean h2 nf2
  have hcont : ((Content.fresh (pySizes (pyNfile nfile src.size) src.size)).upTo src src.size).next env K .flush =
      ofSource src (pyNfile nfile src.size) := by
    simp [Content.next, Content.upTo, Content.fresh, ofSource, hsum, pySizes_length]
  rw [hcont] at h3
  have hbase : b3.basename = pathJoin bf name := hb3.trans hb2
  have hdisk : OnDisk env K w3.fs (pathJoin bf name) (ofSource src (pyNfile nfile src.size)) := ⟨rfl, rfl, b3, hbase, hd3, h3⟩
  obtain ⟨b4, w4, e4, f4, nf4, hb4, _, h4⟩ := hdisk.opens nf3
  refine ⟨b4, w4, ?_, nf4, hb4, by rw [f4]; exact h4, by rw [f4]; exact hdisk⟩
  have hcl : blockClose env b3 w4 = .ok 0 w4 := blockClose_clean hd3 ha3
  unfold createFromArray openBlock
  rw [hrb]
  simp only [bind]
  rw [if_neg (by omega), if_neg (by rintro ⟨c1, c2⟩; rcases h.files with h5 | h5 <;> omega), if_neg hinner]
  rw [M.bind, e1]
  dsimp only
  rw [if_neg (by omega), M.bind, pyRange_eq, e2]
  dsimp only
  rw [M.bind, e3]
  dsimp only
  rw [if_neg (by simp), M.bind, e4]
  dsimp only
  rw [M.bind, hcl]
  rfl

/-- What the user sees: the whole column is the array. -/
theorem C55_reads_back (env : Env) (K : Kind) (bf name : CStr) (src : PySource) (nfile : Option Nat)
    (memorylimit : Nat) (buf buf' : Int) (mem : Mem) (w : World) (h : CanCreate env K w bf name src (pyNfile nfile src.size))
    (hlim : 1024 * (K.w * K.nm) ≤ memorylimit) :
    ∃ b w' a mem' w'', createFromArray env bf name src nfile memorylimit buf mem w = .ok (.ok b) w' ∧
      pyGetSlice env b ⟨none, none, none⟩ buf' mem w' = .ok (.ok a, mem') w'' ∧
      arrRows a mem' K.w K.nm = (List.range src.size).map src.row := by
  obtain ⟨b, w', e, nf, _, hh, _⟩ := C55_create_from_array_partial env K bf name src nfile memorylimit buf mem w h hlim
  have hall : npRows src.size none none = List.range src.size := by
    unfold npRows npBound
    rw [List.filter_eq_self]
    intro i hi
    have := List.mem_range.mp hi
    simp
    omega
  have hsz : (ofSource src (pyNfile nfile src.size)).size = src.size := rfl
  obtain ⟨a, mem', w'', e', _, hr⟩ := C54_slice_partial env K _ b w' ⟨none, none, none⟩ buf' mem hh nf rfl (by
    rw [hsz]; unfold clipTo npBound; dsimp only; omega) (by
    rw [hsz]
    dsimp only
    rw [hall]
    intro r hr
    have := List.mem_range.mp hr
    unfold ofSource
    dsimp only
    rw [if_pos this]
    rfl)
  refine ⟨b, w', a, mem', w'', e, e', ?_⟩
  rw [hsz] at hr
  dsimp only at hr
  rw [hall] at hr
  apply (List.map_inj_right (f := some) (fun x y h => Option.some.inj h)).mp
  rw [hr, List.map_map]
  apply List.map_congr_left
  intro r hr
  have := List.mem_range.mp hr
  unfold ofSource
  simp [this]

/-- With a memory limit of less than 1024 rows `ValueError` is raised: the step of the loop is zero. The block has been created,
without a row. -/
theorem C55_small_limit (env : Env) (K : Kind) (bf name : CStr) (src : PySource) (nfile : Option Nat)
    (memorylimit : Nat) (buf : Int) (mem : Mem) (w : World) (h : CanCreate env K w bf name src (pyNfile nfile src.size))
    (hlim : memorylimit < 1024 * (K.w * K.nm)) :
    ∃ w', createFromArray env bf name src nfile memorylimit buf mem w = .ok (.error .valueError) w' ∧
      OnDisk env K w'.fs (pathJoin bf name) (Content.fresh (pySizes (pyNfile nfile src.size) src.size)) := by
  have hpos : 0 < K.w * K.nm := Nat.mul_pos h.item0 h.memb0
  have hrb : (itemsize env.m src.dtype).toNat * pyItems src.inner = K.w * K.nm := by
    rw [h.source.item, Int.toNat_natCast]
    unfold pyItems
    rcases h.source.inner with ⟨h1, h2⟩ | h1
    · rw [h1, h2]; rfl
    · rw [h1]; rfl
  have hL : pyItemlimit memorylimit (K.w * K.nm) = 0 := by
    unfold pyItemlimit
    have h1 : memorylimit / (K.w * K.nm) < 1024 := (Nat.div_lt_iff_lt_mul hpos).mpr hlim
    generalize memorylimit / (K.w * K.nm) = q at *
    omega
  have hinner : ¬ 1 < src.inner.length := by
    rcases h.source.inner with ⟨h1, _⟩ | h1 <;> rw [h1] <;> simp
  obtain ⟨b1, w1, e1, hb1, _, nf1, h1⟩ := h.created
  obtain ⟨b3, w3, e3, hb3, nf3, hd3, ha3, h3⟩ := flush_clean h1 nf1
  refine ⟨w3, ?_, ⟨rfl, rfl, b3, hb3.trans hb1, hd3, h3⟩⟩
  unfold createFromArray
  rw [hrb]
  simp only [bind]
  rw [if_neg (by omega), if_neg (by rintro ⟨c1, c2⟩; rcases h.files with h5 | h5 <;> omega), if_neg hinner]
  rw [M.bind, e1]
  dsimp only
  rw [if_pos hL, M.bind]
  simp only [pure, M.pure]
  rw [M.bind, e3]
  dsimp only
  rw [if_neg (by simp)]
  rw [M.bind, blockClose_clean hd3 ha3]
  rfl

/-! ## C63: `append` -/

/-- **C63** (partial: at least one row is appended, nothing fails, and the sum of the sizes is in range). `append` adds the rows of
the array behind the existing ones, which stay as they are, in `nfile` new files. -/
theorem C63_append_partial (env : Env) (K : Kind) (A : Content) (bb : Block) (w : World) (a : Arr) (n nfile : Nat) (mem : Mem) (sw : Nat)
    (h : Holds env K bb w.fs A) (hnf : w.faults = noFaults) (hn : 0 < nfile) (ha : ArrayOk env a sw) (hsz : a.size = n * K.nm)
    (hdis : foreign env.m a.dtype = true → Disjoint a sw)
    (hconv : ∀ e, e < n * K.nm → (toBlock env K a mem sw e).isSome = true)
    (h1 : A.size + n < 9223372036854775808) (h2 : (A.size + n) * (K.w * K.nm) < 9223372036854775808) (h3 : A.nfile + nfile ≤ 16777216) :
    ∃ bb' mem' w', pyAppend env bb a n nfile mem w = .ok (.ok (), bb', mem') w' ∧ w'.faults = noFaults ∧
      ∃ B, Holds env K bb' w'.fs B ∧ B.size = A.size + n ∧ B.nfile = A.nfile + nfile ∧ B.attrs = A.attrs ∧
        (∀ r, r < A.size → B.rows r = A.rows r) ∧
        ∀ i, i < n → B.rows (A.size + i) = some (arrayRow env K a mem sw i) := by
  have hsum := pySizes_sum nfile n (Or.inl hn)
  have hrw : a.size / K.nm = n := by rw [hsz, Nat.mul_div_cancel _ h.ok.memb0]
  obtain ⟨x1, b1, w1, e1, d1⟩ := grow_step h hnf (pySizes nfile n) ⟨by rw [hsum]; exact h1, by rw [hsum]; exact h2, by rw [pySizes_length]; exact h3⟩
  have hg : blockGrow bb (pySizes nfile n) w = .ok (0, b1) w1 := by
    have hrc : x1.rc = 0 := d1.ans
    unfold runBOp at e1
    simp only [bind, M.bind] at e1
    cases hc : blockGrow bb (pySizes nfile n) w with
    | ok y w' =>
      rw [hc] at e1
      simp only [pure, M.pure, Res.ok.injEq, Prod.mk.injEq] at e1
      obtain ⟨⟨q1, q2⟩, q3⟩ := e1
      rw [← q1] at hrc
      dsimp only at hrc
      rw [← q2, ← q3, ← hrc]
    | crash w' => rw [hc] at e1; cases e1
    | ub => rw [hc] at e1; cases e1
    | hang => rw [hc] at e1; cases e1
  obtain ⟨b2, w2, e2, _, nf2, _, _, hh2⟩ := flush_clean d1.holds d1.faults
  have hC : ∀ (P : Content → Prop), P ((A.next env K (.grow (pySizes nfile n))).next env K .flush) →
      ∃ B, P B ∧ B.size = A.size + n ∧ B.nfile = A.nfile + nfile ∧ B.attrs = A.attrs ∧ B.rows = A.rows := by
    intro P hP
    refine ⟨_, hP, ?_⟩
    cases hp : A.pending <;> simp [Content.next, hp, hsum, pySizes_length]
  obtain ⟨B, hB, q1, q2, q3, q4⟩ := hC (fun B => Holds env K b2 w2.fs B) hh2
  obtain ⟨b3, m3, w3, e3, _, nf3, _, hh3⟩ := pyWrite_holds hB nf2 A.size a mem sw ⟨by omega, ha, hdis, fun _ e he => hconv e (by rw [hrw] at he; exact he)⟩
    (by rw [hrw, q1]; omega)
  refine ⟨b3, m3, w3, ?_, nf3, _, hh3, ?_⟩
  · unfold pyAppend
    simp only [bind]
    rw [if_neg (by omega), M.bind, hg]
    dsimp only
    rw [if_neg (by simp), M.bind, e2]
    dsimp only
    rw [if_neg (by simp), h.size]
    exact e3
  · simp only [Content.next]
    rw [if_pos (by rw [hrw, q1]; omega), hrw]
    dsimp only
    refine ⟨q1, q2, q3, fun r hr => ?_, fun i hi => ?_⟩
    · rw [if_neg (by omega), q4]
    · rw [if_pos (by omega), show A.size + i - A.size = i by omega]

/-- Without files for the rows `append` raises `ValueError` and does nothing. -/
theorem C63_no_files (env : Env) (bb : Block) (w : World) (a : Arr) (n : Nat) (mem : Mem) (hn : n ≠ 0) :
    pyAppend env bb a n 0 mem w = .ok (.error .valueError, bb, mem) w := by
  unfold pyAppend
  rw [if_pos ⟨rfl, hn⟩]
  rfl

/-! ## Examples -/

theorem exCopyA_full : ∀ r < 5, (exCopyA.rows r).isSome = true := by decide +kernel

/-- The example of C54: the five rows of `exCopyA`. All but the first by `[-4:9]`, the second one by `[-4]`; `[2:1]` gives three rows;
`[-1]` raises `ValueError`. -/
example : ∃ b w, Holds exEnv exKind b w.fs exCopyA ∧
    (∃ a mem' w', pyGetSlice exEnv b ⟨some (-4), some 9, none⟩ 500 exMem w = .ok (.ok a, mem') w' ∧
      (arrRows a mem' 4 1).map some = [1, 2, 3, 4].map exCopyA.rows) ∧
    (∃ a mem' w', pyGetScalar exEnv b (-4) 500 exMem w = .ok (.ok a, mem') w' ∧ (arrRows a mem' 4 1).map some = [exCopyA.rows 1]) ∧
    (∃ a mem' w', pyGetSlice exEnv b ⟨some 2, some 1, none⟩ 500 exMem w = .ok (.ok a, mem') w' ∧
      (arrRows a mem' 4 1).map some = [2, 3, 4].map exCopyA.rows) ∧
    pyGetScalar exEnv b (-1) 500 exMem w = .ok (.error .valueError, exMem) w := by
  obtain ⟨w0, _, nf0, _, h0⟩ := exCopy_src
  obtain ⟨b, w, _, f, nf, _, _, h⟩ := h0.opens nf0
  rw [← f] at h
  have hsz : exCopyA.size = 5 := rfl
  refine ⟨b, w, h, ?_, ?_, ?_, ?_⟩
  · obtain ⟨a, m, w', e, _, hr⟩ := C54_slice_partial exEnv exKind exCopyA b w ⟨some (-4), some 9, none⟩ 500 exMem h nf rfl
      (by rw [hsz]; decide) (by rw [hsz]; intro r hr; exact exCopyA_full r (List.mem_range.mp (List.mem_filter.mp hr).1))
    exact ⟨a, m, w', e, hr⟩
  · obtain ⟨a, m, w', e, _, hr⟩ := (C54_scalar_partial exEnv exKind exCopyA b w (-4) 500 exMem h nf (by decide)
      (fun r _ hr => exCopyA_full r hr)).1 1 (by rw [hsz]; decide) (by rw [hsz]; decide)
    exact ⟨a, m, w', e, hr⟩
  · obtain ⟨a, m, w', e, hr⟩ := (C54_reversed_by_one exEnv exKind exCopyA b w ⟨some 2, some 1, none⟩ 500 exMem h nf rfl
      (by rw [hsz]; decide) (fun r _ hr => exCopyA_full r hr)).1
    exact ⟨a, m, w', e, hr⟩
  · exact (C54_minus_one exEnv exKind exCopyA b w 500 exMem h nf).2 (by rw [hsz]; decide)

/-- **C55**, without a number of files: there is a file if there is a row, no file has more than 32 * 1024 * 1024 rows, and there are no more
files than that takes. With `C55_create_from_array_partial`, the rows of any array are stored. -/
theorem C55_default_files (size : Nat) : (0 < pyNfile none size ∨ size = 0) ∧ (∀ s ∈ pySizes (pyNfile none size) size, s ≤ 33554432) ∧
    (pyNfile none size - 1) * 33554432 ≤ size := by
  have hn : pyNfile none size = (size + 33554432 - 1) / 33554432 := by unfold pyNfile; rw [Option.getD_none]
  rw [hn]
  generalize hM : 33554432 = M at *
  have hM0 : 0 < M := by omega
  have d1 : (size + M - 1) / M * M ≤ size + M - 1 := Nat.div_mul_le_self _ _
  have d2 : size + M - 1 < ((size + M - 1) / M + 1) * M := by
    have := Nat.lt_div_mul_add (a := size + M - 1) hM0
    rw [Nat.add_mul, Nat.one_mul]; exact this
  generalize hq : (size + M - 1) / M = n at *
  clear hn hM hq
  have h0 : size ≤ n * M := by rw [Nat.add_mul, Nat.one_mul] at d2; omega
  refine ⟨?_, ?_, ?_⟩
  · rcases Nat.eq_zero_or_pos n with rfl | h
    · right; omega
    · exact Or.inl h
  · intro s hs
    unfold pySizes at hs
    obtain ⟨i, hi, rfl⟩ := List.mem_map.mp hs
    have hn0 : 0 < n := Nat.lt_of_le_of_lt (Nat.zero_le _) (List.mem_range.mp hi)
    have h1 : (i + 1) * size ≤ i * size + n * M := by
      rw [Nat.add_mul, Nat.one_mul]
      exact Nat.add_le_add_left h0 _
    have h2 : (i + 1) * size / n ≤ (i * size + n * M) / n := Nat.div_le_div_right h1
    rw [Nat.add_mul_div_left _ _ hn0] at h2
    omega
  · rw [Nat.sub_mul, Nat.one_mul]; omega

/-- 2500 rows of one 32-bit integer. -/
def exPySource : PySource := ⟨b!"i4", [], 2500, fun r => [UInt8.ofNat r, UInt8.ofNat (r / 256), 0, 0]⟩

theorem exCanCreate : CanCreate exEnv exKind exTreeWorld b!"d" b!"z" exPySource 3 where
  fmt := exFmt
  faults := rfl
  file := by decide
  dir := by decide
  short := by decide
  notMeta := by decide
  noBlank := by decide
  room := exCopy_room
  plain := exB_good.dt
  source := ⟨by decide, by decide, Or.inl ⟨rfl, rfl⟩, fun _ _ => rfl⟩
  item0 := by decide
  memb0 := by decide
  rowInt := by decide
  buf := by decide
  bufMax := by decide
  files := Or.inl (by decide)
  filesMax := by decide
  bytes := by decide

/-- The example of C55: the rows are written 1024 at a time, into three files. -/
example : ∃ b w', createFromArray exEnv b!"d" b!"z" exPySource (some 3) 5000 500 exMem exTreeWorld = .ok (.ok b) w' ∧
    Holds exEnv exKind b w'.fs (ofSource exPySource 3) := by
  obtain ⟨b, w', e, _, _, h, _⟩ := C55_create_from_array_partial exEnv exKind b!"d" b!"z" exPySource (some 3) 5000 500 exMem exTreeWorld
    exCanCreate (by decide)
  exact ⟨b, w', e, h⟩

example : ∃ w', createFromArray exEnv b!"d" b!"z" exPySource (some 3) 4095 500 exMem exTreeWorld = .ok (.error .valueError) w' := by
  obtain ⟨w', e, _⟩ := C55_small_limit exEnv exKind b!"d" b!"z" exPySource (some 3) 4095 500 exMem exTreeWorld exCanCreate (by decide)
  exact ⟨w', e⟩

/-- The example of C63: three rows of 64-bit integers are appended to the five rows. -/
example : ∃ b w bb' mem' w', Holds exEnv exKind b w.fs exCopyA ∧ pyAppend exEnv b exSrc 3 2 exMem w = .ok (.ok (), bb', mem') w' ∧
    ∃ B, Holds exEnv exKind bb' w'.fs B ∧ B.size = 8 ∧ B.nfile = 5 := by
  obtain ⟨w0, _, nf0, _, h0⟩ := exCopy_src
  obtain ⟨b, w, _, f, nf, _, _, h⟩ := h0.opens nf0
  rw [← f] at h
  obtain ⟨b', m', w', e, _, B, hB, h1, h2, _⟩ := C63_append_partial exEnv exKind exCopyA b w exSrc 3 2 exMem 8 h nf (by decide) exSrc_array
    (by decide) (fun hc => absurd hc (by decide)) (by decide +kernel) (by decide) (by decide) (by decide)
  exact ⟨b, w, b', m', w', h, e, B, hB, h1, h2⟩

end Verif
