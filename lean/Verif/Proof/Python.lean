import Verif.Spec.Python
import Verif.Proof.Copy
/-!
# The Python interface
-/

set_option autoImplicit false

namespace Verif

open Spec

variable {env : Env} {K : Kind} {bb : Block} {w : World} {A : Content}

/-- What is known of an array in C order. -/
structure PyArrOk (env : Env) (a : Arr) (dt : CStr) (n : Nat) (inner : List Nat) (nm sw : Nat) (buf : Int) : Prop where
  dims : a.dims = n :: inner
  dtype : a.dtype = dtypeNormalize env.m dt
  size : a.size = n * nm
  ok : 0 < n → ArrayOk env a sw
  addr : ∀ e, e < n * nm → elemAddr a e = buf + ((e * sw : Nat) : Int)

theorem pyArr_ok {dt : CStr} {n nm sw : Nat} {inner : List Nat} {buf : Int} (hin : (inner = [] ∧ nm = 1) ∨ inner = [nm])
    (hdt : itemsize env.m dt = sw) (hsw : 0 < sw) (hnm : 0 < nm) (hb : n * nm * sw < 9223372036854775808) :
    ∃ a, pyArr env.m dt n inner buf = some a ∧ PyArrOk env a dt n inner nm sw buf := by
  have h1 : n * nm ≤ n * nm * sw := Nat.le_mul_of_pos_right _ hsw
  have h2 : n ≤ n * nm := Nat.le_mul_of_pos_right _ hnm
  have hlen : inner.length ≤ 1 := by rcases hin with ⟨rfl, _⟩ | rfl <;> simp
  have hprod : prodN (n :: inner) = n * nm := by
    rcases hin with ⟨rfl, rfl⟩ | rfl <;> simp [prodN]
  have hdp : dimsProd (n :: inner) = n * nm := by
    unfold dimsProd
    rcases hin with ⟨rfl, rfl⟩ | rfl
    · simp only [List.foldl_cons, List.foldl_nil, Nat.one_mul, Nat.mul_one]
      exact u64_of_nat (by omega)
    · simp only [List.foldl_cons, List.foldl_nil, Nat.one_mul]
      rw [u64_of_nat (x := n) (by omega), u64_of_nat (by omega)]
  refine ⟨⟨dtypeNormalize env.m dt, n :: inner, defaultStrides (itemsize env.m dt) (n :: inner), n * nm, buf⟩, ?_, ?_⟩
  · unfold pyArr arrayInit
    rw [if_neg (by simp; omega), hdp]
  · refine ⟨rfl, rfl, rfl, fun hn => ?_, fun e he => ?_⟩
    · have hpos := Nat.mul_pos hn hnm
      refine ⟨⟨by simp, by simp [defaultStrides_length], by simp; omega, hprod.symm, hpos⟩, ?_, normalize_idem _ _, ?_, hsw, ?_⟩
      · show n * nm < _; omega
      · show itemsize _ (dtypeNormalize _ _) = _; rw [itemsize_normalize, hdt]
      · show n * nm * sw < _; omega
    · rw [elemAddr_default _ (itemsize env.m dt) rfl hprod.symm e he, hdt]
      simp

theorem PyArrOk.disjoint {a : Arr} {dt : CStr} {n nm sw : Nat} {inner : List Nat} {buf : Int}
    (h : PyArrOk env a dt n inner nm sw buf) : Disjoint a sw := by
  intro i j hi hj hij
  rw [h.size] at hi hj
  rw [h.addr i hi, h.addr j hj]
  rcases Nat.lt_or_gt_of_ne hij with hlt | hgt
  · left
    have := Nat.mul_le_mul_right sw (show i + 1 ≤ j from hlt)
    rw [Nat.add_mul] at this
    omega
  · right
    have := Nat.mul_le_mul_right sw (show j + 1 ≤ i from hgt)
    rw [Nat.add_mul] at this
    omega

theorem pyWrite_of_run {p : Nat} {a : Arr} {mem : Mem} {sw : Nat} {x : BAns} {bb' : Block} {w' : World}
    (h : runBOp env bb (.write p a mem sw) w = .ok (x, bb') w') :
    pyWrite env bb p a mem w = .ok (if x.rc ≠ 0 then .error .error else .ok (), bb', x.mem) w' := by
  unfold runBOp at h
  unfold pyWrite
  simp only [bind] at h ⊢
  cases hs : seek bb ⟨0, 0, 0⟩ (p : Int) with
  | none => rw [hs] at h; cases h
  | some q =>
    obtain ⟨rc, ptr⟩ := q
    rw [hs] at h
    simp only [M.bind, M.lift, M.pure] at h ⊢
    by_cases hrc : rc = 0
    · rw [if_neg (by simp [hrc])] at h ⊢
      cases hb : blockWrite env bb ptr a mem w with
      | ok y w1 =>
        rw [M.bind, hb] at h
        rw [M.bind, hb]
        simp only [pure, M.pure] at h ⊢
        cases h
        dsimp only
        by_cases hy : y.rc = 0
        · rw [if_neg (by simp [hy]), if_neg (by simp [hy])]; rfl
        · rw [if_pos hy, if_pos hy]; rfl
      | ub => rw [M.bind, hb] at h; cases h
      | crash w1 => rw [M.bind, hb] at h; cases h
      | hang => rw [M.bind, hb] at h; cases h
    · rw [if_pos hrc] at h ⊢
      cases h
      dsimp only
      rw [if_pos hrc]
      rfl

theorem pyInner_cases (h : BlockOk env bb K.w K.nm) : (pyInner bb = [] ∧ K.nm = 1) ∨ pyInner bb = [K.nm] := by
  unfold pyInner
  rw [h.memb]
  by_cases h1 : (K.nm : Int) = 1
  · left
    rw [if_neg (by simp [h1])]
    exact ⟨rfl, by omega⟩
  · right
    rw [if_pos h1]
    simp

/-- A row is the concatenation of its elements. -/
theorem rows_of_elems {a : Arr} {mem : Mem} {fs : FS} (h : Holds env K bb fs A) (p i : Nat)
    (hm : ∀ j, j < K.nm → peek mem (elemAddr a (i * K.nm + j)) K.w = elemOfRows env.m fs bb p K.w K.nm (i * K.nm + j))
    {bytes : List Byte} (hr : A.rows (p + i) = some bytes) :
    rowOfElems (fun e => peek mem (elemAddr a e) K.w) K.nm i = bytes := by
  obtain ⟨_, h2, h3⟩ := h.rows _ _ hr
  have hrs : rowSize env.m bb = K.nm * K.w := by
    unfold rowSize
    rw [h.ok.item, h.ok.memb]
    simp [Nat.mul_comm]
  have hnm := h.ok.memb0
  unfold rowOfElems
  rw [← h2, ← flatN_slices (row env.m fs bb (p + i)) K.w K.nm (by rw [← hrs]; exact h3)]
  apply flatN_congr
  intro j hj
  dsimp only
  rw [hm j hj]
  unfold elemOfRows
  have hdv : (i * K.nm + j) / K.nm = i := by
    rw [Nat.mul_comm, Nat.mul_add_div hnm, Nat.div_eq_of_lt hj]; rfl
  have hmd : (i * K.nm + j) % K.nm = j := by
    rw [Nat.mul_comm, Nat.mul_add_mod, Nat.mod_eq_of_lt hj]
  rw [hdv, hmd]

theorem pyRead_rows (h : Holds env K bb w.fs A) (hnf : w.faults = noFaults) (p n : Nat) (buf : Int) (mem : Mem) (len : Int)
    (hlen : pyReadLength A.size p len = n) (hin : p + n ≤ A.size) (hrows : ∀ i, i < n → (A.rows (p + i)).isSome = true) :
    ∃ a mem' w', pyRead env bb p len buf mem w = .ok (.ok a, mem') w' ∧ w'.fs = w.fs ∧ a.dims.headD 0 = n ∧
      (arrRows a mem' K.w K.nm).map some = (List.range n).map fun i => A.rows (p + i) := by
  have hL := h.ok.layout
  have hnm := h.ok.memb0
  have hsz := h.size
  have hbytes : n * K.nm * K.w < 9223372036854775808 := by
    have h1 := h.ok.offs
    rw [← hL.size, hsz] at h1
    have h2 : n * (K.w * K.nm) ≤ A.size * (K.w * K.nm) := Nat.mul_le_mul_right _ (by omega)
    rw [Nat.mul_assoc, Nat.mul_comm K.nm K.w]
    omega
  have hsm : A.size < 9223372036854775808 := by
    have := hL.small
    rw [← hL.size] at this
    omega
  obtain ⟨a, ea, ha⟩ := pyArr_ok (env := env) (dt := bb.dtype) (n := n) (buf := buf) (pyInner_cases h.ok) h.ok.item h.ok.item0 hnm hbytes
  obtain ⟨q, hq, hpt⟩ := (seek_row hL p (by omega)).1 (by omega)
  have hstart : ∀ (x : Xfer) (w1 : World), blockRead env bb q a mem w = .ok x w1 → x.rc = 0 →
      pyRead env bb p len buf mem w = .ok (.ok a, x.mem) w1 := by
    intro x w1 e1 hrc
    unfold pyRead
    rw [hsz, hlen]
    simp only [bind]
    rw [if_neg (by omega), Int.toNat_natCast, ea]
    simp only [M.bind, M.lift, M.pure]
    rw [hq]
    simp only [M.pure, ne_eq, not_true_eq_false, if_false]
    rw [M.bind, e1]
    dsimp only
    rw [if_neg (by simp [hrc])]
    rfl
  have hdims : a.dims.headD 0 = n := by rw [ha.dims]; rfl
  by_cases hn : n = 0
  · subst hn
    have e1 := blockRead_empty (w := K.w) (nm := K.nm) h.ok a (by rw [ha.size, Nat.zero_mul]) q p hpt (by omega) mem w
    refine ⟨a, mem, w, hstart _ _ e1 rfl, rfl, hdims, ?_⟩
    unfold arrRows
    rw [hdims]
    rfl
  · have hAok := ha.ok (by omega)
    have hx := hAok.xferOk h.ok
    have hrw : a.size / K.nm = n := by rw [ha.size, Nat.mul_div_cancel _ hnm]
    have hdt : a.dtype = dtypeNormalize env.m bb.dtype := ha.dtype
    have hr : LegalRead env w.fs bb q a p K.w K.w K.nm (elemOfRows env.m w.fs bb p K.w K.nm) := by
      refine ⟨hx, hpt, by rw [hrw]; omega, by rw [hdt]; exact convertible_same _ _ _, fun e he _ => ?_⟩
      rw [hdt]
      exact convElem_same _ _ _ _
    obtain ⟨x, w1, e1, d⟩ := wpc_returns (hr.spec (wd := w) (mem := mem)) (fun _ hc => hc.2 hnf)
    have hrc := d.succeeds hnf (fun i hi => by
      rw [hrw] at hi
      obtain ⟨bytes, hb⟩ := Option.isSome_iff_exists.mp (hrows i hi)
      exact (h.rows _ _ hb).2.2)
    refine ⟨a, x.mem, w1, hstart _ _ e1 hrc, d.fs, hdims, ?_⟩
    unfold arrRows
    rw [hdims, List.map_map]
    apply List.map_congr_left
    intro i hi
    have hi := List.mem_range.mp hi
    obtain ⟨bytes, hb⟩ := Option.isSome_iff_exists.mp (hrows i hi)
    rw [hb]
    simp only [Function.comp_apply, Option.some.injEq]
    refine rows_of_elems h p i (fun j hj => ?_) hb
    have he : i * K.nm + j < a.size / K.nm * K.nm := by
      rw [hrw]
      calc i * K.nm + j < i * K.nm + K.nm := by omega
        _ = (i + 1) * K.nm := (Nat.succ_mul _ _).symm
        _ ≤ _ := Nat.mul_le_mul_right _ hi
    have := (d.done hrc).2.2 ha.disjoint (i * K.nm + j) he
    simp only [Nat.zero_mul, Nat.zero_add] at this
    exact this

/-! ## Slices -/

theorem filter_interval (size a b : Nat) (hab : a ≤ b) (hb : b ≤ size) :
    (List.range size).filter (fun i => decide (a ≤ i ∧ i < b)) = (List.range (b - a)).map (a + ·) := by
  have hs : List.range size = List.range' 0 a ++ (List.range' a (b - a) ++ List.range' b (size - b)) := by
    rw [List.range_eq_range']
    have h1 : List.range' a (b - a) ++ List.range' b (size - b) = List.range' a (size - a) := by
      have := List.range'_append (s := a) (m := b - a) (n := size - b) (step := 1)
      rw [show a + 1 * (b - a) = b by omega, show b - a + (size - b) = size - a by omega] at this
      exact this
    have h2 : List.range' 0 a ++ List.range' a (size - a) = List.range' 0 size := by
      have := List.range'_append (s := 0) (m := a) (n := size - a) (step := 1)
      rw [show 0 + 1 * a = a by omega, show a + (size - a) = size by omega] at this
      exact this
    rw [h1, h2]
  rw [hs, List.filter_append, List.filter_append]
  have e1 : (List.range' 0 a).filter (fun i => decide (a ≤ i ∧ i < b)) = [] := by
    rw [List.filter_eq_nil_iff]
    intro x hx
    have := List.mem_range'_1.mp hx
    simp; omega
  have e2 : (List.range' b (size - b)).filter (fun i => decide (a ≤ i ∧ i < b)) = [] := by
    rw [List.filter_eq_nil_iff]
    intro x hx
    have := List.mem_range'_1.mp hx
    simp; omega
  have e3 : (List.range' a (b - a)).filter (fun i => decide (a ≤ i ∧ i < b)) = List.range' a (b - a) := by
    rw [List.filter_eq_self]
    intro x hx
    have := List.mem_range'_1.mp hx
    simp; omega
  rw [e1, e2, e3, List.nil_append, List.append_nil, List.range'_eq_map_range]

/-- Where a slice starts and ends, and the rows in it. -/
theorem npRows_eq (size : Nat) (start stop : Option Int)
    (h : clipTo size (npBound size 0 start) ≤ clipTo size (npBound size size stop)) :
    npRows size start stop = (List.range (clipTo size (npBound size size stop) - clipTo size (npBound size 0 start)).toNat).map
      ((clipTo size (npBound size 0 start)).toNat + ·) := by
  unfold npRows
  generalize npBound size 0 start = x at *
  generalize npBound size size stop = y at *
  unfold clipTo at *
  have h1 := filter_interval size (max 0 (min x size)).toNat (max 0 (min y size)).toNat (by omega) (by omega)
  rw [show (max 0 (min y ↑size) - max 0 (min x ↑size)).toNat = (max 0 (min y ↑size)).toNat - (max 0 (min x ↑size)).toNat by omega, ← h1]
  apply List.filter_congr
  intro i hi
  have := List.mem_range.mp hi
  simp only [decide_eq_decide]
  omega

theorem npRows_nil (size : Nat) (start stop : Option Int)
    (h : clipTo size (npBound size size stop) ≤ clipTo size (npBound size 0 start)) : npRows size start stop = [] := by
  unfold npRows
  generalize npBound size 0 start = x at *
  generalize npBound size size stop = y at *
  unfold clipTo at *
  rw [List.filter_eq_nil_iff]
  intro i hi
  have := List.mem_range.mp hi
  simp; omega

theorem indices_one (s : PySlice) (size : Nat) (h : s.step.getD 1 = 1) :
    s.indices size = .ok (clipTo size (npBound size 0 s.start), clipTo size (npBound size size s.stop), 1) := by
  unfold PySlice.indices
  simp only [h]
  simp only [show ¬ ((1 : Int) = 0) by omega, show ¬ ((1 : Int) < 0) by omega, if_false, Except.ok.injEq, Prod.mk.injEq, and_true]
  unfold clipTo npBound
  constructor
  · cases s.start with
    | none => simp; omega
    | some x => simp only; split <;> omega
  · cases s.stop with
    | none => simp
    | some x => simp only; split <;> omega

/-! ## Writing -/

theorem pyWrite_holds (h : Holds env K bb w.fs A) (hnf : w.faults = noFaults) (p : Nat) (a : Arr) (mem : Mem) (sw : Nat)
    (hl : A.legal env K (.write p a mem sw)) (hin : p + a.size / K.nm ≤ A.size) :
    ∃ bb' mem' w', pyWrite env bb p a mem w = .ok (.ok (), bb', mem') w' ∧ bb'.basename = bb.basename ∧ w'.faults = noFaults ∧
      (foreign env.m a.dtype = false → mem' = mem) ∧ Holds env K bb' w'.fs (A.next env K (.write p a mem sw)) := by
  obtain ⟨x, bb', w', e, d⟩ := write_step h hnf p a mem sw hl
  have hans := d.ans
  simp only [Content.answers] at hans
  rw [if_pos hin] at hans
  refine ⟨bb', x.mem, w', ?_, d.base, d.faults, hans.2, d.holds⟩
  rw [pyWrite_of_run e, if_neg (by simp [hans.1])]

theorem flatMap_range (g : Nat → List Byte) (n : Nat) : (List.range n).flatMap g = flatN g n := by
  induction n with
  | zero => rfl
  | succ n ih => rw [List.range_succ, List.flatMap_append, ih]; simp [flatN]

/-- A piece of an array-like object in memory. -/
theorem piece_row {a : Arr} {dt : CStr} {inner : List Nat} {n : Nat} {buf : Int} (ha : PyArrOk env a dt n inner K.nm K.w buf)
    (hdt : dtypeNormalize env.m dt = K.dtype) (mem : Mem) (g : Nat → List Byte) (hg : ∀ i, i < n → (g i).length = K.nm * K.w)
    (i : Nat) (hi : i < n) :
    arrayRow env K a (poke mem buf (flatN g n)) K.w i = g i := by
  have hconv : ∀ e, toBlock env K a (poke mem buf (flatN g n)) K.w e =
      some (peek (poke mem buf (flatN g n)) (elemAddr a e) K.w) := by
    intro e
    unfold toBlock
    rw [ha.dtype, hdt]
    exact convElem_same _ _ _ _
  unfold arrayRow rowOfElems
  have h1 : flatN (fun j => (toBlock env K a (poke mem buf (flatN g n)) K.w (i * K.nm + j)).getD []) K.nm =
      flatN (fun j => peek (poke mem buf (flatN g n)) (buf + ((i * (K.nm * K.w) : Nat) : Int) + ((j * K.w : Nat) : Int)) K.w) K.nm := by
    apply flatN_congr
    intro j hj
    have he : i * K.nm + j < n * K.nm := by
      calc i * K.nm + j < i * K.nm + K.nm := by omega
        _ = (i + 1) * K.nm := (Nat.succ_mul _ _).symm
        _ ≤ _ := Nat.mul_le_mul_right _ hi
    rw [hconv, Option.getD_some, ha.addr _ he]
    congr 1
    rw [Nat.add_mul, Nat.mul_assoc]
    omega
  rw [h1, ← peek_flatN, peek_poke_sub, flatN_piece g n _ hg i hi]
  rw [flatN_length g n _ hg, ← Nat.succ_mul]
  exact Nat.mul_le_mul_right _ hi

theorem pyWriteChunks_holds {src : PySource} (hs : SourceOk env K src) (L : Nat) (hL : 0 < L) (buf : Int) (A : Content)
    (hA : A.size = src.size) (base : CStr) (m : Nat) (hm : m = (src.size + L - 1) / L) :
    ∀ (k j : Nat) (bb : Block) (mem : Mem) (w : World), j + k = m → Holds env K bb w.fs (A.upTo src (min (j * L) src.size)) →
      w.faults = noFaults → bb.basename = base →
      ∃ bb' mem' w', pyWriteChunks env src L buf ((List.range' j k).map (· * L)) bb mem w = .ok (.ok (), bb', mem') w' ∧
        w'.faults = noFaults ∧ bb'.basename = base ∧ Holds env K bb' w'.fs (A.upTo src src.size) := by
  intro k
  induction k with
  | zero =>
    intro j bb mem w hj h hnf hb
    refine ⟨bb, mem, w, rfl, hnf, hb, ?_⟩
    have : min (j * L) src.size = src.size := by
      apply Nat.min_eq_right
      rw [show j = (src.size + L - 1) / L by omega]
      have h1 := Nat.div_add_mod (src.size + L - 1) L
      have h2 := Nat.mod_lt (src.size + L - 1) hL
      rw [Nat.mul_comm] at h1
      omega
    rw [this] at h
    exact h
  | succ k ih =>
    intro j bb mem w hj h hnf hb
    have hjL : j * L < src.size := by
      have h1 : j + 1 ≤ (src.size + L - 1) / L := by omega
      have h2 := (Nat.le_div_iff_mul_le hL).mp h1
      rw [Nat.add_mul, Nat.one_mul] at h2
      omega
    have hL' := h.ok.layout
    have hsz : bb.size = src.size := by rw [h.size]; exact hA
    have hnm := h.ok.memb0
    rw [Nat.min_eq_left (by omega)] at h
    generalize hn : min L (src.size - j * L) = n
    have hn0 : 0 < n := by omega
    have hbytes : n * K.nm * K.w < 9223372036854775808 := by
      have h1 := h.ok.offs
      rw [← hL'.size, hsz] at h1
      have h2 : n * (K.w * K.nm) ≤ src.size * (K.w * K.nm) := Nat.mul_le_mul_right _ (by omega)
      rw [Nat.mul_assoc, Nat.mul_comm K.nm K.w]
      omega
    have hsm : src.size < 9223372036854775808 := by
      have := hL'.small
      rw [← hL'.size] at this
      omega
    obtain ⟨a, ea, ha⟩ := pyArr_ok (env := env) (dt := src.dtype) (n := n) (buf := buf) hs.inner hs.item h.ok.item0 hnm hbytes
    have hrw : a.size / K.nm = n := by rw [ha.size, Nat.mul_div_cancel _ hnm]
    have hrow := piece_row ha hs.dtype mem (fun i => src.row (j * L + i)) (fun i hi => hs.rows _ (by omega))
    have hA' : (A.upTo src (j * L)).size = src.size := hA
    obtain ⟨bb', mem', w', e, hb', hnf', _, h'⟩ := pyWrite_holds h hnf (j * L) a (poke mem buf (flatN (fun i => src.row (j * L + i)) n)) K.w
      ⟨by omega, ha.ok hn0, fun _ => ha.disjoint, fun _ e _ => by
        unfold toBlock
        rw [ha.dtype, hs.dtype, convElem_same]
        rfl⟩ (by rw [hrw, hA']; omega)
    have hnext : (A.upTo src (j * L)).next env K (.write (j * L) a (poke mem buf (flatN (fun i => src.row (j * L + i)) n)) K.w) =
        A.upTo src (min ((j + 1) * L) src.size) := by
      simp only [Content.next]
      rw [if_pos (by rw [hrw, hA']; omega), hrw]
      unfold Content.upTo
      dsimp only
      congr 1
      funext r
      have hend : min ((j + 1) * L) src.size = j * L + n := by
        rw [Nat.add_mul, Nat.one_mul]
        omega
      rw [hend]
      by_cases h1 : j * L ≤ r ∧ r < j * L + n
      · rw [if_pos h1, if_pos h1.2, hrow (r - j * L) (by omega)]
        congr 2
        omega
      · rw [if_neg h1]
        by_cases h2 : r < j * L
        · rw [if_pos h2, if_pos (by omega)]
        · rw [if_neg h2, if_neg (by omega)]
    rw [hnext] at h'
    obtain ⟨bb2, mem2, w2, e2, q1, q2, q3⟩ := ih (j + 1) bb' mem' w' (by omega) h' hnf' (hb'.trans hb)
    refine ⟨bb2, mem2, w2, ?_, q1, q2, q3⟩
    rw [List.range'_succ, List.map_cons]
    unfold pyWriteChunks
    simp only [bind]
    rw [hn, ea, flatMap_range]
    simp only [M.bind, M.lift, M.pure]
    rw [e]
    exact e2

theorem pyRange_eq (stop step : Nat) : pyRange stop step = (List.range' 0 ((stop + step - 1) / step)).map (· * step) := by
  unfold pyRange
  rw [List.range_eq_range']

theorem pySizes_length (nfile size : Nat) : (pySizes nfile size).length = nfile := by
  unfold pySizes
  simp

theorem pySizes_sum (n size : Nat) (hn : 0 < n ∨ size = 0) : (pySizes n size).sum = size := by
  unfold pySizes
  rw [range_telescope (fun i => i * size / n) (div_mono_step n size)]
  simp only [Nat.zero_mul, Nat.zero_div, Nat.sub_zero]
  rcases hn with hn | rfl
  · exact Nat.mul_div_cancel_left _ hn
  · simp

end Verif
