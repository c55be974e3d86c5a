import Verif.Model.CreateTool
import Verif.Spec.CreateTool
import Verif.Props.Copy
/-!
# `bigfile-create`: writing through a handle that claims to have more rows
-/

set_option autoImplicit false

namespace Verif

open Spec

variable {env : Env} {K : Kind} {bb : Block} {A : Content} {w : World}

/-! ## One file of any size -/

/-- The handle, with one file of `n` rows. -/
def sized (n : Nat) (b : Block) : Block := { b with fsize := [n], foffset := [0, n], size := n }

/-- The result of a transfer, with one file of `n` rows. -/
def Xfer.sized (n : Nat) (x : Xfer) : Xfer := { x with bb := Verif.sized n x.bb }

/-- The result, when there is one, with one file of `n` rows. -/
def Res.sized (n : Nat) : Res Xfer → Res Xfer
  | .ok x w => .ok (x.sized n) w
  | .crash w => .crash w
  | .ub => .ub
  | .hang => .hang

/-- The same for a computation. -/
def M.sized (n : Nat) (m : M Xfer) : M Xfer := fun w => (m w).sized n

theorem sized_sized (m n : Nat) (b : Block) : Verif.sized m (Verif.sized n b) = Verif.sized m b := rfl

theorem M.sized_bind {α : Type} (n : Nat) (x : M α) (f : α → M Xfer) :
    M.sized n (x >>= f) = x >>= fun a => M.sized n (f a) := by
  funext w
  show ((M.bind x f) w).sized n = (M.bind x _) w
  unfold M.bind
  cases x w <;> rfl

theorem M.lift_none_bind {α β : Type} (f : α → M β) : (M.lift none >>= f) = M.ub := rfl

theorem M.sized_pure (n : Nat) (x : Xfer) : M.sized n (pure x) = pure (x.sized n) := rfl

theorem M.sized_ite (n : Nat) (c : Prop) [Decidable c] (a b : M Xfer) :
    M.sized n (if c then a else b) = if c then M.sized n a else M.sized n b := by
  split <;> rfl

theorem search_one (l : List Nat) (o : Int) : seekSearch l o 2 0 1 = some 0 := rfl

theorem seek_sized (n off : Nat) (b : Block) (p : Ptr) (hb : b.nfile = 1) (hn : 0 < n) (hoff : off ≤ n) (hlt : off < 9223372036854775808) :
    seek (sized n b) p off = some (0, ⟨0, off, off⟩) := by
  have h1 : ¬ ((off : Int) < 0) := by omega
  have h2 : u64 (off : Int) = off := u64_of_nat (by omega)
  have h5 : i64 ((off : Int) - (0 : Nat)) = off := by rw [i64_of_range (by omega) (by omega)]; omega
  have h6 : ¬ (n = 0 ∧ (off : Int) = 0) := by omega
  have h7 : ¬ u64 (off : Int) > n := by rw [h2]; omega
  unfold seek
  rw [if_neg (show ¬ ((sized n b).size = 0 ∧ (off : Int) = 0) from h6), if_neg h1]
  show (if u64 (off : Int) > n then (some (-1, p) : Option (Int × Ptr)) else
    (seekSearch [0, n] (off : Int) (b.nfile + 1) 0 b.nfile).bind fun left => ([0, n][left]?).bind fun fo => some (0, ⟨left, i64 (off - fo), off⟩)) = _
  rw [if_neg h7, hb, search_one]
  show some ((0 : Int), (⟨0, i64 ((off : Int) - (0 : Nat)), off⟩ : Ptr)) = _
  rw [h5]

theorem min_if (c todo m : Nat) (h : todo ≤ m) :
    (if (if c > m then m else c) > todo then todo else (if c > m then m else c)) = if c > todo then todo else c := by
  repeat' split
  all_goals omega

theorem eof_sized (n : Nat) (b : Block) (ro ao : Int) (h0 : 0 ≤ ro) (hlt : ro < 9223372036854775808) :
    eof (sized n b) ⟨0, ro, ao⟩ = some (decide (ro.toNat ≥ n)) := by
  unfold eof
  show some (decide (u64 (i64 (((0 : Nat) : Int) + ro)) ≥ n)) = _
  rw [i64_of_range (by omega) (by omega), u64_nonneg (by omega) (by omega)]
  simp

theorem chunkSize_sized (n C todo : Nat) (b : Block) (ro ao : Int) (h0 : 0 ≤ ro) (hle : ro + todo ≤ n)
    (ht : todo < 18446744073709551616) (hn : n < 18446744073709551616) :
    chunkSize (sized n b) ⟨0, ro, ao⟩ C todo = some (if C > todo then todo else C) := by
  unfold chunkSize
  show some _ = some _
  congr 1
  have h2 : u64 (todo : Int) = todo := u64_of_nat (by omega)
  have h3 : u64 ((n : Int) - ro) = n - ro.toNat := by rw [u64_nonneg (by omega) (by omega)]; omega
  simp only [h2, h3]
  exact min_if C todo (n - ro.toNat) (by omega)

theorem seekRel_sized (n c : Nat) (b : Block) (ro ao : Int) (hb : b.nfile = 1) (hn : 0 < n) (h0 : 0 ≤ ro) (hle : ro + c ≤ n)
    (hlt : ro + c < 9223372036854775808) :
    seekRel (sized n b) ⟨0, ro, ao⟩ c = some (0, ⟨0, ro + c, ro + c⟩) := by
  unfold seekRel
  show seek (sized n b) _ (i64 (((0 : Nat) : Int) + ro + c)) = _
  rw [i64_of_range (by omega) (by omega)]
  have e : ((0 : Nat) : Int) + ro + c = ((ro + c).toNat : Nat) := by omega
  rw [e, seek_sized n _ b _ hb hn (by omega) (by omega)]
  have e2 : (((ro + c).toNat : Nat) : Int) = ro + c := by omega
  rw [e2]

theorem writeLoop_sized (R H : Nat) (hR : R < 9223372036854775808) (hH : R ≤ H) (hH' : H < 18446744073709551616) (fel : Int) (C : Nat) (ca : Arr) : ∀ (fuel : Nat) (b : Block) (ptr : Ptr)
    (it : Iter) (todo : Nat) (mem : Mem), b.nfile = 1 → ptr.fileid = 0 → 0 ≤ ptr.roffset → ptr.roffset + todo ≤ R →
    writeLoop env fel C ca fuel (sized H b) ptr it todo mem =
      M.sized H (writeLoop env fel C ca fuel (sized R b) ptr it todo mem) := by
  intro fuel
  induction fuel with
  | zero => intros; rfl
  | succ fuel ih =>
    intro b ptr it todo mem hb hf h0 hle
    obtain ⟨fid, ro, ao⟩ := ptr
    simp only at hf h0 hle
    subst hf
    unfold writeLoop
    rw [eof_sized _ _ _ _ h0 (by omega), eof_sized _ _ _ _ h0 (by omega)]
    by_cases ht : todo = 0
    · subst ht
      rfl
    · have ht' : (todo : Int) > 0 := by omega
      have hn1 : ¬ ro.toNat ≥ H := by omega
      have hn2 : ¬ ro.toNat ≥ R := by omega
      simp only [ht', hn1, hn2, decide_true, decide_false]
      rw [chunkSize_sized _ _ _ _ _ _ h0 (by omega) (by omega) (by omega),
        chunkSize_sized _ _ _ _ _ _ h0 (by omega) (by omega) (by omega)]
      have hcle : (if C > todo then todo else C) ≤ todo := by split <;> omega
      generalize (if C > todo then todo else C) = c at hcle
      show (M.lift (dtypeConvert env.m env.fo (iterInit env.m ca) it (u64 (c * b.nmemb)) env.junk mem) >>= _) =
        M.sized H (M.lift (dtypeConvert env.m env.fo (iterInit env.m ca) it (u64 (c * b.nmemb)) env.junk mem) >>= _)
      rw [M.sized_bind]
      congr 1
      funext r
      rw [M.sized_ite]
      split
      · rfl
      · rw [M.sized_bind]
        show (M.lift (b.fchecksum[0]?) >>= _) = (M.lift (b.fchecksum[0]?) >>= _)
        congr 1
        funext old
        rw [M.sized_bind]
        show (writeChunk _ 0 _ _ c _ >>= _) = (writeChunk _ 0 _ _ c _ >>= _)
        congr 1
        funext ok
        rw [M.sized_ite]
        split
        · rfl
        · rw [M.sized_bind]
          have e1 := seekRel_sized H c { b with fchecksum := b.fchecksum.set 0 (sysvsum old (peek r.dm 0 (c * fel.toNat))) } ro ao hb (by omega) h0 (by omega) (by omega)
          have e2 := seekRel_sized R c { b with fchecksum := b.fchecksum.set 0 (sysvsum old (peek r.dm 0 (c * fel.toNat))) } ro ao hb (by omega) h0 (by omega) (by omega)
          have := ih { b with fchecksum := b.fchecksum.set 0 (sysvsum old (peek r.dm 0 (c * fel.toNat))) } ⟨0, ro + c, ro + c⟩ r.si (todo - c) r.sm hb rfl (by simp only; omega) (by simp only; omega)
          have e3 : ((todo - c : Nat) : Int) = (todo : Int) - c := by omega
          rw [e3] at this
          refine Eq.trans (b := (M.lift (some ((0 : Int), (⟨0, ro + c, ro + c⟩ : Ptr))) >>= _)) (congrArg (fun z => M.lift z >>= _) e1) ?_
          refine Eq.trans ?_ (congrArg (fun z => M.lift z >>= _) e2.symm)
          exact this

/-- Whether the handle has something to store does not matter to a write. -/
theorem blockWrite_dirty (b : Block) (d : Bool) (p : Ptr) (a : Arr) (mem : Mem) (ha : a.size ≠ 0) :
    blockWrite env { b with dirty := d } p a mem = blockWrite env { b with dirty := true } p a mem := by
  unfold blockWrite blockWriteFuel
  rw [if_neg ha, if_neg ha]

theorem blockWrite_sized (R H off : Nat) (hR : R < 9223372036854775808) (hH : R ≤ H) (hH' : H < 18446744073709551616) (b : Block) (a : Arr) (mem : Mem) (hb : b.nfile = 1)
    (hle : ∀ nm fel C, elemSizes env b = some (nm, fel, C) → off + a.size / u64 nm ≤ R) :
    blockWrite env (sized H b) ⟨0, off, off⟩ a mem = M.sized H (blockWrite env (sized R b) ⟨0, off, off⟩ a mem) := by
  unfold blockWrite blockWriteFuel
  rw [M.sized_ite]
  by_cases h : a.size = 0
  · rw [if_pos h, if_pos h]; rfl
  · rw [if_neg h, if_neg h]
    dsimp only
    show (M.lift (elemSizes env b) >>= _) = M.sized H (M.lift (elemSizes env b) >>= _)
    rw [M.sized_bind]
    cases he : elemSizes env b with
    | none => rw [M.lift_none_bind, M.lift_none_bind]
    | some e =>
      obtain ⟨nm, fel, C⟩ := e
      rw [M.lift_some_bind, M.lift_some_bind]
      have hle := hle nm fel C he
      have ht : i64 ((a.size / u64 nm : Nat) : Int) = ((a.size / u64 nm : Nat) : Int) := by
        generalize a.size / u64 nm = t at hle
        exact i64_of_range (by omega) (by omega)
      dsimp only [sized]
      rw [ht]
      generalize a.size / u64 nm = t at hle ht
      rw [M.sized_bind]
      refine bind_congr fun ca => ?_
      have hu : u64 (i64 ((0 : Nat) + (off : Int) + (t : Int))) = off + t := by
        rw [i64_of_range (by omega) (by omega), u64_nonneg (by omega) (by omega)]
        omega
      have e0 : ([0, H] : List Nat)[0]? = some 0 := rfl
      have e1 : ([0, R] : List Nat)[0]? = some 0 := rfl
      rw [e0, e1, M.lift_some_bind, M.lift_some_bind, hu]
      refine Eq.trans (if_neg (by omega)) (Eq.trans ?_ (congrArg (M.sized H) (if_neg (by omega)).symm))
      exact writeLoop_sized R H hR hH hH' fel C ca (loopFuel a) { b with dirty := true } ⟨0, off, off⟩ (iterInit env.m a) t mem hb rfl
        (by simp only; omega) (by simp only; omega)

/-! ## One round -/

theorem mem_row (mem : Mem) (buf : Int) (bytes : List Byte) (K : Kind) (n i : Nat) (dt : CStr)
    (hk : dtypeNormalize env.m dt = K.dtype) (hi : i < n) (hl : n * (K.w * K.nm) ≤ bytes.length) :
    arrayRow env K (freshArr env.m dt n K.nm K.w buf) (poke mem buf bytes) K.w i = streamRow bytes (K.w * K.nm) i := by
  have h1 : (i + 1) * (K.w * K.nm) ≤ n * (K.w * K.nm) := Nat.mul_le_mul_right _ hi
  rw [Nat.add_mul, Nat.one_mul] at h1
  have hlen : (streamRow bytes (K.w * K.nm) i).length = K.nm * K.w := by
    unfold streamRow
    rw [List.length_take, List.length_drop, Nat.mul_comm K.nm]
    omega
  unfold arrayRow rowOfElems
  rw [← flatN_slices (streamRow bytes (K.w * K.nm) i) K.w K.nm hlen]
  apply flatN_congr
  intro j hj
  have he : i * K.nm + j < n * K.nm := by
    have := Nat.mul_le_mul_right K.nm (show i + 1 ≤ n from hi)
    rw [Nat.add_mul] at this
    omega
  have h2 : (j + 1) * K.w ≤ K.nm * K.w := Nat.mul_le_mul_right _ hj
  rw [Nat.add_mul, Nat.one_mul, Nat.mul_comm K.nm] at h2
  have h3 : (i * K.nm + j) * K.w = i * (K.w * K.nm) + j * K.w := by rw [Nat.add_mul, Nat.mul_assoc, Nat.mul_comm K.nm]
  unfold toBlock
  dsimp only
  rw [freshArr_addr _ _ _ _ _ _ _ he, h3, peek_poke_sub _ _ _ _ _ (by omega)]
  show (convElem env.m env.fo K.dtype (dtypeNormalize env.m dt) _).getD [] = _
  rw [hk, convElem_same]
  show (bytes.drop (i * (K.w * K.nm) + j * K.w)).take K.w = ((((bytes.drop (i * (K.w * K.nm))).take (K.w * K.nm)).drop (j * K.w))).take K.w
  rw [List.drop_take, List.take_take, List.drop_drop, Nat.min_eq_left (by omega)]

/-- `n` rows are taken from the memory and written to rows `off, ...`. -/
theorem stream_chunk {s : Block} {B : Content} (hd : Holds env K s w.fs B) (hnf : w.faults = noFaults) (off n : Nat) (hn0 : 0 < n)
    (hoff : off + n ≤ B.size) (buf : Int) (mem : Mem) (bytes : List Byte) (hl : n * (K.w * K.nm) ≤ bytes.length)
    (q : Ptr) (hq : seek s ⟨0, 0, 0⟩ off = some (0, q)) :
    ∃ x w2, blockWrite env s q (freshArr env.m s.dtype n K.nm K.w buf) (poke mem buf bytes) w = .ok x w2 ∧ x.rc = 0 ∧
      w2.faults = noFaults ∧ SameShape s x.bb ∧ x.bb.attrset = s.attrset ∧ SameOutside s.basename w.fs w2.fs ∧
      Holds env K x.bb w2.fs { B with
        rows := fun r => if off ≤ r ∧ r < off + n then some (streamRow bytes (K.w * K.nm) (r - off)) else B.rows r } ∧
      x.bb.dirty = true := by
  have hbs := hd.size
  have hlay := hd.ok.layout.small
  have hls := hd.ok.layout.size
  have hbytes : n * K.nm * K.w < 9223372036854775808 := by
    have h1 := hd.ok.offs
    have h3 : n * (K.w * K.nm) ≤ s.fsize.sum * (K.w * K.nm) := Nat.mul_le_mul_right _ (by omega)
    rw [Nat.mul_assoc, Nat.mul_comm K.nm]
    omega
  have hrows : (freshArr env.m s.dtype n K.nm K.w buf).size / K.nm = n := freshArr_rows _ _ _ _ _ _ hd.ok.memb0
  have hx := hd.ok.fresh s.dtype n K.w buf hn0 hd.ok.item hd.ok.item0 hbytes
  have hao : ArrayOk env (freshArr env.m s.dtype n K.nm K.w buf) K.w := ⟨hx.arr, hx.asize, hx.anorm, hx.aitem, hx.aitem0, hx.abytes⟩
  have hconv : ∀ e, (toBlock env K (freshArr env.m s.dtype n K.nm K.w buf) (poke mem buf bytes) K.w e).isSome = true := by
    intro e
    unfold toBlock
    show (convElem env.m env.fo K.dtype (dtypeNormalize env.m s.dtype) _).isSome = true
    rw [hd.kind, convElem_same]
    rfl
  have hlegal : B.legal env K (.write off (freshArr env.m s.dtype n K.nm K.w buf) (poke mem buf bytes) K.w) :=
    ⟨by omega, hao, fun _ => freshArr_disjoint _ _ _ _ _ _, fun _ e _ => hconv e⟩
  obtain ⟨ans, bn', w2, e2, st⟩ := write_step hd hnf off _ (poke mem buf bytes) K.w hlegal
  have hin : off + (freshArr env.m s.dtype n K.nm K.w buf).size / K.nm ≤ B.size := by rw [hrows]; omega
  have hpt : PointsTo s q off := by
    obtain ⟨q', hq', hpt⟩ := (seek_row hd.ok.layout off (by omega)).1 (by rw [hd.size]; omega)
    rw [hq] at hq'
    injection hq' with hq'
    injection hq' with _ hq'
    rw [hq']
    exact hpt
  have hw : LegalWrite env s q (freshArr env.m s.dtype n K.nm K.w buf) (poke mem buf bytes) off K.w K.w K.nm
      (fun e => (toBlock env K (freshArr env.m s.dtype n K.nm K.w buf) (poke mem buf bytes) K.w e).getD []) := by
    refine ⟨hao.xferOk hd.ok, fun _ => freshArr_disjoint _ _ _ _ _ _, hpt, by rw [hd.size]; exact hin, fun e he => ?_⟩
    obtain ⟨b, hb⟩ := Option.isSome_iff_exists.mp (hconv e)
    show _ = some ((toBlock env K (freshArr env.m s.dtype n K.nm K.w buf) (poke mem buf bytes) K.w e).getD [])
    rw [hb, hd.kind]
    exact hb
  obtain ⟨x, w3, e3, d⟩ := wpc_returns (hw.spec w) (fun _ hc => hc.2 hnf)
  have hrun : runBOp env s (.write off (freshArr env.m s.dtype n K.nm K.w buf) (poke mem buf bytes) K.w) w = .ok (⟨x.rc, x.mem, none⟩, x.bb) w3 := by
    unfold runBOp
    show M.bind (M.lift _) _ w = _
    rw [hq]
    show M.bind (blockWrite env s q _ _) _ w = _
    unfold M.bind
    rw [e3]
    rfl
  rw [hrun] at e2
  injection e2 with e2 e2'
  injection e2 with e2 e2''
  subst e2' e2''
  have hrc := d.succeeds hnf hd.data
  refine ⟨x, w3, e3, hrc, st.faults, d.shape, d.attrs, ?_, ?_, d.dirty⟩
  · exact wlp_ok (blockWrite_touches env _ s q _ _ w) e3
  · have hnx : B.next env K (.write off (freshArr env.m s.dtype n K.nm K.w buf) (poke mem buf bytes) K.w) = { B with
        rows := fun r => if off ≤ r ∧ r < off + n then some (streamRow bytes (K.w * K.nm) (r - off)) else B.rows r } := by
      simp only [Content.next]
      rw [if_pos hin, hrows]
      congr 1
      funext r
      by_cases hr : off ≤ r ∧ r < off + n
      · rw [if_pos hr, if_pos hr, mem_row mem buf bytes K n (r - off) s.dtype hd.kind (by omega) hl]
      · rw [if_neg hr, if_neg hr]
    rw [← hnx]
    exact st.holds

theorem sized_self {R : Nat} {s : Block} (h1 : s.fsize = [R]) (h2 : s.foffset = [0, R]) (h3 : s.size = R) : sized R s = s := by
  cases s
  simp only at h1 h2 h3
  subst h1 h2 h3
  rfl

/-- The handle that the program has, while the block will have `R` rows: one file of that size. -/
structure OneFile (R : Nat) (s : Block) : Prop where
  fsize : s.fsize = [R]
  foffset : s.foffset = [0, R]
  size : s.size = R
  nfile : s.nfile = 1
  dirty : s.dirty = true

theorem OneFile.keep {R : Nat} {s s' : Block} (h : OneFile R s) (hs : SameShape s s') (hd : s'.dirty = true) : OneFile R s' :=
  ⟨hs.fsize.trans h.fsize, hs.foffset.trans h.foffset, hs.size.trans h.size, hs.nfile.trans h.nfile, hd⟩

theorem stream_rest (input : List Byte) (n off k c : Nat) (hk : k * n + n ≤ c) :
    streamRow ((input.drop (off * n)).take c) n k = streamRow input n (off + k) := by
  unfold streamRow
  rw [List.drop_take, List.take_take, List.drop_drop, Nat.add_mul, Nat.min_eq_left (by omega)]

/-- The block after `off` rows. -/
def upTo (input : List Byte) (n off : Nat) (B : Content) : Content :=
  { B with rows := fun r => if r < off then some (streamRow input n r) else none }

theorem createLoop_spec (input : List Byte) (chunk R H : Nat) (hRH : R ≤ H) (hH : H < 18446744073709551616) (hc : 0 < chunk)
    (hR : R = input.length / (K.w * K.nm)) (hR0 : 0 < R) (hin : input.length < 9223372036854775808) (buf : Int) (B0 : Content)
    (hB : B0.size = R) :
    ∀ (fuel : Nat) (s : Block) (d : Bool) (ptr : Option Ptr) (off : Nat) (mem : Mem) (w : World),
    input.length - off * (K.w * K.nm) < fuel → off ≤ R → (0 < off → d = true) → OneFile R s → w.faults = noFaults →
    Holds env K s w.fs (upTo input (K.w * K.nm) off B0) →
    ∃ s' w', createLoop env (K.w * K.nm) chunk buf fuel { sized H s with dirty := d } ptr off (input.drop (off * (K.w * K.nm))) mem w =
        .ok (sized H s', R) w' ∧ OneFile R s' ∧ s'.basename = s.basename ∧ w'.faults = noFaults ∧ SameOutside s.basename w.fs w'.fs ∧
      Holds env K s' w'.fs (upTo input (K.w * K.nm) R B0) := by
  intro fuel
  induction fuel with
  | zero => intro s d ptr off mem w h; omega
  | succ fuel ih =>
    intro s d ptr off mem w hf hle hd h1 hnf hs
    have hrb0 : 0 < K.w * K.nm := Nat.mul_pos hs.ok.item0 hs.ok.memb0
    have hRle : R * (K.w * K.nm) ≤ input.length := by rw [hR]; exact Nat.div_mul_le_self _ _
    have hR63 : R < 9223372036854775808 := by
      have := Nat.le_mul_of_pos_right R hrb0
      omega
    have hoffle : off * (K.w * K.nm) ≤ R * (K.w * K.nm) := Nat.mul_le_mul_right _ hle
    generalize hrb : K.w * K.nm = rb at *
    generalize hbytes : (input.drop (off * rb)).take (rb * chunk) = bytes
    have hblen : bytes.length = min (rb * chunk) (input.length - off * rb) := by
      rw [← hbytes, List.length_take, List.length_drop]
    generalize hn : bytes.length / rb = n
    have hnle : n * rb ≤ bytes.length := by rw [← hn]; exact Nat.div_mul_le_self _ _
    have hnR : off + n ≤ R := by
      rw [hR, Nat.le_div_iff_mul_le hrb0, Nat.add_mul]
      omega
    have hseek : seek { sized H s with dirty := d } (ptr.getD ⟨0, 0, 0⟩) off = some (0, ⟨0, off, off⟩) :=
      seek_sized H off { s with dirty := d } _ h1.nfile (by omega) (by omega) (by omega)
    have hseeks : seek s ⟨0, 0, 0⟩ off = some (0, ⟨0, off, off⟩) := by
      have := seek_sized R off s ⟨0, 0, 0⟩ h1.nfile hR0 hle (by omega)
      rw [sized_self h1.fsize h1.foffset h1.size] at this
      exact this
    have hinit : arrayInit env.m buf ({ sized H s with dirty := d } : Block).dtype [n, u64 ({ sized H s with dirty := d } : Block).nmemb] none =
        some (freshArr env.m s.dtype n K.nm K.w buf) := by
      refine hs.ok.freshInit s.dtype n K.w buf hs.ok.item hs.ok.item0 ?_
      rw [Nat.mul_assoc, Nat.mul_comm K.nm, hrb]
      omega
    have key : ∃ x y w2, blockWrite env { sized H s with dirty := d } ⟨0, off, off⟩ (freshArr env.m s.dtype n K.nm K.w buf) (poke mem buf bytes) w = .ok x w2 ∧
        x.bb = { sized H y with dirty := if n = 0 then d else true } ∧ OneFile R y ∧ y.basename = s.basename ∧ w2.faults = noFaults ∧
        SameOutside s.basename w.fs w2.fs ∧ Holds env K y w2.fs (upTo input rb (off + n) B0) := by
      by_cases hn0 : n = 0
      · subst hn0
        refine ⟨⟨0, { sized H s with dirty := d }, ⟨0, off, off⟩, poke mem buf bytes⟩, s, w, ?_, by rw [if_pos rfl], h1, rfl, hnf,
          SameOutside.refl _ _, hs⟩
        unfold blockWrite blockWriteFuel
        rw [if_pos (by simp [freshArr])]
        rfl
      · obtain ⟨x, w2, e, hrc, nf2, hsh, hat, ho, hh, hdx⟩ := stream_chunk hs hnf off n (by omega) (by rw [show (upTo input rb off B0).size = R from hB]; exact hnR) buf mem bytes
          (by rw [hrb]; exact hnle) _ hseeks
        have hone := h1.keep hsh hdx
        have hsz : (freshArr env.m s.dtype n K.nm K.w buf).size ≠ 0 := by
          show n * K.nm ≠ 0
          exact Nat.mul_ne_zero hn0 (by have := hs.ok.memb0; omega)
        have hes := (hs.ok.fresh s.dtype n K.w buf (by omega) hs.ok.item hs.ok.item0 (by
          rw [Nat.mul_assoc, Nat.mul_comm K.nm, hrb]; omega)).elemSizes
        have hbig := blockWrite_sized (env := env) R H off hR63 hRH hH s (freshArr env.m s.dtype n K.nm K.w buf) (poke mem buf bytes) h1.nfile (by
          intro nm fel C he
          rw [hes] at he
          injection he with he
          injection he with he _
          rw [← he, u64_of_nat (by have := hs.ok.nm_lt; omega)]
          show off + n * K.nm / K.nm ≤ R
          rw [Nat.mul_div_cancel _ hs.ok.memb0]
          exact hnR)
        rw [sized_self h1.fsize h1.foffset h1.size] at hbig
        refine ⟨x.sized H, x.bb, w2, ?_, ?_, hone, hsh.base, nf2, ho, ?_⟩
        · rw [blockWrite_dirty (sized H s) d _ _ _ hsz]
          have : ({ sized H s with dirty := true } : Block) = sized H s := by
            have := h1.dirty
            cases s
            simp only at this
            subst this
            rfl
          rw [this, hbig]
          show Res.sized H (blockWrite env s _ _ _ w) = _
          rw [e]
          rfl
        · rw [if_neg hn0]
          show sized H x.bb = _
          generalize x.bb = y at hdx
          cases y
          simp only at hdx
          subst hdx
          rfl
        · refine Eq.mp ?_ hh
          congr 1
          unfold upTo
          dsimp only
          congr 1
          funext r
          by_cases hr : r < off
          · rw [if_neg (by omega), if_pos hr, if_pos (by omega)]
          · by_cases hr2 : r < off + n
            · rw [if_pos ⟨by omega, hr2⟩, if_pos hr2, hrb, ← hbytes, stream_rest, show off + (r - off) = r by omega]
              have : (r - off + 1) * rb ≤ n * rb := Nat.mul_le_mul_right _ (by omega)
              rw [Nat.add_mul, Nat.one_mul] at this
              omega
            · rw [if_neg (by omega), if_neg hr, if_neg hr2]
    obtain ⟨x, y, w2, e, hxb, hone, hbase, nf2, ho, hh⟩ := key
    have hfr : freadIn rb chunk (input.drop (off * rb)) = ⟨n, bytes, (input.drop (off * rb)).drop (rb * chunk), decide ((input.drop (off * rb)).length < rb * chunk)⟩ := by
      unfold freadIn
      rw [hbytes, hn]
    unfold createLoop
    rw [hfr]
    dsimp only
    rw [hinit, hseek, M.lift_some_bind, M.lift_some_bind]
    simp only [ne_eq, not_true_eq_false, false_and, if_false]
    show ∃ s' w', (M.bind (blockWrite env _ _ _ _) _) w = _ ∧ _
    unfold M.bind
    rw [e]
    simp only [List.length_drop]
    by_cases heof : input.length - off * rb < rb * chunk
    · have hend : off + n = R := by
        have hb : bytes.length = input.length - off * rb := by omega
        rw [hR, ← hn, hb]
        have h3 := Nat.add_mul_div_right (input.length - off * rb) off hrb0
        rw [Nat.sub_add_cancel (by omega)] at h3
        omega
      refine ⟨y, w2, ?_, hone, hbase, nf2, ho, by rw [← hend]; exact hh⟩
      rw [if_pos (by simpa using heof), hend, hxb]
      have hdt : (if n = 0 then d else true) = true := by
        split
        · exact hd (by omega)
        · rfl
      rw [hdt]
      show Res.ok _ _ = _
      congr 2
      have := hone.dirty
      generalize y = z at this
      cases z
      simp only at this
      subst this
      rfl
    · rw [if_neg (by simpa using heof)]
      have hb : bytes.length = rb * chunk := by omega
      have hnc : n = chunk := by rw [← hn, hb, Nat.mul_div_cancel_left _ hrb0]
      have hpos : 0 < rb * chunk := Nat.mul_pos hrb0 hc
      have hoc : (off + n) * rb = off * rb + rb * chunk := by rw [Nat.add_mul, hnc, Nat.mul_comm chunk]
      obtain ⟨s', w', k1, k2, k3, k4, k5, k6⟩ := ih y true (some x.ptr) (off + n) x.mem w2 (by rw [hoc]; omega) hnR (fun _ => rfl) hone nf2 hh
      refine ⟨s', w', ?_, k2, k3.trans hbase, k4, ?_, k6⟩
      · rw [hxb, if_neg (by omega), List.drop_drop, ← hoc]
        exact k1
      · rw [hbase] at k5
        exact ho.trans k5

end Verif
