import Verif.Spec.PyMpi
import Verif.Proof.AggWrite
import Verif.Proof.Phases
import Verif.Proof.WriteOps
import Verif.Proof.Python
import Verif.Proof.Shared
import Verif.Props.CopyFiles
/-!
# Distributed arrays
-/

set_option autoImplicit false

namespace Verif

open Spec

variable {env : Env} {K : Kind} {A : Content} {bb : Block} {w : World} {n : Nat} {H : Nat → Block} {src : Nat → PySource}

/-! ## Rows -/

/-- The rows of an array from row `i` on. -/
def srcRows (src : PySource) (i : Nat) : List (List Byte) := (List.range (src.size - i)).map fun k => src.row (i + k)

theorem srcRows_split (src : PySource) (i n : Nat) (h : i + n ≤ src.size) :
    srcRows src i = (List.range n).map (fun k => src.row (i + k)) ++ srcRows src (i + n) := by
  unfold srcRows
  rw [show src.size - i = n + (src.size - (i + n)) by omega, List.range_add, List.map_append, List.map_map]
  congr 1
  apply List.map_congr_left
  intro k _
  show src.row (i + (n + k)) = _
  rw [Nat.add_assoc]

theorem srcRows_length (src : PySource) (i : Nat) : (srcRows src i).length = src.size - i := by
  unfold srcRows
  simp

theorem joinedRows_succ (n : Nat) (src : Nat → PySource) : joinedRows (n + 1) src = joinedRows n src ++ srcRows (src n) 0 := by
  unfold joinedRows srcRows
  rw [List.range_succ, List.flatMap_append]
  simp

theorem joinedRows_length (n : Nat) (src : Nat → PySource) : (joinedRows n src).length = ((List.range n).map fun r => (src r).size).sum := by
  induction n with
  | zero => rfl
  | succ n ih =>
    rw [joinedRows_succ, List.length_append, ih, srcRows_length, List.range_succ, List.map_append, List.sum_append]
    simp

theorem pyOffset_eq {n r : Nat} (src : Nat → PySource) (hr : r ≤ n) : pyOffset n src r = (joinedRows r src).length := by
  unfold pyOffset
  rw [joinedRows_length, ← List.map_take, List.take_range, Nat.min_eq_left hr]

theorem joinedRows_le {m n : Nat} (src : Nat → PySource) (h : m ≤ n) : (joinedRows m src).length ≤ (joinedRows n src).length := by
  induction n with
  | zero =>
    have : m = 0 := by omega
    subst this; exact Nat.le_refl _
  | succ n ih =>
    by_cases hm : m = n + 1
    · subst hm; exact Nat.le_refl _
    · have := ih (by omega)
      rw [joinedRows_succ, List.length_append]
      omega

/-! ## What a process has done -/

/-- From `nd` to `nd'`, and from the handle `bb` to `bb'`, the rows `l` were written from row `off` on. -/
structure Wrote (m : Machine) (bb bb' : Block) (off : Nat) (l : List (List Byte)) (nd nd' : Nodes) : Prop where
  shape : SameShape bb bb'
  layout : Layout bb'
  attrs : bb'.attrset = bb.attrset
  dirty : bb'.dirty = (bb.dirty || !l.isEmpty)
  sums : ∀ f, bb'.fchecksum.getD f 0 % 4294967296 =
    (bb.fchecksum.getD f 0 + rowsSum bb off (fun i => l.getD i []) f l.length) % 4294967296
  nodes : nd' = putList m bb off l nd

theorem Wrote.refl {m : Machine} (hl : Layout bb) (off : Nat) (nd : Nodes) : Wrote m bb bb off [] nd nd :=
  ⟨.rfl' _, hl, rfl, by simp, fun f => by simp [rowsSum], rfl⟩

theorem rowsSum_append (bb : Block) (off f : Nat) (l l' : List (List Byte)) :
    rowsSum bb off (fun i => (l ++ l').getD i []) f (l ++ l').length =
      rowsSum bb off (fun i => l.getD i []) f l.length + rowsSum bb (off + l.length) (fun i => l'.getD i []) f l'.length := by
  rw [List.length_append, rowsSum_add]
  congr 1
  · apply rowsSum_congr
    intro i hi
    simp [List.getD_eq_getElem?_getD, List.getElem?_append_left hi]
  · apply rowsSum_congr
    intro i hi
    simp [List.getD_eq_getElem?_getD, List.getElem?_append_right]

theorem putList_shape {m : Machine} {b b' : Block} (hs : SameShape b b') (off : Nat) (l : List (List Byte)) (nd : Nodes) :
    putList m b' off l nd = putList m b off l nd := by
  unfold putList
  rw [hs.putRows]

theorem Wrote.trans {m : Machine} {b1 b2 : Block} {off : Nat} {l l' : List (List Byte)} {nd nd1 nd2 : Nodes}
    (h : Wrote m bb b1 off l nd nd1) (g : Wrote m b1 b2 (off + l.length) l' nd1 nd2) : Wrote m bb b2 off (l ++ l') nd nd2 := by
  refine ⟨h.shape.trans' g.shape, g.layout, g.attrs.trans h.attrs, ?_, fun f => ?_, ?_⟩
  · rw [g.dirty, h.dirty]
    cases l <;> cases l' <;> simp
  · have h1 := h.sums f
    have h2 := g.sums f
    rw [h.shape.rowsSum] at h2
    rw [rowsSum_append]
    omega
  · rw [g.nodes, h.nodes, putList_append, putList_shape h.shape]

/-! ## One process at a time -/

/-- A process writes one piece while the others wait. -/
theorem piece_alone {sc : PySource} (hs : SourceOk env K sc) (hb : BlockOk env bb K.w K.nm) (hk : dtypeNormalize env.m bb.dtype = K.dtype)
    {α : Type} {r i c off : Nat} (hr : r < n) (hc : 0 < c) (hi : i + c ≤ sc.size) (hin : off + sc.size ≤ bb.size) (buf : Int) (mem : Mem)
    {s : Conf α} {t : Nat} (k : Except PyExc Unit × Block × Mem → Prog α) (hd : DataFiles ⟨s.nodes, []⟩ bb)
    (ht : s.thr r = ⟨(Prog.bind (Prog.lift (pyArr env.m sc.dtype c sc.inner buf)) fun a =>
      (pyWriteP env bb ((off + i : Nat) : Int) a (poke mem buf ((List.range c).flatMap fun k => sc.row (i + k))))).bind k, t⟩) :
    ∃ es bb' mem' t' nd', Run faultless n s es (s.put r ⟨k (.ok (), bb', mem'), t'⟩ nd') ∧
      (∀ e ∈ es, ∃ op f, e = .file r op f ∧ WriteIn env.m bb off sc.size op) ∧
      Wrote env.m bb bb' (off + i) ((List.range c).map fun k => sc.row (i + k)) s.nodes nd' := by
  have hL := hb.layout
  have hnm := hb.memb0
  have hbytes : c * K.nm * K.w < 9223372036854775808 := by
    have h1 := hb.offs
    rw [← hL.size] at h1
    have h2 : c * (K.w * K.nm) ≤ bb.size * (K.w * K.nm) := Nat.mul_le_mul_right _ (by omega)
    rw [Nat.mul_assoc, Nat.mul_comm K.nm K.w]
    omega
  obtain ⟨a, ea, ha⟩ := pyArr_ok (env := env) (dt := sc.dtype) (n := c) (buf := buf) hs.inner hs.item hb.item0 hnm hbytes
  have hrw : a.size / K.nm = c := by rw [ha.size, Nat.mul_div_cancel _ hnm]
  have hrow := piece_row ha hs.dtype mem (fun k => sc.row (i + k)) (fun k hk => hs.rows _ (by omega))
  have hsm := hL.small
  have hsz := hL.size
  obtain ⟨q, hq, hpt⟩ := (seek_row hL (off + i) (by omega)).1 (by omega)
  rw [flatMap_range] at ht
  generalize hmem : poke mem buf (flatN (fun k => sc.row (i + k)) c) = mem0 at *
  have hX : XferOk env bb a K.w K.w K.nm := (ha.ok hc).xferOk hb
  have hw : LegalWrite env bb q a mem0 (off + i) K.w K.w K.nm (fun e => (toBlock env K a mem0 K.w e).getD []) := by
    refine ⟨hX, fun _ => ha.disjoint, hpt, by rw [hrw]; omega, fun e _ => ?_⟩
    unfold toBlock
    rw [hk, ha.dtype, hs.dtype, convElem_same]
    rfl
  obtain ⟨x, w1, e1, d⟩ := wpc_returns (hw.spec ⟨⟨s.nodes, []⟩, noFaults, t⟩) (fun _ hc => hc.2 rfl)
  have hrc := d.succeeds rfl hd
  obtain ⟨hfs, _, _⟩ := d.done hrc
  have hops := blockWriteP_ops env bb a K.w K.w K.nm hX q (off + i) mem0 hpt (by rw [← hsz, hrw]; omega)
  rw [← interp_blockWrite] at e1
  have ht' : s.thr r = ⟨(blockWriteP env bb q a mem0).bind fun x =>
      (if x.rc ≠ 0 then pure (.error .error, x.bb, x.mem) else pure (.ok (), x.bb, x.mem) : Prog _).bind k, t⟩ := by
    rw [ht, ea]
    congr 1
    show ((pyWriteP env bb ((off + i : Nat) : Int) a mem0)).bind k = _
    unfold pyWriteP
    rw [hq]
    show (Prog.bind (blockWriteP env bb q a mem0) fun x =>
      (if x.rc ≠ 0 then pure (.error .error, x.bb, x.mem) else pure (.ok (), x.bb, x.mem) : Prog _)).bind k = _
    exact Prog.bind_assoc _ _ _
  obtain ⟨_, es, hrun, hev⟩ := run_alone (F := faultless) hr e1 hops ht' rfl rfl
  refine ⟨es, x.bb, x.mem, w1.clock, w1.fs.node, ?_, fun e he => ?_, ?_⟩
  · have hk' : (fun x : Xfer => (if x.rc ≠ 0 then pure (.error .error, x.bb, x.mem) else pure (.ok (), x.bb, x.mem) : Prog _).bind k) x =
        k (.ok (), x.bb, x.mem) := by
      dsimp only
      rw [if_neg (by simp [hrc])]
      rfl
    rw [← hk']
    exact hrun
  · obtain ⟨op, t', rfl, hop⟩ := hev e he
    exact ⟨op, _, rfl, hop.sub (by omega) (by rw [hrw]; omega)⟩
  · have hrows : ∀ j, j < c → rowOfElems (fun e => (toBlock env K a mem0 K.w e).getD []) K.nm j =
        ((List.range c).map fun k => sc.row (i + k)).getD j [] := by
      intro j hj
      rw [List.getD_eq_getElem?_getD, List.getElem?_map, List.getElem?_range hj]
      exact hrow j hj
    refine ⟨d.shape, d.layout, d.attrs, ?_, fun f => ?_, ?_⟩
    · rw [d.dirty]
      cases c with
      | zero => omega
      | succ c => simp [List.range_succ]
    · rw [d.cksum hrc f, hrw, Nat.mod_mod, List.length_map, List.length_range, rowsSum_congr (fun j hj => hrows j hj)]
    · rw [hfs, hrw]
      unfold putList
      rw [List.length_map, List.length_range, putRows_congr (fun j hj => hrows j hj)]

theorem dataFiles_putList {m : Machine} {off : Nat} {l : List (List Byte)} {nd : Nodes} (h : DataFiles ⟨nd, []⟩ bb) :
    DataFiles ⟨putList m bb off l nd, []⟩ bb := by
  intro f hf
  have := (isFile_putRows m bb ⟨nd, []⟩ off (fun i => l.getD i []) l.length _).mpr (h f hf)
  exact this

/-- A process runs its loop while the others wait. -/
theorem chunks_alone {sc : PySource} (hs : SourceOk env K sc) {α : Type} {r off L : Nat} (hr : r < n) (hL : 0 < L) (buf : Int) (m : Nat)
    (hm : m = (sc.size + L - 1) / L) (k : Except PyExc Unit × Block × Mem → Prog α) :
    ∀ (c j : Nat) (bb : Block) (mem : Mem) (s : Conf α) (t : Nat), j + c = m → BlockOk env bb K.w K.nm →
      dtypeNormalize env.m bb.dtype = K.dtype → off + sc.size ≤ bb.size → DataFiles ⟨s.nodes, []⟩ bb →
      s.thr r = ⟨(pyChunksP env sc L off buf ((List.range' j c).map (· * L)) bb mem).bind k, t⟩ →
      ∃ es bb' mem' t' nd', Run faultless n s es (s.put r ⟨k (.ok (), bb', mem'), t'⟩ nd') ∧
        (∀ e ∈ es, ∃ op f, e = .file r op f ∧ WriteIn env.m bb off sc.size op) ∧
        Wrote env.m bb bb' (off + min (j * L) sc.size) (srcRows sc (min (j * L) sc.size)) s.nodes nd' := by
  intro c
  induction c with
  | zero =>
    intro j bb mem s t hj hb _ _ _ ht
    have : min (j * L) sc.size = sc.size := by
      apply Nat.min_eq_right
      rw [show j = (sc.size + L - 1) / L by omega]
      have h1 := Nat.div_add_mod (sc.size + L - 1) L
      have h2 := Nat.mod_lt (sc.size + L - 1) hL
      rw [Nat.mul_comm] at h1
      omega
    refine ⟨[], bb, mem, t, s.nodes, ?_, by simp, ?_⟩
    · have ht' : s.thr r = ⟨k (.ok (), bb, mem), t⟩ := ht
      rw [s.put_same r _ _ ht' rfl]
      exact .nil s
    · rw [this]
      have : srcRows sc sc.size = [] := by unfold srcRows; simp
      rw [this]
      exact .refl hb.layout _ _
  | succ c ih =>
    intro j bb mem s t hj hb hk hin hd ht
    have hjL : j * L < sc.size := by
      have h1 : j + 1 ≤ (sc.size + L - 1) / L := by omega
      have h2 := (Nat.le_div_iff_mul_le hL).mp h1
      rw [Nat.add_mul, Nat.one_mul] at h2
      omega
    generalize hn : min L (sc.size - j * L) = q
    have hend : min ((j + 1) * L) sc.size = j * L + q := by
      rw [Nat.add_mul, Nat.one_mul]
      omega
    let k' : Except PyExc Unit × Block × Mem → Prog α := fun x => (match x.1 with
      | .error e => (pure (.error e, x.2.1, x.2.2) : Prog (Except PyExc Unit × Block × Mem))
      | .ok () => pyChunksP env sc L off buf ((List.range' (j + 1) c).map (· * L)) x.2.1 x.2.2).bind k
    have ht' : s.thr r = ⟨(Prog.bind (Prog.lift (pyArr env.m sc.dtype q sc.inner buf)) fun a =>
      (pyWriteP env bb ((off + j * L : Nat) : Int) a (poke mem buf ((List.range q).flatMap fun k => sc.row (j * L + k))))).bind k', t⟩ := by
      rw [ht, List.range'_succ, List.map_cons]
      congr 1
      show ((Prog.lift (pyArr env.m sc.dtype (min L (sc.size - j * L)) sc.inner buf)).bind fun a =>
        (pyWriteP env bb ((off + j * L : Nat) : Int) a
          (poke mem buf ((List.range (min L (sc.size - j * L))).flatMap fun k => sc.row (j * L + k)))).bind _).bind k = _
      rw [hn, Prog.bind_assoc, Prog.bind_assoc]
      congr 1
      funext a
      rw [Prog.bind_assoc]
      congr 1
    obtain ⟨es1, b1, m1, t1, nd1, hr1, he1, w1⟩ := piece_alone hs hb hk hr (by omega : 0 < q) (by omega) hin buf mem k' hd ht'
    have hs1 := w1.shape
    obtain ⟨es2, b2, m2, t2, nd2, hr2, he2, w2⟩ := ih (j + 1) b1 m1 (s.put r ⟨k' (.ok (), b1, m1), t1⟩ nd1) t1 (by omega)
      (hb.shape hs1 w1.layout) (by rw [hs1.dtype]; exact hk) (by rw [hs1.size]; exact hin)
      ((hs1.dataFiles _).mpr (by
        show DataFiles ⟨nd1, []⟩ bb
        rw [w1.nodes]
        exact dataFiles_putList hd)) (by simp [Conf.put, k'])
    rw [Conf.put_put] at hr2
    refine ⟨es1 ++ es2, b2, m2, t2, nd2, hr1.trans hr2, ?_, ?_⟩
    · intro e he
      rcases List.mem_append.mp he with he | he
      · exact he1 e he
      · obtain ⟨op, f, rfl, hop⟩ := he2 e he
        exact ⟨op, f, rfl, hop.shape hs1⟩
    · rw [Nat.min_eq_left (by omega), srcRows_split sc (j * L) q (by omega)]
      apply w1.trans
      rw [List.length_map, List.length_range]
      rw [hend] at w2
      rw [Nat.add_assoc]
      exact w2

/-! ## All processes -/

/-- The program of a process. -/
abbrev loopOf (env : Env) (n : Nat) (src : Nat → PySource) (L : Nat → Nat) (buf : Int) (H : Nat → Block) (mem : Nat → Mem) (r : Nat) :
    Prog (Except PyExc Unit × Block × Mem) := pyLoopP env (src r) (L r) (pyOffset n src r) buf (H r) (mem r)

/-- All processes have handles of the same block, into which their arrays fit. -/
structure LoopsOk (env : Env) (K : Kind) (n : Nat) (src : Nat → PySource) (L : Nat → Nat) (H : Nat → Block) (bd : Block) : Prop where
  source : ∀ r, r < n → SourceOk env K (src r)
  limit : ∀ r, r < n → 0 < L r
  ok : ∀ r, r < n → BlockOk env (H r) K.w K.nm
  kind : ∀ r, r < n → dtypeNormalize env.m (H r).dtype = K.dtype
  shape : ∀ r, r < n → SameShape bd (H r)
  fit : (joinedRows n src).length ≤ bd.size

/-- The run in which the processes go one after another. -/
theorem loops_serial {L : Nat → Nat} {bd : Block} (h : LoopsOk env K n src L H bd) (buf : Int) (mem : Nat → Mem) {nd : Nodes}
    (hd : DataFiles ⟨nd, []⟩ bd) : ∀ m, m ≤ n → ∃ (es : List Event) (Y : Nat → Except PyExc Unit × Block × Mem) (t : Nat → Nat),
      Run faultless n (startAll (loopOf env n src L buf H mem) nd) es
        ⟨fun r => if r < m then ⟨.ret (Y r), t r⟩ else ⟨loopOf env n src L buf H mem r, 0⟩, putList env.m bd 0 (joinedRows m src) nd⟩ ∧
      (∀ e ∈ es, ∃ r op f, r < n ∧ e = .file r op f ∧ WriteIn env.m bd (joinedRows r src).length (src r).size op) ∧
      ∀ r, r < m → (Y r).1 = .ok () ∧ ∃ nd1 nd2, Wrote env.m (H r) (Y r).2.1 (joinedRows r src).length (srcRows (src r) 0) nd1 nd2 := by
  intro m
  induction m with
  | zero =>
    intro _
    exact ⟨[], fun _ => (.ok (), bd, fun _ => 0), fun _ => 0, .nil _, by simp, fun r hr => by omega⟩
  | succ m ih =>
    intro hm
    obtain ⟨es, Y, t, hrun, hev, hY⟩ := ih (by omega)
    have hmn : m < n := by omega
    have hoff : pyOffset n src m = (joinedRows m src).length := pyOffset_eq src (by omega)
    have hlen : (joinedRows m src).length + (src m).size ≤ bd.size := by
      have h1 := joinedRows_le src hm
      rw [joinedRows_succ, List.length_append, srcRows_length] at h1
      have := h.fit
      omega
    have hsm := h.shape m hmn
    obtain ⟨es2, b2, m2, t2, nd2, hr2, he2, w2⟩ := chunks_alone (h.source m hmn) (off := (joinedRows m src).length) hmn (h.limit m hmn) buf _ rfl
      (Prog.ret) _ 0 (H m) (mem m)
      (⟨fun r => if r < m then ⟨.ret (Y r), t r⟩ else ⟨loopOf env n src L buf H mem r, 0⟩, putList env.m bd 0 (joinedRows m src) nd⟩)
      0 (Nat.zero_add _) (h.ok m hmn) (h.kind m hmn) (by rw [hsm.size]; exact hlen) ((hsm.dataFiles _).mpr (dataFiles_putList hd)) (by
        dsimp only
        rw [if_neg (by omega), Prog.bind_ret]
        congr 1
        unfold loopOf pyLoopP
        rw [if_neg (by have := h.limit m hmn; omega), pyRange_eq, hoff])
    rw [Nat.zero_mul, Nat.zero_min, Nat.add_zero] at w2
    refine ⟨es ++ es2, fun r => if r = m then (.ok (), b2, m2) else Y r, fun r => if r = m then t2 else t r, ?_, ?_, ?_⟩
    · refine Eq.mp ?_ (hrun.trans hr2)
      congr 1
      unfold Conf.put
      congr 1
      · funext q
        by_cases hq : q = m
        · subst hq
          simp
        · rw [if_neg hq]
          dsimp only
          by_cases hq2 : q < m
          · rw [if_pos hq2, if_pos (by omega), if_neg hq, if_neg hq]
          · rw [if_neg hq2, if_neg (by omega)]
      · rw [w2.nodes, joinedRows_succ, putList_append, Nat.zero_add]
        exact putList_shape hsm _ _ _
    · intro e he
      rcases List.mem_append.mp he with he | he
      · exact hev e he
      · obtain ⟨op, f, rfl, hop⟩ := he2 e he
        exact ⟨m, op, f, hmn, rfl, hop.shape hsm⟩
    · intro r hr
      by_cases hrm : r = m
      · subst hrm
        dsimp only
        rw [if_pos rfl]
        exact ⟨rfl, _, _, w2⟩
      · dsimp only
        rw [if_neg hrm]
        exact hY r (by omega)

/-- However the file operations of the processes are interleaved, the loops end, and in one way. -/
theorem loops_all {L : Nat → Nat} {bd : Block} (h : LoopsOk env K n src L H bd) (buf : Int) (mem : Nat → Mem) {nd : Nodes}
    (hd : DataFiles ⟨nd, []⟩ bd) : ∃ (B : Nat) (Y : Nat → Except PyExc Unit × Block × Mem), ∀ es s,
      Run faultless n (startAll (loopOf env n src L buf H mem) nd) es s → es.length ≤ B ∧
      (s.Stuck faultless n → (∀ r, r < n → (s.thr r).prog = .ret (Y r)) ∧ s.nodes = putList env.m bd 0 (joinedRows n src) nd ∧
        ∀ r, r < n → (Y r).1 = .ok () ∧
          ∃ nd1 nd2, Wrote env.m (H r) (Y r).2.1 (joinedRows r src).length (srcRows (src r) 0) nd1 nd2) := by
  have hF : NoCrash faultless := by intro r t m; simp [faultless, noFaults]
  obtain ⟨es0, Y, t, hrun, hev, hY⟩ := loops_serial h buf mem hd n (Nat.le_refl _)
  refine ⟨es0.length, Y, fun es s hs => ?_⟩
  obtain ⟨h1, h2⟩ := hrun.unique hF (fun r hr => ⟨Y r, by dsimp only; rw [if_pos hr]⟩) (fun a ha b hb => by
    obtain ⟨r, op, f, hr, rfl, hop⟩ := hev a ha
    obtain ⟨r', op', f', hr', rfl, hop'⟩ := hev b hb
    intro hne
    refine hop.commute ?_ hop' f f'
    have key : ∀ i j, i < j → (joinedRows i src).length + (src i).size ≤ (joinedRows j src).length := by
      intro i j hij
      have := joinedRows_le src (show i + 1 ≤ j from hij)
      rw [joinedRows_succ, List.length_append, srcRows_length] at this
      exact this
    by_cases hlt : r < r'
    · exact Or.inl (key _ _ hlt)
    · exact Or.inr (key _ _ (by omega))) hs
  refine ⟨h1, fun hst => ?_⟩
  have := h2 hst
  subst this
  exact ⟨fun r hr => by dsimp only; rw [if_pos hr], rfl, hY⟩

/-! ## Checksums and handles -/

theorem rankSum_succ (k : Nat) (H : Nat → Block) (f : Nat) : rankSum (k + 1) H f = rankSum k H f + (H k).fchecksum.getD f 0 := by
  unfold rankSum
  rw [List.range_succ, List.map_append, List.sum_append]
  simp

/-- The sums of the checksums of all processes. -/
theorem rankSum_joined {bd : Block} {Y : Nat → Block} (hs : ∀ r, r < n → SameShape bd (H r)) (hz : ∀ r, r < n → ∀ f, (H r).fchecksum.getD f 0 = 0)
    (hY : ∀ r, r < n → ∃ nd1 nd2, Wrote env.m (H r) (Y r) (joinedRows r src).length (srcRows (src r) 0) nd1 nd2) (f : Nat) :
    ∀ k, k ≤ n → rankSum k Y f % 4294967296 =
      rowsSum bd 0 (fun i => (joinedRows k src).getD i []) f (joinedRows k src).length % 4294967296 := by
  intro k
  induction k with
  | zero => intro _; rfl
  | succ k ih =>
    intro hk
    have h1 := ih (by omega)
    obtain ⟨_, _, w⟩ := hY k (by omega)
    have h2 := w.sums f
    rw [hz k (by omega), (hs k (by omega)).rowsSum] at h2
    rw [rankSum_succ, joinedRows_succ, rowsSum_append, Nat.zero_add]
    omega

theorem wrote_nil {m : Machine} {b b' : Block} {off : Nat} {nd nd' : Nodes} (h : Wrote m b b' off [] nd nd') (f : Nat)
    (hz : b.fchecksum.getD f 0 = 0) : b'.fchecksum.getD f 0 % 4294967296 = 0 := by
  have := h.sums f
  rw [hz] at this
  simpa [rowsSum] using this

/-- Opening a block that was flushed gives a handle like the one it was flushed with. -/
theorem Spec.Holds.opens_same (h : Holds env K bb w.fs A) (h1 : A.pending = false) (h2 : A.saved = A.attrs) (h3 : bb.dirty = false)
    (hnf : w.faults = noFaults) :
    ∃ b w', blockOpen env bb.basename w = .ok (0, some b) w' ∧ w'.fs = w.fs ∧ w'.faults = noFaults ∧ SameShape bb b ∧
      b.fchecksum = bb.fchecksum ∧ b.dirty = false ∧ Holds env K b w.fs A := by
  obtain ⟨r, w2, e2, g1, g2, b, hr, hs, hck, hwa, hv, hd1, hd2⟩ :=
    wpc_returns (wpc_blockOpen_says (env := env) (C := fun _ => False) hnf h.savable.base h.savable.notMeta
      h.savable.offsets h.savable.size (h.header h3) (h.saved h1)) (fun _ hc => hc)
  subst hr
  have hl' : Layout b := hs.layout h.ok.layout (by rw [hck, hs.nfile]; exact h.ok.layout.nck) (by rw [hck]; exact h.ok.layout.ck32)
  refine ⟨b, w2, e2, g1, g2, hs, hck, hd1, ?_⟩
  have hhead : HeaderSays w.fs b := by
    have := h.header h3
    unfold HeaderSays at this ⊢
    rw [hs.base, hs.dtype, hs.nmemb, hs.nfile, hs.fsize, hck]
    exact this
  exact h.rewritten hs hl' rfl rfl rfl (fun _ _ _ => rfl) hwa (hv.trans h2) (hd2.trans h1.symm) h.tame.1 (h.tame.2 h1)
    (h.saved h1) hhead ⟨h.dir.header, h.dir.attr⟩

/-- All processes open a block that was flushed. -/
theorem openRanks_ok {bf name : CStr} (h : Holds env K bb w.fs A) (hbase : bb.basename = pathJoin bf name) (h1 : A.pending = false)
    (h2 : A.saved = A.attrs) (h3 : bb.dirty = false) (hnf : w.faults = noFaults) : ∀ n,
    ∃ H w', pyOpenRanks env bf name n w = .ok H w' ∧ w'.fs = w.fs ∧ w'.faults = noFaults ∧ ∀ r, r < n → ∃ b, H r = some b ∧
      SameShape bb b ∧ b.fchecksum = bb.fchecksum ∧ b.dirty = false ∧ Holds env K b w.fs A := by
  intro n
  induction n with
  | zero => exact ⟨_, w, rfl, rfl, hnf, fun r hr => by omega⟩
  | succ n ih =>
    obtain ⟨H, w1, e1, f1, nf1, g1⟩ := ih
    obtain ⟨b, w2, e2, f2, nf2, k⟩ := Spec.Holds.opens_same (w := w1) (by rw [f1]; exact h) h1 h2 h3 nf1
    refine ⟨fun q => if q = n then some b else H q, w2, ?_, f2.trans f1, nf2, fun r hr => ?_⟩
    · rw [hbase] at e2
      show M.bind (pyOpenRanks env bf name n) _ w = _
      rw [M.bind, e1]
      dsimp only
      show M.bind (blockOpen env (pathJoin bf name)) _ w1 = _
      rw [M.bind, e2]
      rfl
    · dsimp only
      by_cases hrn : r = n
      · rw [if_pos hrn]
        rw [f1] at k
        exact ⟨b, rfl, k⟩
      · rw [if_neg hrn]
        exact g1 r (by omega)

/-- Dropping clean handles changes nothing. -/
theorem dropRanks_clean (h : ∀ r, (H r).dirty = false ∧ (H r).attrset.dirty = false) : ∀ n, pyDropRanks env H n w = .ok () w := by
  intro n
  induction n with
  | zero => rfl
  | succ n ih =>
    show M.bind (pyDropRanks env H n) _ w = _
    rw [M.bind, ih]
    dsimp only
    show M.bind (blockClose env (H n)) _ w = _
    rw [M.bind, blockClose_clean (h n).1 (h n).2]
    rfl

/-- Nobody has raised an exception. -/
theorem goOn_none {α : Type} {exc : Nat → Option PyExc} {k : Phases (Nat → Except PyExc α)} (h : ∀ r, r < n → exc r = none) :
    pyGoOn n exc k = k := by
  unfold pyGoOn
  rw [if_pos (by
    rw [List.all_eq_true]
    intro r hr
    rw [h r (List.mem_range.mp hr)]
    rfl)]

/-- `ColumnMPI.open` of a block that was flushed. -/
theorem mpiOpen_ok {α : Type} {bf name : CStr} {k : (Nat → Block) → Phases (Nat → Except PyExc α)} {Q : (Nat → Except PyExc α) → World → Prop}
    (hn : 0 < n) (h : Holds env K bb w.fs A) (hbase : bb.basename = pathJoin bf name) (h1 : A.pending = false)
    (h2 : A.saved = A.attrs) (h3 : bb.dirty = false) (hnf : w.faults = noFaults)
    (hk : ∀ H w', w'.fs = w.fs → w'.faults = noFaults → (∀ r, r < n → SameShape bb (H r) ∧ (H r).fchecksum = bb.fchecksum ∧
      (H r).dirty = false ∧ Holds env K (H r) w.fs A) → (k H).Ensures faultless w' Q) :
    (pyMpiOpen env n bf name k).Ensures faultless w Q := by
  obtain ⟨H, w1, e1, f1, nf1, g1⟩ := openRanks_ok h hbase h1 h2 h3 hnf n
  unfold pyMpiOpen
  apply Phases.ensures_bind
  refine Phases.ensures_alone e1 ?_
  have hno : ((List.range n).any fun r => (H r).isNone) = false := by
    rw [List.any_eq_false]
    intro r hr
    obtain ⟨b, hb, _⟩ := g1 r (List.mem_range.mp hr)
    rw [hb]
    simp
  dsimp only
  rw [goOn_none (fun r hr => by
    obtain ⟨b, hb, _⟩ := g1 r hr
    rw [hno, hb]
    simp)]
  obtain ⟨b0, hb0, _⟩ := g1 0 hn
  rw [hb0]
  dsimp only
  refine hk _ w1 f1 nf1 fun r hr => ?_
  obtain ⟨b, hb, k⟩ := g1 r hr
  rw [hb]
  exact k

end Verif
