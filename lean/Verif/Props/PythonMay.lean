import Verif.Proof.PythonMay
import Verif.Props.CopyMay
/-!
# C55, C63: Python functions while file operations fail or the process is killed
-/

set_option autoImplicit false

namespace Verif

open Spec

variable {env : Env} {K : Kind} {A : Content} {w : World} {bb : Block}

/-- Dropping a handle returns, and touches only the files of its block. -/
theorem drop_may (b : Block) (txt : CStr) (w : World) (hns : NoSilent w.faults)
    (hl : b.attrset.dirty = true →
      attrLines env b.attrset.list { b.attrset with dirty := false } = some (txt, { b.attrset with dirty := false })) :
    wpc (blockClose env b) w (fun _ w' => SameOutside b.basename w.fs w'.fs) (fun w' => SameOutside b.basename w.fs w'.fs) := by
  unfold blockClose
  rw [wpc_bind]
  refine wpc_mono (wpc_wlp (wpc_blockFlush_cases b txt w hns hl) (blockFlush_touches env b w)) ?_ (fun _ h => h.2)
  rintro ⟨rc, _⟩ w1 ⟨_, o⟩
  rw [wpc_pure]
  exact o

/-! ## C55 -/

/-- **C55, failures** (partial: as `C55_create_from_array_partial`, with any memory limit; and no failure goes unreported). Whatever file
operations fail, `create_from_array` returns or raises an exception, and if it returns, the column it returns holds the rows of the array,
as many and in the same order, and so does the disk. In any case, also when the process is killed, nothing is touched but the new block and
directories on the way to it. -/
theorem C55_faults_partial (env : Env) (K : Kind) (bf name : CStr) (src : PySource) (nfile : Option Nat)
    (memorylimit : Nat) (buf : Int) (mem : Mem) (w : World) (hns : NoSilent w.faults) (ht : TreeOk w.fs)
    (h : CanCreate env K { w with faults := noFaults } bf name src (pyNfile nfile src.size)) :
    wpc (createFromArray env bf name src nfile memorylimit buf mem) w
      (fun r w' => OnlyMade (pathJoin bf name) w.fs w'.fs ∧ ∀ b, r = .ok b →
        b.basename = pathJoin bf name ∧ Holds env K b w'.fs (ofSource src (pyNfile nfile src.size)) ∧
        OnDisk env K w'.fs (pathJoin bf name) (ofSource src (pyNfile nfile src.size)))
      (fun w' => OnlyMade (pathJoin bf name) w.fs w'.fs) := by
  have hsum := pySizes_sum _ _ h.files
  have hpos : 0 < K.w * K.nm := Nat.mul_pos h.item0 h.memb0
  have hrb : (itemsize env.m src.dtype).toNat * pyItems src.inner = K.w * K.nm := by
    rw [h.source.item, Int.toNat_natCast]
    unfold pyItems
    rcases h.source.inner with ⟨h1, h2⟩ | h1
    · rw [h1, h2]; rfl
    · rw [h1]; rfl
  have hitems : (pyItems src.inner : Int) = K.nm := by
    unfold pyItems
    rcases h.source.inner with ⟨h1, h2⟩ | h1
    · rw [h1, h2]; rfl
    · rw [h1]; rfl
  have hinner : ¬ 1 < src.inner.length := by
    rcases h.source.inner with ⟨h1, _⟩ | h1 <;> rw [h1] <;> simp
  have hsz : src.size ≤ src.size * (K.w * K.nm) := Nat.le_mul_of_pos_right _ hpos
  have bad : ∀ {fs : FS} {e : PyExc}, OnlyMade (pathJoin bf name) w.fs fs →
      OnlyMade (pathJoin bf name) w.fs fs ∧ ∀ b, (Except.error e : Except PyExc Block) = .ok b →
        b.basename = pathJoin bf name ∧ Holds env K b fs (ofSource src (pyNfile nfile src.size)) ∧
        OnDisk env K fs (pathJoin bf name) (ofSource src (pyNfile nfile src.size)) :=
    fun hm => ⟨hm, fun b hb => nomatch hb⟩
  unfold createFromArray
  dsimp only
  rw [hrb, if_neg (by omega), if_neg (by rintro ⟨c1, c2⟩; rcases h.files with h5 | h5 <;> omega), if_neg hinner]
  generalize hL : pyItemlimit memorylimit (K.w * K.nm) = L
  generalize hnf : pyNfile nfile src.size = nf at *
  rw [wpc_bind]
  refine wpc_mono (wpc_run (createBlock_may ht h.file h.short h.notMeta)) ?_ (fun w1 h1 => h1)
  rintro r w1 ⟨⟨f1, m1, hr⟩, hrun⟩
  rcases hr with rfl | rfl
  · exact bad m1
  dsimp only
  obtain ⟨h1, _⟩ := fresh_holds_may h.fmt hns h.short h.notMeta h.plain (by rw [itemsize_normalize]; exact h.source.item) h.item0 hitems
    h.memb0 h.rowInt h.buf h.bufMax (by rw [pySizes_length]; exact h.filesMax) (by rw [hsum]; have := h.bytes; omega)
    (by rw [hsum]; exact h.bytes) hrun (fun d hd => h.room.way _ (List.prefix_refl _) ⟨d, hd⟩) h.room.noOld (fun f => h.room.files _)
  rw [normalize_idem, h.source.dtype] at h1
  change Holds env K _ w1.fs _ at h1
  have hhdr := createBlock_header h.short h.notMeta hns hrun
  generalize hbn : freshBlock env (pathJoin bf name) src.dtype (pyItems src.inner) (pySizes nf src.size) = bn at h1 hrun hhdr
  have hbase : bn.basename = pathJoin bf name := by rw [← hbn]; rfl
  have hdirty : bn.dirty = false := by rw [← hbn]; rfl
  have h1 := opened_holdsD h1 hdirty rfl
  -- the rows
  rw [wpc_bind]
  have hdata : wpc (if L = 0 then pure (.error .valueError, bn, mem) else pyWriteChunks env src L buf (pyRange src.size L) bn mem) w1
      (fun r w' => w'.faults = w1.faults ∧ SameOutside (pathJoin bf name) w1.fs w'.fs ∧ r.2.1.basename = pathJoin bf name ∧
          (r.1 = .ok () ∧ (r.2.1 = bn ∧ w'.fs = w1.fs ∨ r.2.1.dirty = true) ∧
              HoldsD env K r.2.1 w'.fs ⟨(Content.fresh (pySizes nf src.size)).upTo src src.size, some (src.size, nf), true, true⟩ ∨
            (∃ e, r.1 = .error e) ∧ ∃ B, HoldsD env K r.2.1 w'.fs ⟨B, some (src.size, nf), true, true⟩))
      (fun w' => SameOutside (pathJoin bf name) w1.fs w'.fs) := by
    have h1 : HoldsD env K bn w1.fs ⟨Content.fresh (pySizes nf src.size), some (src.size, nf), true, true⟩ := by
      refine Eq.mp ?_ h1
      unfold Durable.opened Content.fresh
      dsimp only
      rw [hsum, pySizes_length]
    by_cases hL0 : L = 0
    · rw [if_pos hL0, wpc_pure]
      exact ⟨rfl, SameOutside.refl _ _, hbase, Or.inr ⟨⟨_, rfl⟩, _, h1⟩⟩
    · rw [if_neg hL0, pyRange_eq]
      refine wpc_mono (pyWriteChunks_may h.source L (by omega) buf (Content.fresh (pySizes nf src.size)) hsum (some (src.size, nf))
        (pathJoin bf name) _ rfl _ 0 bn mem w1 (Nat.zero_add _) ?_ hbase) ?_ (fun _ h => h)
      · refine Eq.mp ?_ h1
        congr 2
        unfold Content.upTo
        simp
      · rintro r w2 ⟨q1, q2, q3, q4⟩
        refine ⟨q1, q2, q3, ?_⟩
        rcases q4 with ⟨t1, t2, t3⟩ | t
        · refine Or.inl ⟨t1, ?_, t3⟩
          rcases t2 with ⟨_, t2⟩ | t2
          · exact Or.inl t2
          · exact Or.inr t2
        · exact Or.inr t
  refine wpc_mono hdata ?_ (fun w2 o2 => m1.trans (OnlyMade.of_outside o2))
  rintro ⟨r, b2, m⟩ w2 ⟨f2, o2, hb2, hr⟩
  have m2 := m1.trans (OnlyMade.of_outside o2)
  dsimp only at hb2 hr ⊢
  have ff2 : w2.faults = w.faults := f2.trans f1
  -- the flush
  obtain ⟨B, h2⟩ : ∃ B, HoldsD env K b2 w2.fs ⟨B, some (src.size, nf), true, true⟩ := by
    rcases hr with ⟨_, _, h2⟩ | ⟨_, h2⟩
    · exact ⟨_, h2⟩
    · exact h2
  obtain ⟨txt, k1, k2⟩ := h2.attrText
  rw [wpc_bind]
  refine wpc_mono (wpc_wlp (wpc_blockFlush_cases b2 txt w2 (by rw [ff2]; exact hns) k1) (blockFlush_touches env b2 w2)) ?_
    (fun w3 h3 => m2.trans (OnlyMade.of_outside (by rw [← hb2]; exact h3.2)))
  rintro ⟨rc, b3⟩ w3 ⟨⟨f3, hcase⟩, o3⟩
  rw [hb2] at o3
  have m3 := m2.trans (OnlyMade.of_outside o3)
  dsimp only at hcase ⊢
  by_cases hrc : rc ≠ 0
  · rw [if_pos hrc]
    have hl3 : b3.attrset.dirty = true →
        attrLines env b3.attrset.list { b3.attrset with dirty := false } = some (txt, { b3.attrset with dirty := false }) := by
      rcases hcase with ⟨h0, _⟩ | ⟨_, rfl, _⟩ | ⟨_, rfl, _⟩
      · exact absurd h0 hrc
      · exact k1
      · intro hd; cases hd
    have hb3 : b3.basename = pathJoin bf name := by
      rcases hcase with ⟨h0, _⟩ | ⟨_, rfl, _⟩ | ⟨_, rfl, _⟩
      · exact absurd h0 hrc
      · exact hb2
      · exact hb2
    rw [wpc_bind]
    refine wpc_mono (drop_may b3 txt w3 (by rw [f3, ff2]; exact hns) hl3) ?_ (fun w4 o4 => m3.trans (OnlyMade.of_outside (by rw [← hb3]; exact o4)))
    intro _ w4 o4
    rw [wpc_pure]
    exact bad (m3.trans (OnlyMade.of_outside (by rw [← hb3]; exact o4)))
  rw [if_neg hrc]
  rw [ne_eq, Decidable.not_not] at hrc
  rcases hcase with ⟨_, rfl, hfs⟩ | ⟨h0, _⟩ | ⟨h0, _⟩
  rotate_left
  · rw [hrc] at h0; cases h0
  · rw [hrc] at h0; cases h0
  have hclean : ∀ wx, wpc (blockClose env (cleaned b2)) wx (fun _ w' => w' = wx) (fun _ => False) := by
    intro wx
    unfold wpc
    rw [blockClose_clean rfl rfl]
  rcases hr with ⟨rfl, hmark, h2'⟩ | ⟨⟨e, rfl⟩, _⟩
  rotate_left
  · dsimp only
    rw [wpc_bind]
    refine wpc_mono (hclean w3) ?_ (fun _ h => h.elim)
    rintro _ w4 rfl
    rw [wpc_pure]
    exact bad m3
  dsimp only
  obtain ⟨txt', k1', k2'⟩ := h2'.attrText
  have hpend : b2.attrset.dirty = false := h2'.pending
  have hfs' : flushFS b2 txt w2.fs = flushFS b2 txt' w2.fs := by
    unfold flushFS
    simp [hpend]
  have h3 := h2'.flushedOk k2'
  rw [← hfs', ← hfs] at h3
  have hcont : (cleaned b2).basename = pathJoin bf name := hb2
  have hH : Holds env K (cleaned b2) w3.fs (ofSource src nf) := by
    refine Eq.mp ?_ (h3.holds (by simp [Durable.flushed]) rfl)
    congr 1
    simp [Durable.flushed, Content.upTo, Content.fresh, ofSource, hsum, pySizes_length]
  have hdisk : OnDisk env K w3.fs (pathJoin bf name) (ofSource src nf) := ⟨rfl, rfl, cleaned b2, hb2, rfl, hH⟩
  have hcut : HeaderCut w3.fs (pathJoin bf name) b2 := by
    refine ⟨h2'.savable.header, (headerText b2).length, ?_⟩
    rw [List.take_length, hfs]
    unfold flushFS
    simp only [hpend, Bool.false_eq_true, if_false]
    cases hd : b2.dirty with
    | true =>
      rw [if_pos rfl, hb2, FS.set_node]
    | false =>
      rw [if_neg (by simp)]
      rcases hmark with ⟨rfl, e2⟩ | hm
      · rw [e2]; exact hhdr
      · rw [hd] at hm; cases hm
  rw [wpc_bind]
  unfold openBlock
  refine wpc_mono (C75_content_partial env K (ofSource src nf) (pathJoin bf name) w3 b2 hdisk hcut) ?_ (fun w4 e4 => by rw [e4]; exact m3)
  rintro r w4 ⟨e4, _, hr⟩
  rcases hr with rfl | ⟨b, rfl, hb, _, hh⟩
  · dsimp only
    rw [wpc_bind]
    refine wpc_mono (hclean w4) ?_ (fun _ h => h.elim)
    rintro _ w5 rfl
    rw [wpc_pure]
    exact bad (by rw [e4]; exact m3)
  dsimp only
  rw [wpc_bind]
  refine wpc_mono (hclean w4) ?_ (fun _ h => h.elim)
  rintro _ w5 rfl
  rw [wpc_pure, e4]
  refine ⟨m3, fun b' hb' => ?_⟩
  cases hb'
  refine ⟨hb, ?_, hdisk⟩
  rcases hh with hh | ⟨hh, _⟩
  · exact hh
  · exact hh

/-- The example of C55, with any reported failures. -/
example (faults : Nat → Fault) (hns : NoSilent faults) :
    wpc (createFromArray exEnv b!"d" b!"z" exPySource (some 3) 5000 500 exMem) { exTreeWorld with faults := faults }
      (fun r w' => ∀ b, r = .ok b → Holds exEnv exKind b w'.fs (ofSource exPySource 3)) (fun _ => True) :=
  wpc_mono (C55_faults_partial exEnv exKind b!"d" b!"z" exPySource (some 3) 5000 500 exMem { exTreeWorld with faults := faults } hns
    exTree_ok exCanCreate) (fun _ _ h b hb => (h.2 b hb).2.1) (fun _ _ => trivial)

/-! ## C63 -/

/-- `append` in terms of operations on the block. -/
theorem pyAppend_eq (a : Arr) (n nfile : Nat) (mem : Mem) (h : ¬ (nfile = 0 ∧ n ≠ 0)) :
    pyAppend env bb a n nfile mem = (do
      let x ← runBOp env bb (.grow (pySizes nfile n))
      if x.1.rc ≠ 0 then pure (.error .error, x.2, mem)
      else
        let y ← runBOp env x.2 .flush
        if y.1.rc ≠ 0 then pure (.error .error, y.2, mem) else pyWrite env y.2 bb.size a mem) := by
  funext w
  unfold pyAppend runBOp
  rw [if_neg h]
  simp only [bind, M.bind]
  cases blockGrow bb (pySizes nfile n) w with
  | ok x w1 =>
    simp only [pure, M.pure]
    by_cases hx : x.1 ≠ 0
    · simp only [if_pos hx, M.pure]
    · simp only [if_neg hx, M.bind]
      cases blockFlush env x.2 w1 with
      | ok y w2 => rfl
      | crash w1 => rfl
      | ub => rfl
      | hang => rfl
  | crash w1 => rfl
  | ub => rfl
  | hang => rfl

/-- The rows that were there and the attributes are as before. -/
def Spec.Durable.Kept (S S' : Durable) : Prop :=
  S'.now.attrs = S.now.attrs ∧ ∀ r, r < S.now.size → S'.now.rows r = S.now.rows r

/-- **C63, failures** (partial: as `C63_append_partial`, and no failure goes unreported). The handle shows `S.now`, whatever of it is stored.
Whatever file operations fail, `append` returns or raises an exception. If it returns, the rows of the array are behind the existing ones, and the
header file records all rows. In any case the existing rows and the attributes are as before, in the handle and, if the process is
killed, on the disk. -/
theorem C63_faults_partial (env : Env) (K : Kind) (S : Durable) (bb : Block) (w : World) (a : Arr) (n nfile : Nat) (mem : Mem) (sw : Nat)
    (h : HoldsD env K bb w.fs S) (hns : NoSilent w.faults) (hn : 0 < nfile) (ha : ArrayOk env a sw) (hsz : a.size = n * K.nm)
    (hdis : foreign env.m a.dtype = true → Disjoint a sw)
    (hconv : ∀ e, e < n * K.nm → (toBlock env K a mem sw e).isSome = true)
    (h1 : S.now.size + n < 9223372036854775808) (h2 : (S.now.size + n) * (K.w * K.nm) < 9223372036854775808)
    (h3 : S.now.nfile + nfile ≤ 16777216) :
    wpc (pyAppend env bb a n nfile mem) w
      (fun r w' => ∃ S', HoldsD env K r.2.1 w'.fs S' ∧ r.2.1.basename = bb.basename ∧ S.Kept S' ∧ (r.1 = .ok () ∨ r.1 = .error .error) ∧
        (r.1 = .ok () → S'.now.size = S.now.size + n ∧ S'.now.nfile = S.now.nfile + nfile ∧
          S'.stored = some (S.now.size + n, S.now.nfile + nfile) ∧ S'.whole = S.whole ∧
          ∀ i, i < n → S'.now.rows (S.now.size + i) = some (arrayRow env K a mem sw i)))
      (fun w' => ∃ S' b, b.basename = bb.basename ∧ HoldsD env K b w'.fs S' ∧ S.Kept S') := by
  have hsum := pySizes_sum nfile n (Or.inl hn)
  have hrw : a.size / K.nm = n := by rw [hsz, Nat.mul_div_cancel _ h.ok.memb0]
  have hself : S.Kept S := ⟨rfl, fun _ _ => rfl⟩
  rw [pyAppend_eq a n nfile mem (by omega), wpc_bind]
  refine wpc_mono (grow_may h (pySizes nfile n) ⟨by rw [hsum]; exact h1, by rw [hsum]; exact h2, by rw [pySizes_length]; exact h3⟩) ?_ ?_
  rotate_left
  · rintro w1 ⟨S', b, hk, hb, hh⟩
    cases hk
    exact ⟨_, b, hb, hh, hself⟩
  rintro ⟨x, b1⟩ w1 ⟨s1, s2, S1, s3, s4⟩
  dsimp only at s1 s3 s4 ⊢
  cases s3 with
  | grow _ _ hrc =>
    rw [if_pos (by rw [hrc]; decide), wpc_pure]
    exact ⟨_, s4, s1, ⟨rfl, fun _ _ => rfl⟩, Or.inr rfl, fun h => nomatch h⟩
  | done _ _ hans =>
  have hrc : x.rc = 0 := hans
  rw [if_neg (by simp [hrc]), wpc_bind]
  have e1 : S.next env K (.grow (pySizes nfile n)) =
      { S with now := { S.now with size := S.now.size + n, nfile := S.now.nfile + nfile } } := by
    simp [Durable.next, Content.next, hsum, pySizes_length]
  rw [e1] at s4
  clear e1
  refine wpc_mono (flush_may s4 (by rw [s2]; exact hns)) ?_ ?_
  rotate_left
  · rintro w2 ⟨S', b, hk, hb, hh⟩
    cases hk
    · exact ⟨_, b, hb.trans s1, hh, ⟨rfl, fun _ _ => rfl⟩⟩
    · exact ⟨_, b, hb.trans s1, hh, ⟨rfl, fun _ _ => rfl⟩⟩
  rintro ⟨y, b2⟩ w2 ⟨t1, t2, S2, t3, t4⟩
  dsimp only at t1 t3 t4 ⊢
  cases t3 with
  | flush _ hrc =>
    rw [if_pos (by rw [hrc]; decide), wpc_pure]
    exact ⟨_, t4, t1.trans s1, ⟨rfl, fun _ _ => rfl⟩, Or.inr rfl, fun h => nomatch h⟩
  | attrs _ hrc =>
    rw [if_pos (by rw [hrc]; decide), wpc_pure]
    exact ⟨_, t4, t1.trans s1, ⟨rfl, fun _ _ => rfl⟩, Or.inr rfl, fun h => nomatch h⟩
  | done _ _ hans =>
  have hrc : y.rc = 0 := hans
  rw [if_neg (by simp [hrc])]
  obtain ⟨S3, e3, q1, q2, q3, q4, q5, q6⟩ : ∃ S3, Durable.next env K { S with now := { S.now with
      size := S.now.size + n, nfile := S.now.nfile + nfile } } .flush = S3 ∧ S3.now.size = S.now.size + n ∧ S3.now.nfile = S.now.nfile + nfile ∧
      S3.now.attrs = S.now.attrs ∧ S3.now.rows = S.now.rows ∧ S3.stored = some (S.now.size + n, S.now.nfile + nfile) ∧ S3.whole = S.whole := by
    refine ⟨_, rfl, ?_⟩
    cases hp : S.now.pending <;> simp [Durable.next, Durable.flushed, hp]
  rw [e3] at t4
  have hin : bb.size + a.size / K.nm ≤ S3.now.size := by rw [hrw, q1, h.size]; exact Nat.le_refl _
  have hn0 : a.size ≠ 0 := by have := ha.arr.pos; omega
  refine wpc_mono (pyWrite_may t4 bb.size a mem sw ⟨by rw [h.size]; omega, ha, hdis, fun _ e he => hconv e (by rw [hrw] at he; exact he)⟩
    hin hn0) ?_ ?_
  rotate_left
  · rintro w3 ⟨_, S', b, hk, hb, hh⟩
    cases hk
    refine ⟨_, b, hb.trans (t1.trans s1), hh, q3, fun r hr => ?_⟩
    show (if _ then none else S3.now.rows r) = _
    rw [if_neg (by rw [h.size]; omega), q4]
  rintro ⟨r, b3, m3⟩ w3 ⟨_, _, hb3, hr⟩
  dsimp only at hb3 hr ⊢
  rcases hr with ⟨rfl, _, h4⟩ | ⟨rfl, h4⟩
  · refine ⟨_, h4, hb3.trans (t1.trans s1), ?_, Or.inl rfl, fun _ => ?_⟩
    · refine ⟨?_, fun r hr => ?_⟩
      · simp only [Durable.next, Content.next]
        rw [if_pos hin]
        exact q3
      · simp only [Durable.next, Content.next]
        rw [if_pos hin]
        show (if _ then _ else S3.now.rows r) = _
        rw [if_neg (by rw [h.size]; omega), q4]
    · simp only [Durable.next, Content.next]
      rw [if_pos hin]
      refine ⟨q1, q2, q5, q6, fun i hi => ?_⟩
      dsimp only
      rw [hrw, h.size, if_pos (by omega), show S.now.size + i - S.now.size = i by omega]
  · refine ⟨_, h4, hb3.trans (t1.trans s1), ⟨q3, fun r hr => ?_⟩, Or.inr rfl, fun h => nomatch h⟩
    show (if _ then none else S3.now.rows r) = _
    rw [if_neg (by rw [h.size]; omega), q4]

/-- The example of C63, with any reported failures. -/
example (faults : Nat → Fault) (hns : NoSilent faults) : ∃ (b : Block) (w : World), HoldsD exEnv exKind b w.fs (.opened exCopyA) ∧
    wpc (pyAppend exEnv b exSrc 3 2 exMem) { w with faults := faults }
      (fun r w' => ∃ S', HoldsD exEnv exKind r.2.1 w'.fs S' ∧ (∀ r, r < 5 → S'.now.rows r = exCopyA.rows r) ∧
        (r.1 = .ok () → S'.now.size = 8 ∧ S'.stored = some (8, 5)))
      (fun w' => ∃ S' b, HoldsD exEnv exKind b w'.fs S' ∧ ∀ r, r < 5 → S'.now.rows r = exCopyA.rows r) := by
  obtain ⟨w0, _, nf0, _, h0⟩ := exCopy_src
  obtain ⟨b, w, _, f, nf, _, hd, h⟩ := h0.opens nf0
  rw [← f] at h
  have h := opened_holdsD h hd rfl
  refine ⟨b, w, h, wpc_mono (C63_faults_partial exEnv exKind (.opened exCopyA) b { w with faults := faults } exSrc 3 2 exMem 8 h hns (by decide)
    exSrc_array (by decide) (fun hc => absurd hc (by decide)) (by decide +kernel) (by decide) (by decide) (by decide)) ?_ ?_⟩
  · rintro r w' ⟨S', q1, _, q3, _, q4⟩
    exact ⟨S', q1, q3.2, fun hr => ⟨(q4 hr).1, (q4 hr).2.2.1⟩⟩
  · rintro w' ⟨S', b, _, q1, q2⟩
    exact ⟨S', b, q1, q2.2⟩

end Verif
