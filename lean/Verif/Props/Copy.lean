import Verif.Proof.Copy
/-!
# C51: `bigfile-copy`
-/

set_option autoImplicit false

namespace Verif

open Spec

variable {env : Env} {K : Kind} {A : Content} {w : World}

theorem PlainDtype.normalize {dt : CStr} (h : PlainDtype dt) (m : Machine) : PlainDtype (dtypeNormalize m dt) := by
  obtain ⟨h1, h2, h3, h4⟩ := h
  have key : dtypeNormalize m dt = dt ∨ ∃ t, dt = (61 : Byte) :: t ∧ dtypeNormalize m dt = m.endian :: t ∨
      dt = (124 : Byte) :: t ∧ dtypeNormalize m dt = m.endian :: t := by
    cases dt with
    | nil => exact absurd rfl h1
    | cons c t =>
      have hc : c = 60 ∨ c = 62 ∨ c = 124 ∨ c = 61 := by
        have : dtypeIsValid (c :: t) = true := h4
        simp [dtypeIsValid, charAt] at this
        rcases this.1.1 with ((h | h) | h) | h <;> simp [h]
      have ht : (c :: t).take 7 = c :: t := List.take_of_length_le (by omega)
      rcases hc with rfl | rfl | rfl | rfl
      · left; simp only [dtypeNormalize, ht]; rfl
      · left; simp only [dtypeNormalize, ht]; rfl
      · right; refine ⟨t, Or.inr ⟨rfl, ?_⟩⟩; simp only [dtypeNormalize, ht]
      · right; refine ⟨t, Or.inl ⟨rfl, ?_⟩⟩; simp only [dtypeNormalize, ht]
  rcases key with h | ⟨t, h⟩
  · rw [h]; exact ⟨h1, h2, h3, h4⟩
  · have hd : ∃ c, dt = c :: t ∧ dtypeNormalize m dt = m.endian :: t := by
      rcases h with ⟨h, h'⟩ | ⟨h, h'⟩
      · exact ⟨_, h, h'⟩
      · exact ⟨_, h, h'⟩
    obtain ⟨c, rfl, h'⟩ := hd
    rw [h']
    have he : m.endian = 60 ∨ m.endian = 62 := by unfold Machine.endian; split <;> simp
    refine ⟨by simp, by simpa using h2, ?_, ?_⟩
    · intro x hx
      rcases List.mem_cons.mp hx with rfl | hx
      · rcases he with he | he <;> rw [he] <;> decide
      · exact h3 x (by simp [hx])
    · have : dtypeIsValid (c :: t) = true := h4
      simp only [dtypeIsValid, charAt, List.getD_cons_zero, List.getD_cons_succ, List.drop_succ_cons, Bool.and_eq_true] at this ⊢
      refine ⟨⟨?_, this.1.2⟩, this.2⟩
      rcases he with he | he <;> rw [he] <;> decide

/-- `stat` finds what is there. -/
theorem bigFileOpen_succeeds {file : CStr} (hnf : w.faults = noFaults) (hne : file ≠ []) (h : (w.fs.node (resolve file)).isSome = true)
    (hlen : file.length ≤ 8192) : ∃ w', bigFileOpen file w = .ok (0, file) w' ∧ w'.fs = w.fs ∧ w'.faults = noFaults := by
  refine ⟨{ w with clock := w.clock + 1 }, ?_, rfl, hnf⟩
  simp [bigFileOpen, statOk, bind, M.bind, pure, M.pure, tick, hnf, noFaults, getFS, h, hne, strdup_short hlen]

theorem bigFileCreate_makes {path : CStr} (hnf : w.faults = noFaults) (ht : TreeOk w.fs)
    (hne : path ≠ []) (hlen : path.length ≤ 8192) (hway : ∀ k, k <+: resolve path → ¬ IsFile w.fs k) :
    ∃ w', bigFileCreate path w = .ok (0, path) w' ∧ w'.faults = noFaults ∧ TreeOk w'.fs ∧ w'.fs.node (resolve path) = some .dir ∧
      ∀ k, w'.fs.node k ≠ w.fs.node k → k <+: resolve path ∧ w.fs.node k = none ∧ w'.fs.node k = some .dir := by
  have hres : baseKey [] path ++ names path = resolve path := by
    rw [resolve_names]; rfl
  have hclear : ClearWay w.fs [] path := by
    refine ⟨?_, ?_⟩
    · unfold baseKey
      simp only [if_true]
      split
      · exact ht.root
      · exact ht.cwd
    · intro t d hp hn
      refine hway (baseKey [] path ++ t) ?_ ⟨d, hn⟩
      obtain ⟨u, hu⟩ := hp
      exact ⟨u, by rw [List.append_assoc, hu, hres]⟩
  have key : wpc (bigFileCreate path) w (fun r w' => MadeDirs [] path w w' ∧
      r = (0, path) ∧ w'.fs.node (resolve path) = some .dir) (fun _ => False) := by
    unfold bigFileCreate
    rw [wpc_bind]
    refine wpc_mono (mksubdirR_spec [] path w hlen (Or.inl hne)) ?_ (fun _ h => h.1 hnf)
    rintro rc w1 ⟨h1, _, _, h4⟩
    rw [wpc_pure]
    obtain ⟨rfl, h5⟩ := h4 hnf hclear
    rw [hres] at h5
    exact ⟨h1, by rw [strdup_short hlen]; rfl, h5⟩
  obtain ⟨r, w1, e1, h1, h2, h3⟩ := wpc_returns key (fun _ h => h)
  subst h2
  refine ⟨w1, e1, h1.faults.trans hnf, h1.tree ht, h3, fun k hk => ?_⟩
  obtain ⟨t, ht1, ht2⟩ := h1.where_ k hk
  refine ⟨?_, ?_⟩
  · obtain ⟨u, hu⟩ := ht1
    exact ⟨u, by rw [ht2, List.append_assoc, hu, hres]⟩
  · rcases h1.only k with h4 | h4
    · exact absurd h4 hk
    · exact h4

/-- The number of files of the copy. -/
def Spec.copyFiles (nfile : Option Nat) (old : Nat) : Nat :=
  match nfile with
  | none => old
  | some n => if old = 0 then 0 else n

/-- **C51** (partial: all rows must have been written, rows have at least one byte, a row fits into the buffer, the attributes
are in machine byte order, and no files of an older block are in the way). `bigfile-copy` makes a second block with the same
rows and the same attributes, in as many files as requested; the source is as it was, and nothing else is touched. -/
theorem C51_copy_partial (env : Env) (K : Kind) (A : Content) (file block newfile newblock : CStr) (nfile : Option Nat)
    (buffersize : Nat) (buf : Int) (mem : Mem) (w : World) (hnf : w.faults = noFaults) (ht : TreeOk w.fs)
    (hf : file ≠ []) (hfl : file.length ≤ 8192) (hnew : newfile ≠ []) (hnewl : newfile.length ≤ 8192)
    (hsrc : OnDisk env K w.fs (pathJoin file block) A) (hfull : A.full)
    (hap : Apart (pathJoin file block) (pathJoin newfile newblock)) (hroom : Room w.fs (pathJoin newfile newblock))
    (hlen : (pathJoin newfile newblock).length ≤ 8192) (hmeta : isMeta (pathJoin newfile newblock) = false)
    (hblank : hasBlank (pathJoin newfile newblock) = false)
    (hn : 0 < copyFiles nfile A.nfile ∨ A.size = 0) (hnmax : copyFiles nfile A.nfile ≤ 16777216)
    (hov : copyFiles nfile A.nfile * A.size < 18446744073709551616)
    (hbuf : K.w * K.nm ≤ buffersize) (hbufm : A.size + buffersize < 9223372036854775808) :
    ∃ w', copyMain env file block newfile newblock nfile buffersize buf mem w = .ok .done w' ∧ w'.faults = noFaults ∧
      OnDisk env K w'.fs (pathJoin newfile newblock) (A.inFiles (copyFiles nfile A.nfile)) ∧
      OnDisk env K w'.fs (pathJoin file block) A ∧
      ∀ k, w'.fs.node k ≠ w.fs.node k → (∃ id, k = fileKey (pathJoin newfile newblock) id) ∨
        (k <+: resolve (pathJoin newfile newblock) ∧ w.fs.node k = none ∧ w'.fs.node k = some .dir) := by
  have hres := resolve_join newfile newblock hnew
  have hpre : ∀ k, k <+: resolve newfile → k <+: resolve (pathJoin newfile newblock) := by
    intro k hk
    rw [hres]
    exact hk.trans (List.prefix_append _ _)
  have hsrcdir : w.fs.node (resolve (pathJoin file block)) = some .dir := by
    obtain ⟨_, _, b, hb, _, h⟩ := hsrc
    rw [← hb]
    exact h.dir.dir
  have hfdir : w.fs.node (resolve file) = some .dir := by
    rw [resolve_join file block hf] at hsrcdir
    by_cases he : names block = []
    · rw [he, List.append_nil] at hsrcdir; exact hsrcdir
    · exact ht.prefix_dir _ _ (by rw [hsrcdir]; rfl) he
  -- open the file
  obtain ⟨w1, e1, f1, nf1⟩ := bigFileOpen_succeeds hnf hf (by rw [hfdir]; rfl) hfl
  -- make the new one
  obtain ⟨w2, e2, nf2, t2, d2, c2⟩ := bigFileCreate_makes nf1 (by rw [f1]; exact ht) hnew hnewl
    (fun k hk => by rw [f1]; exact hroom.way k (hpre k hk))
  rw [f1] at c2
  have same2 : ∀ k, ¬ k <+: resolve (pathJoin newfile newblock) ∨ (w.fs.node k).isSome = true → w2.fs.node k = w.fs.node k := by
    intro k hk
    by_cases he : w2.fs.node k = w.fs.node k
    · exact he
    · obtain ⟨h1, h2, h3⟩ := c2 k he
      rcases hk with hk | hk
      · exact absurd (hpre k h1) hk
      · rw [h2] at hk; cases hk
  have src2 : OnDisk env K w2.fs (pathJoin file block) A :=
    hsrc.congr (same2 _ (Or.inr (by rw [hsrcdir]; rfl))) (fun id => same2 _ (Or.inl (hap.notBelow id)))
  -- open the source
  obtain ⟨bb, w3, e3, f3, nf3, b3, hd3, hs3⟩ := src2.opens nf2
  have hsz := hs3.size
  have hnfl := hs3.nfile
  -- make the new block
  have hkeynot : ∀ id, ¬ fileKey (pathJoin newfile newblock) id <+: resolve (pathJoin newfile newblock) := by
    intro id hc
    have := hc.length_le
    rw [fileKey_eq] at this
    simp at this
    omega
  have room3 : Room w3.fs (pathJoin newfile newblock) := by
    rw [f3]
    refine ⟨?_, ?_, ?_⟩
    · intro k hk hfile
      by_cases he : w2.fs.node k = w.fs.node k
      · apply hroom.way k hk
        unfold IsFile at hfile ⊢
        rw [← he]
        exact hfile
      · obtain ⟨d, hd⟩ := hfile
        rw [(c2 k he).2.2] at hd
        cases hd
    · intro id
      rw [same2 _ (Or.inl (hkeynot id))]
      exact hroom.files id
    · rw [same2 _ (Or.inl (hkeynot .attr))]
      exact hroom.noOld
  have hsum := copySizes_sum (copyFiles nfile A.nfile) A.size hov hn
  have hlenS := copySizes_length (copyFiles nfile A.nfile) A.size
  obtain ⟨w4, e4⟩ := createBlock_succeeds (env := env) (dt := bb.dtype) (nmemb := bb.nmemb)
    (fsize := copySizes (copyFiles nfile A.nfile) A.size) (name := newblock) nf3 hnew (by rw [f3]; exact d2) hlen hmeta hblank room3
  have hplain : PlainDtype (dtypeNormalize env.m bb.dtype) := hs3.savable.header.dt.normalize env.m
  have hsmall := hs3.ok.layout.small
  have hszl := hs3.ok.layout.size
  have hitem : itemsize env.m (dtypeNormalize env.m bb.dtype) = K.w := by rw [itemsize_normalize]; exact hs3.ok.item
  obtain ⟨h4, nf4⟩ := fresh_holds hs3.savable.fmt nf3 hlen hmeta hplain hitem hs3.ok.item0 hs3.ok.memb hs3.ok.memb0 hs3.ok.felInt
    hs3.ok.buf hs3.ok.bufMax (by rw [hlenS]; exact hnmax) (by rw [hsum]; omega) (by rw [hsum, ← hsz, hszl]; exact hs3.ok.offs) e4
    (fun d hd => room3.way _ (List.prefix_refl _) ⟨d, hd⟩) room3.noOld (fun f => room3.files _)
  rw [normalize_idem, hs3.kind] at h4
  change Holds env K _ w4.fs _ at h4
  obtain ⟨⟨t4, l4⟩, c4, _⟩ := wlp_ok (createBlock_out env newfile newblock (some bb.dtype) bb.nmemb
    (copySizes (copyFiles nfile A.nfile) A.size) w3 (by rw [f3]; exact t2) hnew hlen) e4
  have c4' : ∀ k, w4.fs.node k ≠ w3.fs.node k → (∃ id, k = fileKey (pathJoin newfile newblock) id) ∨
      k <+: resolve (pathJoin newfile newblock) := by
    intro k hk
    rcases c4 k hk with h | ⟨t, h, hk⟩
    · exact Or.inl h
    · obtain ⟨u, hu⟩ := h
      exact Or.inr ⟨u, by rw [hk, List.append_assoc, hu, hres]⟩
  generalize hbn : freshBlock env (pathJoin newfile newblock) bb.dtype bb.nmemb (copySizes (copyFiles nfile A.nfile) A.size) = bn
    at h4 e4
  have hbase : bn.basename = pathJoin newfile newblock := by rw [← hbn]; rfl
  have hs4 : Holds env K bb w4.fs A := by
    rw [← f3] at hs3
    refine hs3.congr ?_ ?_
    · rw [hs3.dir.dir]
      exact (l4 _).1 hs3.dir.dir
    · intro id
      by_cases he : w4.fs.node (fileKey bb.basename id) = w3.fs.node (fileKey bb.basename id)
      · exact he
      · rw [b3] at he
        rcases c4' _ he with ⟨id', h⟩ | h
        · exact absurd (C38_files_distinct _ _ _ _ h).1 hap.ne
        · exact absurd h (hap.notBelow id)
  -- attributes
  obtain ⟨s', ea, ha1, ha2, ha3⟩ := copyAttrs_all (env := env) hs4.savable.attrs hs4.attrs hs4.tame.1 h4.savable.attrs h4.attrs
  have hdirty : bn.attrset.dirty = false := h4.pending
  have hdirtyb : bn.dirty = false := by rw [← hbn]; rfl
  rw [hdirty, Bool.false_or] at ha3
  have h5 : Holds env K { bn with attrset := s' } w4.fs
      { Content.fresh (copySizes (copyFiles nfile A.nfile) A.size) with
        attrs := A.attrs, pending := !bb.attrset.list.isEmpty } :=
    h4.rewritten ⟨rfl, rfl, rfl, rfl, rfl, rfl, rfl⟩
      ⟨h4.ok.layout.nfile, h4.ok.layout.nck, h4.ok.layout.foff, h4.ok.layout.size, h4.ok.layout.small, h4.ok.layout.ck32⟩
      rfl rfl rfl (fun _ _ _ => rfl) ha1 ha2 ha3 hs4.tame.1 (h4.tame.2 rfl) (h4.saved rfl) (h4.header hdirtyb)
      ⟨h4.dir.header, h4.dir.attr⟩
  -- data
  have hap' : Apart bb.basename (pathJoin newfile newblock) := by rw [b3]; exact hap
  obtain ⟨bn6, w6, e6, nf6, hb6, ho6, h6⟩ : ∃ bn6 w6, copyData env bb { bn with attrset := s' } buffersize buf mem w4 =
        .ok (.done, bn6) w6 ∧
      w6.faults = noFaults ∧ bn6.basename = pathJoin newfile newblock ∧ SameOutside (pathJoin newfile newblock) w4.fs w6.fs ∧
      Holds env K bn6 w6.fs { Content.fresh (copySizes (copyFiles nfile A.nfile) A.size) with
        attrs := A.attrs, pending := !bb.attrset.list.isEmpty, rows := A.rows } := by
    unfold copyData
    have hnm : 0 < bb.nmemb := by rw [hs4.ok.memb]; have := hs4.ok.memb0; omega
    by_cases hz : 0 < bb.size
    · rw [if_pos ⟨hnm, hz⟩]
      have hw := hs4.ok.felInt
      have hpos : 0 < K.nm * K.w := Nat.mul_pos hs4.ok.memb0 hs4.ok.item0
      have hrow : bb.nmemb * itemsize env.m bb.dtype = ((K.nm * K.w : Nat) : Int) := by
        rw [hs4.ok.memb, hs4.ok.item, Int.natCast_mul]
      have hcw : K.nm * K.w = K.w * K.nm := Nat.mul_comm _ _
      have hfi : fitsInt ((K.nm * K.w : Nat) : Int) = true := by
        unfold fitsInt
        simp only [Bool.and_eq_true, decide_eq_true_eq]
        omega
      have hchunk : 0 < buffersize / (K.nm * K.w) := Nat.div_pos (by omega) hpos
      have hchunkle : buffersize / (K.nm * K.w) ≤ buffersize := Nat.div_le_self _ _
      obtain ⟨bn6, w6, k1, k2, k3, _, k5, k6⟩ := copyLoop_spec (buffersize / (K.nm * K.w)) hchunk (by omega) hfull buf
        (pathJoin newfile newblock) hap'
        { Content.fresh (copySizes (copyFiles nfile A.nfile) A.size) with
          attrs := A.attrs, pending := !bb.attrset.list.isEmpty } hsum (bb.size + 1) { bn with attrset := s' } 0 mem w4
        (by omega) (by omega) hs4 nf4 hbase (by
          refine Eq.mp ?_ h5
          congr 2)
      refine ⟨bn6, w6, ?_, k2, k3, k5, k6⟩
      rw [hrow, hfi, u64_of_nat (by omega)]
      have hne : ¬ (((K.nm * K.w : Nat) : Int) = 0) := by omega
      simp only [bind, M.bind, Bool.not_true, Bool.false_or, hne, decide_false, Bool.false_eq_true, if_false, M.lift, M.pure]
      exact k1
    · rw [if_neg (fun hc => hz hc.2)]
      refine ⟨{ bn with attrset := s' }, w4, rfl, nf4, hbase, SameOutside.refl _ _, ?_⟩
      have hnone : (Content.fresh (copySizes (copyFiles nfile A.nfile) A.size)).rows = A.rows := by
       funext r
       show none = A.rows r
       cases h2 : A.rows r with
       | none => rfl
       | some bytes =>
         have := (hs4.rows r bytes h2).1
         omega
      rw [← hnone]
      exact h5
  -- close
  obtain ⟨w7, e7, nf7, ho7, h7⟩ := h6.closes nf6
  rw [hb6] at ho7 h7
  have hs7 : Holds env K bb w7.fs A := hs4.outside hap' (ho6.trans ho7)
  have hcl : blockClose env bb w7 = .ok 0 w7 := blockClose_clean hd3 (by rw [hs7.pending]; exact hsrc.1)
  refine ⟨w7, ?_, nf7, ?_, ?_, ?_⟩
  · have hns : bn.size = bb.size := by
      rw [h4.size, hsz]
      exact hsum
    have hnsel : pickFiles nfile bb.nfile = copyFiles nfile A.nfile := by
      unfold copyFiles pickFiles
      rw [hnfl]
      cases nfile with
      | none => rfl
      | some n =>
        dsimp only
        split
        · assumption
        · rfl
    rw [← hnsel, ← hsz] at e4
    unfold copyMain openBlock
    simp only [bind, M.bind]
    rw [e1]
    simp only [ne_eq, not_true_eq_false, if_false]
    rw [M.bind, e2]
    simp only [ne_eq, not_true_eq_false, if_false]
    rw [M.bind, e3]
    dsimp only
    rw [M.bind, e4]
    dsimp only
    rw [if_neg (by simp [hns]), M.bind, ea]
    simp only [M.lift, M.pure]
    rw [M.bind, show copyData env { bb with attrset := bb.attrset } { bn with attrset := s' } buffersize buf mem w4 = _ from e6]
    simp only [ne_eq, not_true_eq_false, if_false]
    rw [M.bind, e7]
    simp only [ne_eq, not_true_eq_false, if_false]
    rw [M.bind, show blockClose env { bb with attrset := bb.attrset } w7 = _ from hcl]
    rfl
  · refine Eq.mp ?_ h7
    congr 1
    have hA : A = ⟨A.size, A.nfile, A.rows, A.attrs, A.attrs, false⟩ := by
      have h1 := hsrc.1
      have h2 := hsrc.2.1
      cases A
      simp_all
    unfold Content.closed Content.inFiles Content.fresh
    dsimp only
    rw [hA]
    dsimp only
    rw [hsum, hlenS]
    cases he : bb.attrset.list.isEmpty with
    | false => rfl
    | true =>
      have hemp : A.attrs = AttrMap.empty := by
        rw [← hs4.attrs]
        obtain ⟨es, hi⟩ := hs4.savable.attrs
        rw [hi.view_eq]
        have : es = [] := by
          have h1 := hi.list
          rw [List.isEmpty_iff.mp he] at h1
          simpa using h1.symm
        rw [this]
        rfl
      rw [hemp]
      rfl
  · exact ⟨hsrc.1, hsrc.2.1, bb, b3, hd3, hs7⟩
  · intro k hk
    by_cases h8 : ∃ id, k = fileKey (pathJoin newfile newblock) id
    · exact Or.inl h8
    · right
      have h9 : w7.fs.node k = w4.fs.node k := (ho6.trans ho7) k (fun id he => h8 ⟨id, he⟩)
      rw [h9] at hk ⊢
      have hp : k <+: resolve (pathJoin newfile newblock) := by
        by_cases h10 : w4.fs.node k = w3.fs.node k
        · rw [h10, f3] at hk
          exact hpre k (c2 k hk).1
        · rcases c4' k h10 with h11 | h11
          · exact absurd h11 h8
          · exact h11
      have hdst : w4.fs.node (resolve (pathJoin newfile newblock)) = some .dir := by rw [← hbase]; exact h4.dir.dir
      have hd : w4.fs.node k = some .dir := by
        by_cases h10 : k = resolve (pathJoin newfile newblock)
        · rw [h10]; exact hdst
        · exact prefix_dir_of t4 (by rw [hdst]; rfl) hp h10
      refine ⟨hp, ?_, hd⟩
      rw [hd] at hk
      cases h10 : w.fs.node k with
      | none => rfl
      | some n =>
        cases n with
        | dir => exact absurd h10.symm hk
        | file d => exact absurd ⟨d, h10⟩ (hroom.way k hp)

/-- The copy can be opened, and the handle holds the content: by `C56_history_partial` every further operation is answered
accordingly. -/
theorem C51_opens (env : Env) (K : Kind) (A : Content) (base : CStr) (w : World) (h : OnDisk env K w.fs base A)
    (hnf : w.faults = noFaults) :
    ∃ b w', blockOpen env base w = .ok (0, some b) w' ∧ Holds env K b w'.fs A := by
  obtain ⟨b, w', e, f, _, _, _, h⟩ := h.opens hnf
  exact ⟨b, w', e, by rw [f]; exact h⟩

/-! ### The example -/

theorem runBOp_keeps (env : Env) (bb : Block) (op : BOp) : KeepsTree (runBOp env bb op) := by
  cases op with
  | write p a mem sw =>
    refine KeepsTree.bind (KeepsTree.lift _) ?_
    rintro ⟨rc, ptr⟩
    exact KeepsTree.ite (KeepsTree.pure _) (KeepsTree.bind (blockWrite_keeps _ _ _ _ _ _) fun _ => KeepsTree.pure _)
  | read p a mem sw =>
    refine KeepsTree.bind (KeepsTree.lift _) ?_
    rintro ⟨rc, ptr⟩
    exact KeepsTree.ite (KeepsTree.pure _) (KeepsTree.bind (blockRead_keeps _ _ _ _ _ _) fun _ => KeepsTree.pure _)
  | grow sizes => exact KeepsTree.bind (blockGrow_keeps _ _) fun _ => KeepsTree.pure _
  | attr op => exact KeepsTree.bind (KeepsTree.lift _) fun _ => KeepsTree.pure _
  | flush => exact KeepsTree.bind (blockFlush_keeps _ _) fun _ => KeepsTree.pure _
  | reopen =>
    exact KeepsTree.bind (KeepsTree.bind (blockClose_keeps _ _) fun _ => KeepsTree.bind (blockOpen_keeps _ _) fun _ =>
      KeepsTree.pure _) fun _ => KeepsTree.pure _

theorem runBOps_keeps (env : Env) (ops : List BOp) : ∀ bb, KeepsTree (runBOps env bb ops) := by
  induction ops with
  | nil => intro bb; exact KeepsTree.pure _
  | cons op ops ih => intro bb; exact KeepsTree.bind (runBOp_keeps _ _ _) fun _ => KeepsTree.bind (ih _) fun _ => KeepsTree.pure _

/-- Five rows and an attribute. -/
def exCopyOps : List BOp :=
  [.write 0 exSrc exMem 8, .write 2 exSrc exMem 8, .attr (.set b!"a" b!"i4" 1 exMem 100)]

/-- Make them in block `z` of the file `d`. -/
def exCopySrc : M Int := do
  let r ← createBlock exEnv b!"d" b!"z" (some b!"i4") 1 [2, 0, 3]
  match r.2 with
  | none => pure 7
  | some b =>
    let (_, b) ← runBOps exEnv b exCopyOps
    blockClose exEnv b

/-- What they are. -/
def exCopyA : Content := ((Content.fresh [2, 0, 3]).after exEnv exKind exCopyOps).closed

theorem exCopySrc_keeps : KeepsTree exCopySrc := by
  refine KeepsTree.bind (createBlock_keeps _ _ _ _ _ _) ?_
  rintro ⟨rc, o⟩
  cases o with
  | none => exact KeepsTree.pure _
  | some b => exact KeepsTree.bind (runBOps_keeps _ _ _) fun _ => blockClose_keeps _ _

theorem KeepsTree.ok {α : Type} {m : M α} {w w' : World} {x : α} (h : KeepsTree m) (ht : TreeOk w.fs) (e : m w = .ok x w') :
    TreeOk w'.fs := (wlp_ok (h w ht) e).1

theorem exCopy_legal : (Content.fresh [2, 0, 3]).allLegal exEnv exKind exCopyOps :=
  ⟨⟨by decide, exSrc_array, fun h => absurd h (by decide), fun _ => by decide +kernel⟩,
    ⟨by decide, exSrc_array, fun h => absurd h (by decide), fun _ => by decide +kernel⟩,
    ⟨⟨by decide, by decide, by decide, by decide⟩, exTame⟩, trivial⟩

theorem Room.of_absent {fs : FS} {base : CStr} (ht : TreeOk fs) (h0 : fs.node (resolve base) = none)
    (h : ∀ k ∈ fs.dom, k <+: resolve base → fs.node k = some .dir) : Room fs base := by
  have hid : ∀ id, fs.node (fileKey base id) = none := by
    intro id
    cases hn : fs.node (fileKey base id) with
    | none => rfl
    | some n =>
      have := ht.parent (fileKey base id) (by rw [hn]; rfl) (by rw [fileKey_eq]; simp)
      rw [fileKey_eq, List.dropLast_concat, h0] at this
      cases this
  refine ⟨?_, fun id => by rw [hid]; simp, hid _⟩
  rintro k hk ⟨d, hd⟩
  have := h k (ht.dom k (by rw [hd]; rfl)) hk
  rw [hd] at this
  cases this

theorem exCopy_room : Room exTreeWorld.fs (pathJoin b!"d" b!"z") := Room.of_absent exTree_ok (by decide) (by decide)

theorem exCopy_fresh : ∃ b w0, createBlock exEnv b!"d" b!"z" (some b!"i4") 1 [2, 0, 3] exTreeWorld = .ok (0, some b) w0 ∧
    b.basename = b!"d/z" ∧ w0.faults = noFaults ∧ Holds exEnv exKind b w0.fs (Content.fresh [2, 0, 3]) := by
  obtain ⟨w0, e0⟩ := createBlock_succeeds (env := exEnv) (w := exTreeWorld) (bf := b!"d") (name := b!"z") (dt := b!"i4")
    (nmemb := 1) (fsize := [2, 0, 3]) rfl (by decide) (by decide) (by decide) (by decide) (by decide) exCopy_room
  obtain ⟨h1, nf1⟩ := fresh_holds (dt := b!"i4") exFmt rfl (by decide) (by decide) exB_good.dt (by decide : _ = ((4 : Nat) : Int))
    (by decide) (by decide : (1 : Int) = ((1 : Nat) : Int)) (by decide) (by decide) (by decide)
    (by decide) (by decide) (by decide) (by decide) e0 (fun d hd => exCopy_room.way _ (List.prefix_refl _) ⟨d, hd⟩)
    exCopy_room.noOld (fun f => exCopy_room.files _)
  have hK : (⟨dtypeNormalize exEnv.m (dtypeNormalize exEnv.m b!"i4"), 4, 1⟩ : Kind) = exKind := by
    unfold exKind; congr 1
  rw [hK] at h1
  exact ⟨_, w0, e0, rfl, nf1, h1⟩

/-- A legal history followed by a close. -/
theorem history_closed {env : Env} {K : Kind} {ops : List BOp} {b : Block} {w : World} {A : Content} (h : Holds env K b w.fs A)
    (nf : w.faults = noFaults) (hl : A.allLegal env K ops) :
    ∃ xs b2 w2 w3, runBOps env b ops w = .ok (xs, b2) w2 ∧ blockClose env b2 w2 = .ok 0 w3 ∧ w3.faults = noFaults ∧
      OnDisk env K w3.fs b.basename (A.after env K ops).closed := by
  obtain ⟨xs, b2, w2, e2, _, h2, nf2, hb2⟩ := C56_history_partial env K ops _ w _ h nf hl
  obtain ⟨w3, e3, nf3, _, h3⟩ := h2.closes nf2
  rw [hb2] at h3
  exact ⟨xs, b2, w2, w3, e2, e3, nf3, h3⟩

theorem exCopy_src : ∃ w, exCopySrc exTreeWorld = .ok 0 w ∧ w.faults = noFaults ∧ TreeOk w.fs ∧
    OnDisk exEnv exKind w.fs b!"d/z" exCopyA := by
  obtain ⟨b, w0, e0, hb, nf1, h1⟩ := exCopy_fresh
  obtain ⟨xs, b2, w2, w3, e2, e3, nf3, h3⟩ := history_closed h1 nf1 exCopy_legal
  have e : exCopySrc exTreeWorld = .ok 0 w3 := by
    unfold exCopySrc
    simp only [bind, M.bind]
    rw [e0]
    simp only
    rw [M.bind, e2]
    exact e3
  rw [hb] at h3
  have ht : TreeOk w3.fs := exCopySrc_keeps.ok exTree_ok e
  have hA : exCopyA = ((Content.fresh [2, 0, 3]).after exEnv exKind exCopyOps).closed := by unfold exCopyA; exact Eq.refl _
  rw [← hA] at h3
  exact ⟨w3, e, nf3, ht, h3⟩

/-- The example of `C51_copy_partial`: five rows and an attribute are copied to block `new/y` of another file, from three
files into two, two rows at a time. -/
example : ∃ w w', exCopySrc exTreeWorld = .ok 0 w ∧
    copyMain exEnv b!"d" b!"z" b!"e/f" b!"new/y" (some 2) 9 500 exMem w = .ok .done w' ∧
    OnDisk exEnv exKind w'.fs b!"e/f/new/y" (exCopyA.inFiles 2) := by
  obtain ⟨w, e, nf, ht, h⟩ := exCopy_src
  have hchk : (exCopySrc exTreeWorld).fs?.map (fun fs => (fs.node (resolve b!"e/f/new/y") = none ∧
      ∀ k ∈ fs.dom, k <+: resolve b!"e/f/new/y" → fs.node k = some .dir : Bool)) = some true := by decide +kernel
  rw [e] at hchk
  simp only [Res.fs?, Option.map_some, Option.some.injEq, decide_eq_true_eq] at hchk
  have hroom : Room w.fs (pathJoin b!"e/f" b!"new/y") := Room.of_absent ht hchk.1 hchk.2
  obtain ⟨w', e', _, h', _⟩ := C51_copy_partial exEnv exKind exCopyA b!"d" b!"z" b!"e/f" b!"new/y" (some 2) 9 500 exMem w nf ht
    (by decide) (by decide) (by decide) (by decide) h (by
      intro r hr
      have : ∀ r < 5, (exCopyA.rows r).isSome = true := by decide +kernel
      exact this r hr)
    ⟨by decide, fun id he => by
        rw [fileKey_eq] at he
        exact absurd (congrArg List.length he) (by simp; decide), fun id he => by
        rw [fileKey_eq] at he
        exact absurd (List.IsPrefix.trans (List.prefix_append _ _) he) (by decide)⟩
    hroom (by decide) (by decide) (by decide) (by decide) (by decide) (by decide) (by decide) (by decide)
  exact ⟨w, w', e, e', h'⟩

/-- Copied onto itself, the block is lost: the source's files are truncated before they are read. -/
theorem C51_onto_itself : (((do let _ ← exCopySrc; copyMain exEnv b!"d" b!"z" b!"d" b!"z" none 9 500 exMem) exTreeWorld : Res Exit).val?) =
    some .failed := by decide +kernel

/-- With a buffer smaller than a row the loop makes no progress. -/
theorem C51_small_buffer : (match ((do let _ ← exCopySrc; copyMain exEnv b!"d" b!"z" b!"d" b!"y" none 3 500 exMem) exTreeWorld : Res Exit) with
    | .hang => true
    | _ => false) = true := by decide +kernel

end Verif
