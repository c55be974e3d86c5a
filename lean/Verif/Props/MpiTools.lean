import Verif.Spec.MpiTools
import Verif.Props.Shared
import Verif.Props.MpiFile
import Verif.Props.Mpiu
import Verif.Props.KillFiles
import Verif.Proof.RecordsAll
/-!
# C87: the parallel tools as whole programs
-/

set_option autoImplicit false

namespace Verif

open Spec

variable {env : Env} {K : Kind} {A B : Content} {w : World} {n : Nat}

/-! ## Parts -/

/-- All processes open a file that is there. -/
theorem fileOpen_all (n : Nat) (bf : CStr) (w : World) (hn : 0 < n) (hnf : w.faults = noFaults) (ht : TreeOk w.fs) (hne : bf ≠ [])
    (hlen : bf.length ≤ 8192) (h : (w.fs.node (resolve bf)).isSome = true) :
    (mpiFileOpen n bf).Ensures faultless w fun x w' => (∀ r, r < n → x r = (0, bf)) ∧ w'.fs.node = w.fs.node ∧ w'.faults = noFaults ∧
      TreeOk w'.fs := by
  obtain ⟨w1, e, f1, nf1⟩ := bigFileOpen_succeeds hnf hne h hlen
  unfold mpiFileOpen
  apply Phases.ensures_bind
  apply Phases.ensures_alone e
  refine root_exchange (k := fun out => fun r => ((out r).1, if r = 0 then bf else strdup bf)) hn 0 b!"cannot open" ?_
  intro out dom hlat ho
  refine ⟨fun r hr => Prod.ext (ho r hr) ?_, by rw [f1], nf1, (hlat (by rw [f1]; exact ht)).1⟩
  dsimp only
  split
  · rfl
  · exact strdup_short hlen

/-- All processes compute. -/
theorem lift_all {α : Type} {f : Nat → Option α} {a : Nat → α} (hf : ∀ r, r < n → f r = some (a r)) {Q : (Nat → α) → World → Prop}
    (h : ∀ (out : Nat → α) (dom : List Key), (∀ r, r < n → out r = a r) →
      (TreeOk w.fs → Later w.fs ⟨w.fs.node, dom⟩) → Q out ⟨⟨w.fs.node, dom⟩, w.faults, w.clock⟩) :
    (Phases.together n fun r => Prog.lift (f r)).Ensures faultless w Q := by
  apply Phases.ensures_together (P' := fun r => Prog.ret (a r))
  · intro r hr
    rw [hf r hr]
    rfl
  · refine ⟨0, fun es s hr => ?_⟩
    have hs : es = [] ∧ s = startAll (fun r => .ret (a r)) w.fs.node := by
      cases hr with
      | nil => exact ⟨rfl, rfl⟩
      | cons h _ =>
        cases h with
        | file r op k t a nd hr ht he => cases ht
        | coll c hne hall =>
          obtain ⟨r, hr⟩ := List.exists_mem_of_ne_nil _ hne
          exact absurd (hall r hr).2 (by simp [startAll, Prog.WaitsAt])
    obtain ⟨rfl, rfl⟩ := hs
    exact ⟨Nat.le_refl _, fun _ => ⟨_, fun r _ => rfl, fun out dom hlat ho => h out dom ho hlat⟩⟩

/-- Closing handles with which nothing was changed does nothing. -/
theorem mpiClose_clean {H : Nat → Block} (h : ∀ r, r < n → (H r).dirty = false) (ha : (H 0).attrset.dirty = false) :
    mpiClose env n H w = .ok 0 w := by
  have hd : (reducedRoot n H).dirty = false := by
    show ((List.range n).any fun r => (H r).dirty) = false
    rw [List.any_eq_false]
    intro r hr
    rw [h r (List.mem_range.mp hr)]
    decide
  have ha' : (reducedRoot n H).attrset.dirty = false := ha
  unfold mpiClose mpiFlush blockFlush flushHeader
  simp [hd, ha', bind, M.bind, pure, M.pure]

theorem evenSplit_sum (size nf : Nat) (h : size * nf < 18446744073709551616) (hn : 0 < nf ∨ size = 0) :
    (evenSplit size nf).sum = size := by
  by_cases h0 : 0 < nf
  · exact (C42_split_partial size nf h0 h).2.1
  · have hz : nf = 0 := by omega
    rw [hz, hn.resolve_left h0]
    rfl

theorem evenSplit_length (size nf : Nat) : (evenSplit size nf).length = nf := by simp [evenSplit]

/-- Two blocks that are apart are so whatever their paths look like. -/
theorem Spec.Apart.renamed {a a' b b' : CStr} (h : Apart a b) (ha : resolve a' = resolve a) (hb : resolve b' = resolve b) : Apart a' b' :=
  ⟨by rw [ha, hb]; exact h.ne, fun id => by rw [fileKey_eq, ha, hb, ← fileKey_eq]; exact h.notFile id,
    fun id => by rw [fileKey_eq, ha, hb, ← fileKey_eq]; exact h.notBelow id⟩

/-- Handles that all hold the content. -/
theorem holdsAll_of_each {H : Nat → Block} {fs : FS} (hn : 0 < n ∧ n < 2147483648) (h : ∀ r, r < n → Holds env K (H r) fs B)
    (hs : ∀ r, r < n → SameShape (H 0) (H r)) (hz : (0 : Byte) ∉ (H 0).basename) : HoldsAll env K n H fs B :=
  ⟨hn.1, hn.2, H 0, h 0 hn.1, hz, fun hd => ⟨0, hn.1, hd⟩, fun r hr => ⟨hs r hr, (h r hr).ok.layout, (h r hr).savable.attrs,
    (h r hr).attrs.trans (h 0 hn.1).attrs.symm, (h r hr).pending.trans (h 0 hn.1).pending.symm⟩⟩

theorem pickFiles_eq (nfile : Option Nat) (old : Nat) : pickFiles nfile old = copyFiles nfile old := by
  unfold copyFiles pickFiles
  cases nfile with
  | none => rfl
  | some n =>
    dsimp only
    split
    · assumption
    · rfl

/-! ## Before the data is copied -/

/-- What all processes have when the data is to be copied: the handles `src` of the source, with nothing to be stored, and the handles `H`
of the new block, which has the attributes of the source and no rows. -/
structure Prepared (env : Env) (K : Kind) (A : Content) (n : Nat) (old new : CStr) (fsize : List Nat) (fs : FS)
    (src H : Nat → Block) (w : World) : Prop where
  source : ∀ r, r < n → Holds env K (src r) w.fs A
  sourceBase : ∀ r, r < n → (src r).basename = old
  clean : ∀ r, r < n → (src r).dirty = false ∧ (src r).attrset.dirty = false
  block : ∃ P : Bool, (P = false → A.attrs = AttrMap.empty) ∧
    ∀ r, r < n → Holds env K (H r) w.fs { Content.fresh fsize with attrs := A.attrs, pending := P }
  shape : ∀ r, r < n → SameShape (H 0) (H r)
  sums : ∀ r, r < n → ∀ f, (H r).fchecksum.getD f 0 = 0
  base : (H 0).basename = new
  faults : w.faults = noFaults
  changed : ∀ k, w.fs.node k ≠ fs.node k → (∃ id, k = fileKey new id) ∨ (k <+: resolve new ∧ fs.node k = none ∧ w.fs.node k = some .dir)

theorem isEmpty_attrs {b : Block} {fs : FS} (h : Holds env K b fs A) (he : b.attrset.list.isEmpty = true) : A.attrs = AttrMap.empty := by
  rw [← h.attrs]
  obtain ⟨es, hi⟩ := h.savable.attrs
  rw [hi.view_eq]
  have : es = [] := by
    have h1 := hi.list
    rw [List.isEmpty_iff.mp he] at h1
    exact List.map_eq_nil_iff.mp h1.symm
  subst this
  rfl

theorem broadcast_lists {b : Block} {fs : FS} (h : Holds env K b fs A) (hname : (0 : Byte) ∉ b.basename) (r : Nat) :
    (mpiBroadcast env b r).attrset.list.isEmpty = b.attrset.list.isEmpty ∧ (mpiBroadcast env b r).dirty = b.dirty := by
  unfold mpiBroadcast
  by_cases h0 : r = 0
  · rw [if_pos h0]; exact ⟨rfl, rfl⟩
  · rw [if_neg h0]
    obtain ⟨h1, _⟩ := C34_pack_unpack env env b rfl h.ok.layout hname h.savable.base h.savable.attrs
    refine ⟨?_, h1.dirty.1⟩
    have := congrArg List.length h1.order
    unfold listAttrs at this
    rw [List.length_map, List.length_map] at this
    rw [Bool.eq_iff_iff, List.isEmpty_iff_length_eq_zero, List.isEmpty_iff_length_eq_zero, this]

/-- All that comes before the data is copied succeeds. -/
theorem tool_prepares (env : Env) (K : Kind) (A : Content) (file block newfile newblock : CStr) (nfile : Option Nat) (size : Nat → Nat)
    (check : Bool) (n : Nat) (w : World) (hnf : w.faults = noFaults) (ht : TreeOk w.fs) (hn : 0 < n ∧ n < 2147483648)
    (hf : file ≠ []) (hfl : file.length ≤ 8192) (hnew : newfile ≠ []) (hnewl : newfile.length ≤ 8192)
    (hz : (0 : Byte) ∉ mpiPath file block) (hlen : (mpiPath file block).length ≤ 8192)
    (hzn : (0 : Byte) ∉ mpiPath newfile newblock) (hlenn : (mpiPath newfile newblock).length ≤ 8192)
    (hmeta : isMeta (pathJoin newfile newblock) = false) (hblank : hasBlank (pathJoin newfile newblock) = false)
    (hsrc : OnDisk env K w.fs (pathJoin file block) A)
    (hap : Apart (pathJoin file block) (pathJoin newfile newblock)) (hroom : Room w.fs (pathJoin newfile newblock))
    (hfiles : 0 < copyFiles nfile A.nfile ∨ size A.size = 0) (hnmax : copyFiles nfile A.nfile ≤ 16777216)
    (hov : size A.size * copyFiles nfile A.nfile < 18446744073709551616)
    (hle : size A.size ≤ A.size) (hcheck : check = true → size A.size = A.size) :
    (mpiToolPrepare env n file block newfile newblock nfile size check).Ensures faultless w fun x w1 => ∃ src H, x = .ok (src, H) ∧
      Prepared env K A n (mpiPath file block) (mpiPath newfile newblock) (evenSplit (size A.size) (copyFiles nfile A.nfile)) w.fs src H w1 := by
  have hres := resolve_join newfile newblock hnew
  have hresm : resolve (mpiPath newfile newblock) = resolve (pathJoin newfile newblock) := resolve_mpiPath newfile newblock hnew
  have hpre : ∀ k, k <+: resolve newfile → k <+: resolve (pathJoin newfile newblock) := by
    intro k hk
    rw [hres]
    exact hk.trans (List.prefix_append _ _)
  have hsrcdir : w.fs.node (resolve (pathJoin file block)) = some .dir := by
    obtain ⟨_, _, b, hb, _, h⟩ := hsrc
    rw [← hb]
    exact h.dir.dir
  have hfdir : w.fs.node (resolve file) = some .dir := by
    rw [resolve_join file block hf] at hsrcdir
    by_cases he : names block = []
    · rw [he, List.append_nil] at hsrcdir; exact hsrcdir
    · exact ht.prefix_dir _ _ (by rw [hsrcdir]; rfl) he
  unfold mpiToolPrepare
  -- open the file
  apply Phases.ensures_bind
  refine Phases.ensures_mono (fileOpen_all n file w hn.1 hnf ht hf hfl (by rw [hfdir]; rfl)) ?_
  rintro bf w1 ⟨o1, o2, nf1, t1⟩
  dsimp only
  apply together0_good (fun r hr => by rw [o1 r hr])
  rw [o1 0 hn.1]
  -- open the source
  have src1 : OnDisk env K w1.fs (mpiPath file block) A :=
    (hsrc.congr (by rw [o2]) (fun id => by rw [o2])).renamed (resolve_mpiPath file block hf) hlen (isMeta_mpiPath file block)
  obtain ⟨b, w2, e2, f2, nf2, b2, hd2, hs2⟩ := src1.opens nf1
  have hzb : (0 : Byte) ∉ b.basename := by rw [b2]; exact hz
  have e2' : mpiOpenBlock env file block w1 = .ok (0, some (mpiBroadcast env b)) w2 := by
    unfold mpiOpenBlock mpiOpen
    simp only [bind, M.bind]
    rw [e2]
    rfl
  apply Phases.ensures_bind
  apply Phases.ensures_alone e2'
  have hsz := hs2.size
  have hnfl := hs2.nfile
  -- the new file
  apply Phases.ensures_bind
  refine Phases.ensures_mono (C73_create n newfile w2 hn.1 nf2 (by rw [f2]; exact t1) hnew hnewl
    (fun k hk => by
      have := hroom.way k (hpre k hk)
      unfold IsFile at this ⊢
      rw [f2, o2]
      exact this)) ?_
  rintro bfnew w3 ⟨p1, nf3, t3, d3, c3⟩
  rw [f2, o2] at c3
  apply together0_good (fun r hr => by rw [p1 r hr])
  rw [p1 0 hn.1]
  have same3 : ∀ k, ¬ k <+: resolve (pathJoin newfile newblock) ∨ (w.fs.node k).isSome = true → w3.fs.node k = w.fs.node k := by
    intro k hk
    by_cases he : w3.fs.node k = w.fs.node k
    · exact he
    · obtain ⟨h1, h2, h3⟩ := c3 k he
      rcases hk with hk | hk
      · exact absurd (hpre k h1) hk
      · rw [h2] at hk; cases hk
  have hkeynot : ∀ id, ¬ fileKey (pathJoin newfile newblock) id <+: resolve (pathJoin newfile newblock) := by
    intro id hc
    have := hc.length_le
    rw [fileKey_eq] at this
    simp at this
    omega
  have room3 : Room w3.fs (pathJoin newfile newblock) := by
    refine ⟨?_, ?_, ?_⟩
    · intro k hk hfile
      by_cases he : w3.fs.node k = w.fs.node k
      · apply hroom.way k hk
        unfold IsFile at hfile ⊢
        rw [← he]
        exact hfile
      · obtain ⟨d, hd⟩ := hfile
        rw [(c3 k he).2.2] at hd
        cases hd
    · intro id
      rw [same3 _ (Or.inl (hkeynot id))]
      exact hroom.files id
    · rw [same3 _ (Or.inl (hkeynot .attr))]
      exact hroom.noOld
  have hs3 : Holds env K b w3.fs A := by
    refine hs2.congr ?_ (fun id => ?_)
    · rw [o2, b2, resolve_mpiPath file block hf]
      exact same3 _ (Or.inr (by rw [hsrcdir]; rfl))
    · rw [o2]
      apply same3
      left
      rw [fileKey_eq, b2, resolve_mpiPath file block hf, ← fileKey_eq]
      exact hap.notBelow id
  -- the new block
  have hsum := evenSplit_sum (size A.size) (copyFiles nfile A.nfile) hov hfiles
  have hlenS := evenSplit_length (size A.size) (copyFiles nfile A.nfile)
  have hplain : PlainDtype (dtypeNormalize env.m b.dtype) := hs3.savable.header.dt.normalize env.m
  have hsmall := hs3.ok.layout.small
  have hszl := hs3.ok.layout.size
  have hoffs := hs3.ok.offs
  have hb0 : mpiBroadcast env b 0 = b := rfl
  rw [hb0, hsz, hnfl, pickFiles_eq]
  apply Phases.ensures_bind
  refine Phases.ensures_mono (created_broadcast env newfile newblock b.dtype b.nmemb (evenSplit (size A.size) (copyFiles nfile A.nfile)) n
    K.w K.nm w3 hnew hzn hlenn hmeta hblank hn nf3 t3 d3 room3 hs3.savable.fmt hplain hs3.ok.item hs3.ok.item0 hs3.ok.memb hs3.ok.memb0
    hs3.ok.felInt hs3.ok.buf hs3.ok.bufMax (by rw [hlenS]; exact hnmax) (by rw [hsum]; omega)
    (by rw [hsum]; refine Nat.lt_of_le_of_lt (Nat.mul_le_mul_right _ hle) ?_; rw [← hsz, hszl]; exact hoffs)) ?_
  rintro ⟨c, oH⟩ w4 ⟨bn, rfl, q1, h4, q2, q3, q4, q5, nf4, ⟨t4, l4⟩, c4⟩
  rw [hs3.kind] at h4
  change Holds env K _ w4.fs _ at h4
  dsimp only at q1 ⊢
  apply together0_good q1
  have hzn' : (0 : Byte) ∉ bn.basename := by rw [q5]; exact hzn
  have hs4 : Holds env K b w4.fs A := by
    refine hs3.congr ?_ ?_
    · rw [hs3.dir.dir]
      exact (l4 _).1 hs3.dir.dir
    · intro id
      by_cases he : w4.fs.node (fileKey b.basename id) = w3.fs.node (fileKey b.basename id)
      · exact he
      · rw [fileKey_eq, b2, resolve_mpiPath file block hf, ← fileKey_eq] at he
        rcases c4 _ he with ⟨id', h⟩ | h
        · exact absurd (C38_files_distinct _ _ _ _ h).1 hap.ne
        · exact absurd h (hap.notBelow id)
  have hns : bn.size = A.size ∨ check = false := by
    cases hc : check with
    | false => exact Or.inr rfl
    | true =>
      left
      rw [h4.size]
      exact hsum.trans (hcheck hc)
  rw [if_neg (by
    rintro ⟨h1, h2⟩
    rcases hns with h | h
    · exact h2 h
    · rw [h] at h1; cases h1)]
  -- attributes
  have hsr : ∀ r, Holds env K (mpiBroadcast env b r) w4.fs A := fun r => (hs4.broadcast hzb r).1
  have hnr : ∀ r, Holds env K (mpiBroadcast env bn r) w4.fs (Content.fresh _) := fun r => (h4.broadcast hzn' r).1
  have hall : ∀ r, ∃ s', copyAttrs env (mpiBroadcast env b r).attrset (mpiBroadcast env b r).attrset.list (mpiBroadcast env bn r).attrset =
      some (s', (mpiBroadcast env b r).attrset) ∧ WellAttrs env.m s' ∧ attrView env.m s' = A.attrs ∧ s'.dirty = !b.attrset.list.isEmpty := by
    intro r
    obtain ⟨s', ea, ha1, ha2, ha3⟩ := copyAttrs_all (env := env) (hsr r).savable.attrs (hsr r).attrs (hsr r).tame.1 (hnr r).savable.attrs
      (hnr r).attrs
    have hp : (mpiBroadcast env bn r).attrset.dirty = false := (hnr r).pending
    rw [hp, Bool.false_or, (broadcast_lists hs4 hzb r).1] at ha3
    exact ⟨s', ea, ha1, ha2, ha3⟩
  apply Phases.ensures_bind
  apply lift_all (a := fun r => ((hall r).choose, (mpiBroadcast env b r).attrset)) (fun r _ => (hall r).choose_spec.1)
  intro out dom hout hlat
  apply Phases.ensures_pure
  refine ⟨_, _, rfl, ?_⟩
  have hsrc' : ∀ r, r < n → ({ mpiBroadcast env b r with attrset := (out r).2 } : Block) = mpiBroadcast env b r := by
    intro r hr
    rw [hout r hr]
  refine ⟨fun r hr => ?_, fun r hr => ?_, fun r hr => ?_, ⟨!b.attrset.list.isEmpty, fun hP => ?_, fun r hr => ?_⟩, fun r hr => ?_, fun r hr f => ?_,
    q5, nf4, fun k hk => ?_⟩
  · rw [hsrc' r hr]
    exact (hsr r).node rfl
  · rw [hsrc' r hr]
    exact (hs4.broadcast hzb r).2.1.base.trans b2
  · rw [hsrc' r hr]
    exact ⟨(broadcast_lists hs4 hzb r).2.trans hd2, (hsr r).pending.trans hsrc.1⟩
  · exact isEmpty_attrs hs4 (by simpa using hP)
  · rw [hout r hr]
    obtain ⟨_, ha1, ha2, ha3⟩ := (hall r).choose_spec
    have hr4 := hnr r
    have hdirtyb : (mpiBroadcast env bn r).dirty = false := (broadcast_lists h4 hzn' r).2.trans q2
    have h5 : Holds env K { mpiBroadcast env bn r with attrset := (hall r).choose } w4.fs
        { Content.fresh (evenSplit (size A.size) (copyFiles nfile A.nfile)) with attrs := A.attrs, pending := !b.attrset.list.isEmpty } :=
      hr4.rewritten ⟨rfl, rfl, rfl, rfl, rfl, rfl, rfl⟩
        ⟨hr4.ok.layout.nfile, hr4.ok.layout.nck, hr4.ok.layout.foff, hr4.ok.layout.size, hr4.ok.layout.small, hr4.ok.layout.ck32⟩
        rfl rfl rfl (fun _ _ _ => rfl) ha1 ha2 ha3 hs4.tame.1 (hr4.tame.2 rfl) (hr4.saved rfl) (hr4.header hdirtyb)
        ⟨hr4.dir.header, hr4.dir.attr⟩
    exact h5.node rfl
  · have := (h4.broadcast hzn' r).2.1
    exact ⟨this.dtype, this.nmemb, this.base, this.size, this.fsize, this.foffset, this.nfile⟩
  · show (mpiBroadcast env bn r).fchecksum.getD f 0 = 0
    rw [(h4.broadcast hzn' r).2.2]
    exact q4 f
  · change w4.fs.node k ≠ _ at hk
    show _ ∨ (_ ∧ _ ∧ w4.fs.node k = _)
    rw [hresm]
    by_cases h8 : ∃ id, k = fileKey (pathJoin newfile newblock) id
    · obtain ⟨id, h8⟩ := h8
      exact Or.inl ⟨id, by rw [h8, fileKey_eq, fileKey_eq, hresm]⟩
    · right
      have hp : k <+: resolve (pathJoin newfile newblock) := by
        by_cases h10 : w4.fs.node k = w3.fs.node k
        · rw [h10] at hk
          exact hpre k (c3 k hk).1
        · rcases c4 k h10 with h11 | h11
          · exact absurd h11 h8
          · exact h11
      have hdst : w4.fs.node (resolve (pathJoin newfile newblock)) = some .dir := by rw [← hresm, ← q5]; exact h4.dir.dir
      have hd : w4.fs.node k = some .dir := by
        by_cases h10 : k = resolve (pathJoin newfile newblock)
        · rw [h10]; exact hdst
        · exact prefix_dir_of t4 (by rw [hdst]; rfl) hp h10
      refine ⟨hp, ?_, hd⟩
      rw [hd] at hk
      cases h10 : w.fs.node k with
      | none => rfl
      | some nd =>
        cases nd with
        | dir => exact absurd h10.symm hk
        | file d => exact absurd ⟨d, h10⟩ (hroom.way k hp)

/-! ## The end -/

/-- How the program ends: the new block is on disk with the content `C`, the source is as it was, and nothing else has changed but that
directories were made on the way to the new block. -/
structure ToolDone (env : Env) (K : Kind) (A C : Content) (old new : CStr) (fs : FS) (e : Exit) (w' : World) : Prop where
  exit : e = .done
  made : OnDisk env K w'.fs new C
  source : OnDisk env K w'.fs old A
  changed : ∀ k, w'.fs.node k ≠ fs.node k → (∃ id, k = fileKey new id) ∨ (k <+: resolve new ∧ fs.node k = none ∧ w'.fs.node k = some .dir)

/-- What the new block holds after it was closed. -/
theorem closed_made (fsize : List Nat) (M : AttrMap) (P : Bool) (hP : P = false → M = AttrMap.empty) (T : Nat → Option (List Byte)) :
    Content.closed { { Content.fresh fsize with attrs := M, pending := P } with rows := T } = ⟨fsize.sum, fsize.length, T, M, M, false⟩ := by
  unfold Content.closed Content.fresh
  cases P with
  | true => rfl
  | false => rw [hP rfl]; rfl

section
variable {old new : CStr} {fsize : List Nat} {fs : FS} {src H : Nat → Block} {w1 : World}

/-- The new block was closed; the source is closed. -/
theorem tool_finishes {X : Nat → Block} {w2 w3 : World} {C : Content} (p : Prepared env K A n old new fsize fs src H w1) (hn : 0 < n)
    (hA : A.pending = false ∧ A.saved = A.attrs) (hap : Apart old new) (ho : SameOutside new w1.fs w2.fs)
    (e : mpiClose env n X w2 = .ok 0 w3) (ho' : SameOutside new w2.fs w3.fs) (hC : OnDisk env K w3.fs new C) :
    (mpiToolFinish env n src X).Ensures faultless w2 (ToolDone env K A C old new fs) := by
  have hc : mpiClose env n src w3 = .ok 0 w3 := mpiClose_clean (fun r hr => (p.clean r hr).1) (p.clean 0 hn).2
  unfold mpiToolFinish
  apply Phases.ensures_bind
  apply Phases.ensures_alone e
  simp only [ne_eq, not_true_eq_false, if_false]
  apply Phases.ensures_bind
  apply Phases.ensures_alone hc
  apply Phases.ensures_pure
  have hs3 : Holds env K (src 0) w3.fs A := (p.source 0 hn).outside (by rw [p.sourceBase 0 hn]; exact hap) (ho.trans ho')
  refine ⟨rfl, hC, ⟨hA.1, hA.2, src 0, p.sourceBase 0 hn, (p.clean 0 hn).1, hs3⟩, fun k hk => ?_⟩
  by_cases h8 : ∃ id, k = fileKey new id
  · exact Or.inl h8
  · have h9 : w3.fs.node k = w1.fs.node k := (ho.trans ho') k (fun id he => h8 ⟨id, he⟩)
    rw [h9] at hk ⊢
    exact p.changed k hk

/-- When there are no data. -/
theorem tool_without_data (p : Prepared env K A n old new fsize fs src H w1) (hn : 0 < n ∧ n < 2147483648) (hz : (0 : Byte) ∉ new)
    (hA : A.pending = false ∧ A.saved = A.attrs) (hap : Apart old new) :
    (mpiToolFinish env n src H).Ensures faultless w1 (ToolDone env K A ⟨fsize.sum, fsize.length, fun _ => none, A.attrs, A.attrs, false⟩ old new fs) := by
  obtain ⟨P, hP, hb⟩ := p.block
  obtain ⟨w3, e, _, ho, hd, _⟩ := close_all (holdsAll_of_each hn hb p.shape (by rw [p.base]; exact hz)) p.faults
  rw [p.base] at ho hd
  refine tool_finishes p hn.1 hA hap (.refl _ _) e ho ?_
  have := closed_made fsize A.attrs P hP (fun _ => none)
  rw [← this]
  exact hd

/-- The data, and the end. -/
theorem tool_with_data {T : Content} {size chunk total : Nat} {job : Nat → Nat → Worker → Prog Worker} {loc : Nat × Nat → Nat × Nat}
    {cost : Nat × Nat → Nat} {mem : Nat → Mem} {P : Bool} (p : Prepared env K A n old new fsize fs src H w1) (hP : P = false → A.attrs = AttrMap.empty)
    (hr : JobsReady env K A T { Content.fresh fsize with attrs := A.attrs, pending := P } (src 1) H w1.fs.node n size chunk total job loc cost)
    (hm : ∀ o k, 0 < k → k ≤ chunk → o + k ≤ size → JobMay env K A T (src 1) (H 0) job (loc (o, k)) o k)
    (hn : 2 ≤ n) (hc : 0 < chunk) (hA : A.pending = false ∧ A.saved = A.attrs) (hap : Apart old new) (es : List FilesEvent) (s : FilesConf)
    (t : FilesRun job faultless n size (filesStart chunk H mem w1.fs.node) es s) :
    es.length ≤ total + 4 * size + 3 * n + 4 ∧
      (FilesStuck job faultless n size s → AllLeft n s.queue ∧ ∃ X : Nat → Worker, (∀ r, r < n → (s.procs.thr r).prog = .ret (X r)) ∧
        ∀ w2 : World, w2.fs.node = s.procs.nodes → w2.faults = w1.faults →
          (mpiToolFinish env n src fun r => (X r).bb).Ensures faultless w2
            (ToolDone env K A ⟨fsize.sum, fsize.length, T.rows, A.attrs, A.attrs, false⟩ old new fs)) := by
  obtain ⟨k1, _, k3⟩ := jobsRun hr hn hc es s t
  refine ⟨k1, fun hst => ?_⟩
  obtain ⟨g1, X, g2, _, _, g5⟩ := k3 hst
  refine ⟨g1, X, g2, fun w2 hw hf => ?_⟩
  obtain ⟨w3, e, ho', _, hd, _⟩ := g5 w2 hw (hf.trans p.faults)
  have hframe := (jobs_killed hr (by omega) hc hm (jobs_files hr (by omega) hc hm t)).2.2.1
  rw [p.base] at ho' hd hframe
  refine tool_finishes p (by omega) hA hap (fun k hk => ?_) e ho' ?_
  · rw [hw]
    exact hframe k (fun f => hk (.data f))
  · rw [← closed_made fsize A.attrs P hP T.rows]
    exact hd

end

/-! ## The programs -/

theorem ToolDone.renamed {C : Content} {a b a' b' : CStr} {fs : FS} {e : Exit} {w' : World} (h : ToolDone env K A C a b fs e w')
    (ha : resolve a' = resolve a) (hb : resolve b' = resolve b) (hla : a'.length ≤ 8192) (hlb : b'.length ≤ 8192)
    (hma : isMeta a' = false) (hmb : isMeta b' = false) : ToolDone env K A C a' b' fs e w' := by
  refine ⟨h.exit, h.made.renamed hb hlb hmb, h.source.renamed ha hla hma, fun k hk => ?_⟩
  rcases h.changed k hk with ⟨id, h1⟩ | h1
  · exact Or.inl ⟨id, by rw [h1, fileKey_eq, fileKey_eq, hb]⟩
  · exact Or.inr (by rw [hb]; exact h1)

theorem MpiToolEnds.mono {prepare : Phases (Except Exit ((Nat → Block) × (Nat → Block)))} {chunk : Block → Option Nat} {size : Block → Nat}
    {job : Block → Nat → Nat → Worker → Prog Worker} {mem : Nat → Mem} {Q Q' : Exit → World → Prop} {F : Nat → Nat → Fault}
    (h : MpiToolEnds env F n prepare chunk size job mem w Q) (hq : ∀ e w', Q e w' → Q' e w') :
    MpiToolEnds env F n prepare chunk size job mem w Q' := by
  refine Phases.ensures_mono h fun x w1 hx => ?_
  match x, hx with
  | .error e, hx => exact hq _ _ hx
  | .ok (src, H), hx =>
    dsimp only at hx ⊢
    split
    · rename_i hc
      rw [if_pos hc] at hx
      obtain ⟨c, B, h1, h2⟩ := hx
      refine ⟨c, B, h1, fun es s t => ⟨(h2 es s t).1, fun hst => ?_⟩⟩
      obtain ⟨h3, X, h4, h5⟩ := (h2 es s t).2 hst
      exact ⟨h3, X, h4, fun w2 e1 e2 => Phases.ensures_mono (h5 w2 e1 e2) hq⟩
    · rename_i hc
      rw [if_neg hc] at hx
      exact Phases.ensures_mono hx hq

/-- **C87, copying** (partial for the reasons of C51: all rows must have been written, rows have at least one byte, a row fits into the
buffer, the attributes are in machine byte order, no files of an older block are in the way; and there are at least two
processes, or no rows). The whole program bigfile-copy-mpi, on any number of processes and in every interleaving of their messages and
file operations, ends and exits with 0. Then the new block is on disk with the rows and the attributes of the source, in as many files as
requested; the source is as it was, and nothing else is touched. -/
theorem C87_copy_partial (env : Env) (K : Kind) (A : Content) (file block newfile newblock : CStr) (nfile : Option Nat)
    (buffersize : Nat) (buf : Int) (mem : Nat → Mem) (n : Nat) (w : World) (hnf : w.faults = noFaults) (ht : TreeOk w.fs)
    (hn : 0 < n ∧ n < 2147483648) (hn2 : 2 ≤ n ∨ A.size = 0)
    (hf : file ≠ []) (hfl : file.length ≤ 8192) (hnew : newfile ≠ []) (hnewl : newfile.length ≤ 8192)
    (hz : (0 : Byte) ∉ mpiPath file block) (hlen : (mpiPath file block).length ≤ 8192) (hmetas : isMeta (pathJoin file block) = false)
    (hzn : (0 : Byte) ∉ mpiPath newfile newblock) (hlenn : (mpiPath newfile newblock).length ≤ 8192)
    (hmeta : isMeta (pathJoin newfile newblock) = false) (hblank : hasBlank (pathJoin newfile newblock) = false)
    (hsrc : OnDisk env K w.fs (pathJoin file block) A) (hfull : A.full)
    (hap : Apart (pathJoin file block) (pathJoin newfile newblock)) (hroom : Room w.fs (pathJoin newfile newblock))
    (hfiles : 0 < copyFiles nfile A.nfile ∨ A.size = 0) (hnmax : copyFiles nfile A.nfile ≤ 16777216)
    (hov : A.size * copyFiles nfile A.nfile < 18446744073709551616)
    (hbuf : K.w * K.nm ≤ buffersize) (hsmall : A.size + A.size < 9223372036854775808) :
    CopyMpiEnds env faultless n file block newfile newblock nfile buffersize buf mem w fun e w' => e = .done ∧
      OnDisk env K w'.fs (pathJoin newfile newblock) (A.inFiles (copyFiles nfile A.nfile)) ∧
      OnDisk env K w'.fs (pathJoin file block) A ∧
      ∀ k, w'.fs.node k ≠ w.fs.node k → (∃ id, k = fileKey (pathJoin newfile newblock) id) ∨
        (k <+: resolve (pathJoin newfile newblock) ∧ w.fs.node k = none ∧ w'.fs.node k = some .dir) := by
  have hres := resolve_mpiPath newfile newblock hnew
  have hresf := resolve_mpiPath file block hf
  have hap' : Apart (mpiPath file block) (mpiPath newfile newblock) := hap.renamed hresf hres
  have hsum := evenSplit_sum A.size (copyFiles nfile A.nfile) hov hfiles
  have hlenS := evenSplit_length A.size (copyFiles nfile A.nfile)
  have hC : A.inFiles (copyFiles nfile A.nfile) = ⟨A.size, copyFiles nfile A.nfile, A.rows, A.attrs, A.attrs, false⟩ := by
    have h1 := hsrc.1
    have h2 := hsrc.2.1
    unfold Content.inFiles
    cases A
    simp_all
  refine MpiToolEnds.mono (Q := ToolDone env K A (A.inFiles (copyFiles nfile A.nfile)) (mpiPath file block) (mpiPath newfile newblock) w.fs) ?_
    fun e w' h => ?_
  · unfold MpiToolEnds
    refine Phases.ensures_mono (tool_prepares env K A file block newfile newblock nfile (fun s => s) true n w hnf ht hn hf hfl hnew hnewl hz hlen
      hzn hlenn hmeta hblank hsrc hap hroom hfiles hnmax hov (Nat.le_refl _) (fun _ => rfl)) ?_
    rintro x w1 ⟨src, H, rfl, p⟩
    dsimp only
    have hs0 := p.source 0 hn.1
    have hsz := hs0.size
    have hnm : 0 < (src 0).nmemb := by rw [hs0.ok.memb]; have := hs0.ok.memb0; omega
    split
    · rename_i hd
      have hn2' : 2 ≤ n := by
        rcases hn2 with h | h
        · exact h
        · omega
      obtain ⟨P, hP, hb⟩ := p.block
      have hs1 := p.source 1 (by omega)
      have hr : CopyReady env K A { Content.fresh (evenSplit A.size (copyFiles nfile A.nfile)) with attrs := A.attrs, pending := P } (src 1) H
          w1.fs.node n :=
        ⟨hs1.node rfl, hfull, hsum, fun r hr => (hb r hr).node rfl, p.shape, p.sums,
          by rw [p.sourceBase 1 (by omega), p.base]; exact hap', hsmall⟩
      have hpos : 0 < K.nm * K.w := Nat.mul_pos hs0.ok.memb0 hs0.ok.item0
      have hw := hs0.ok.felInt
      have hcw : K.nm * K.w = K.w * K.nm := Nat.mul_comm _ _
      have hchunk : mpiCopyChunk env buffersize (src 0) = some (buffersize / (K.nm * K.w)) := by
        have hrow : (src 0).nmemb * itemsize env.m (src 0).dtype = ((K.nm * K.w : Nat) : Int) := by
          rw [hs0.ok.memb, hs0.ok.item, Int.natCast_mul]
        have hfi : fitsInt ((K.nm * K.w : Nat) : Int) = true := by
          unfold fitsInt
          simp only [Bool.and_eq_true, decide_eq_true_eq]
          omega
        unfold mpiCopyChunk
        rw [hrow, hfi, u64_of_nat (by omega)]
        have hne : ¬ (((K.nm * K.w : Nat) : Int) = 0) := by omega
        simp only [Bool.not_true, Bool.false_or, hne, decide_false, Bool.false_eq_true, if_false]
      refine ⟨_, 4 * A.size + 4 * A.size + 3 * n + 4, hchunk, ?_⟩
      rw [hsz]
      intro es s t
      have := tool_with_data p hP (hr.jobs (chunk := buffersize / (K.nm * K.w)) (buf := buf)) (hr.may (by omega)) hn2'
        (Nat.div_pos (by omega) hpos) ⟨hsrc.1, hsrc.2.1⟩ hap' es s t
      rw [hsum, hlenS, ← hC] at this
      exact this
    · rename_i hd
      have hz0 : A.size = 0 := by omega
      have := tool_without_data p hn hzn ⟨hsrc.1, hsrc.2.1⟩ hap'
      rw [hsum, hlenS] at this
      have hnone : A.rows = fun _ => none := by
        funext r
        cases h2 : A.rows r with
        | none => rfl
        | some bytes =>
          have := (hs0.rows r bytes h2).1
          omega
      rw [hC, hnone]
      exact this
  · have h' := h.renamed (a' := pathJoin file block) (b' := pathJoin newfile newblock) hresf.symm hres.symm (mpiPath_length hlen)
      (mpiPath_length hlenn) hmetas hmeta
    exact ⟨h'.exit, h'.made, h'.source, h'.changed⟩

theorem sampled_rows_only (A : Content) (draw : Nat → Nat → Nat → Nat) (ws : List Work) : ∀ (B B' : Content), B.rows = B'.rows →
    (A.sampled draw B ws).rows = (A.sampled draw B' ws).rows := by
  induction ws with
  | nil => exact fun B B' h => h
  | cons wk ws ih =>
    intro B B' h
    refine ih _ _ ?_
    unfold Content.worked
    rw [h]

theorem choice_le {sel : List Nat} {k size : Nat} (h : Choice sel k size) : k ≤ size := by
  have key : ∀ (l : List Nat) (lo : Nat), l.Pairwise (· < ·) → (∀ r ∈ l, lo ≤ r ∧ r < size) → lo ≤ size → l.length + lo ≤ size := by
    intro l
    induction l with
    | nil => intro lo _ _ h; simpa using h
    | cons a l ih =>
      intro lo hp hb _
      obtain ⟨h1, h2⟩ := List.pairwise_cons.mp hp
      have ha := hb a (by simp)
      have := ih (a + 1) h2 (fun r hr => ⟨h1 r hr, (hb r (by simp [hr])).2⟩) (by omega)
      simp only [List.length_cons]
      omega
  have := key sel 0 h.increasing (fun r hr => ⟨by omega, h.inside r hr⟩) (by omega)
  rw [h.count] at this
  omega

/-- **C87, sampling** (partial for the same reasons; no chunk of the source is asked for more rows than it has, and the two buffers of a
process do not overlap). There are rows `T`: different rows of the source in the order that they have there, as many as the random
numbers of the server ask for. They depend only on the random numbers. The whole program bigfile-sample-mpi, in every interleaving, ends
and exits with 0, and then the new block is on disk with the rows `T` and the attributes of the source; the source is as it was, and
nothing else is touched. -/
theorem C87_sample_partial (env : Env) (K : Kind) (A : Content) (file block newfile newblock : CStr) (nfile : Option Nat)
    (g : Rng) (all : Bool) (draw : Nat → Nat → Nat → Nat) (buf abuf : Int) (hfair : ∀ seed, FairDraw (draw seed))
    (hfew : ∀ wk ∈ sampleWork g all A.size, wk.nsel ≤ wk.chunksize)
    (hbufs : buf + ((sampleChunkRows * (K.nm * K.w) : Nat) : Int) ≤ abuf ∨ abuf + ((sampleChunkRows * (K.nm * K.w) : Nat) : Int) ≤ buf)
    (hf : file ≠ []) (hfl : file.length ≤ 8192) (hnew : newfile ≠ []) (hnewl : newfile.length ≤ 8192)
    (hz : (0 : Byte) ∉ mpiPath file block) (hlen : (mpiPath file block).length ≤ 8192) (hmetas : isMeta (pathJoin file block) = false)
    (hzn : (0 : Byte) ∉ mpiPath newfile newblock) (hlenn : (mpiPath newfile newblock).length ≤ 8192)
    (hmeta : isMeta (pathJoin newfile newblock) = false) (hblank : hasBlank (pathJoin newfile newblock) = false) (hfull : A.full)
    (hap : Apart (pathJoin file block) (pathJoin newfile newblock))
    (hfiles : 0 < copyFiles nfile A.nfile ∨ A.size = 0) (hnmax : copyFiles nfile A.nfile ≤ 16777216)
    (hov : A.size * copyFiles nfile A.nfile < 18446744073709551616) :
    ∃ T sel, Choice sel (sampleSize g all A.size) A.size ∧ (List.range (sampleSize g all A.size)).map T = sel.map A.rows ∧
    ∀ (mem : Nat → Mem) (n : Nat) (w : World), w.faults = noFaults → TreeOk w.fs → 0 < n ∧ n < 2147483648 → (2 ≤ n ∨ A.size = 0) →
      OnDisk env K w.fs (pathJoin file block) A → Room w.fs (pathJoin newfile newblock) →
      SampleMpiEnds env faultless n file block newfile newblock nfile g all draw buf abuf mem w fun e w' => e = .done ∧
        OnDisk env K w'.fs (pathJoin newfile newblock) ⟨sampleSize g all A.size, copyFiles nfile A.nfile, T, A.attrs, A.attrs, false⟩ ∧
        OnDisk env K w'.fs (pathJoin file block) A ∧
        ∀ k, w'.fs.node k ≠ w.fs.node k → (∃ id, k = fileKey (pathJoin newfile newblock) id) ∨
          (k <+: resolve (pathJoin newfile newblock) ∧ w.fs.node k = none ∧ w'.fs.node k = some .dir) := by
  have hres := resolve_mpiPath newfile newblock hnew
  have hresf := resolve_mpiPath file block hf
  have hap' : Apart (mpiPath file block) (mpiPath newfile newblock) := hap.renamed hresf hres
  obtain ⟨sel, c1, c2⟩ := sample_rows A ⟨sampleSize g all A.size, 0, fun _ => none, A.attrs, A.attrs, false⟩ g all draw hfair
    (sampleWork g all A.size) rfl (List.Perm.refl _) hfew
  refine ⟨_, sel, c1, c2, fun mem n w hnf ht hn hn2 hsrc hroom => ?_⟩
  have hle : sampleSize g all A.size ≤ A.size := choice_le c1
  have hov' : sampleSize g all A.size * copyFiles nfile A.nfile < 18446744073709551616 :=
    Nat.lt_of_le_of_lt (Nat.mul_le_mul_right _ hle) hov
  have hfiles' : 0 < copyFiles nfile A.nfile ∨ sampleSize g all A.size = 0 := by
    rcases hfiles with h | h
    · exact Or.inl h
    · right; omega
  have hsum := evenSplit_sum (sampleSize g all A.size) (copyFiles nfile A.nfile) hov' hfiles'
  have hlenS := evenSplit_length (sampleSize g all A.size) (copyFiles nfile A.nfile)
  refine MpiToolEnds.mono (Q := ToolDone env K A ⟨sampleSize g all A.size, copyFiles nfile A.nfile, (A.sampled draw
      ⟨sampleSize g all A.size, 0, fun _ => none, A.attrs, A.attrs, false⟩ (sampleWork g all A.size)).rows, A.attrs, A.attrs, false⟩ (mpiPath file block) (mpiPath newfile newblock) w.fs) ?_
    fun e w' h => ?_
  rotate_left
  · have h' := h.renamed (a' := pathJoin file block) (b' := pathJoin newfile newblock) hresf.symm hres.symm (mpiPath_length hlen)
      (mpiPath_length hlenn) hmetas hmeta
    exact ⟨h'.exit, h'.made, h'.source, h'.changed⟩
  unfold MpiToolEnds
  refine Phases.ensures_mono (tool_prepares env K A file block newfile newblock nfile (sampleSize g all) false n w hnf ht hn hf hfl hnew hnewl
    hz hlen hzn hlenn hmeta hblank hsrc hap hroom hfiles' hnmax hov' hle (fun h => by cases h)) ?_
  rintro x w1 ⟨src, H, rfl, p⟩
  dsimp only
  have hs0 := p.source 0 hn.1
  have hsz := hs0.size
  have hnm : 0 < (src 0).nmemb := by rw [hs0.ok.memb]; have := hs0.ok.memb0; omega
  split
  · rename_i hd
    have hn2' : 2 ≤ n := by
      rcases hn2 with h | h
      · exact h
      · omega
    obtain ⟨P, hP, hb⟩ := p.block
    have hs1 := p.source 1 (by omega)
    have hr : SampleReady env K A
        { Content.fresh (evenSplit (sampleSize g all A.size) (copyFiles nfile A.nfile)) with attrs := A.attrs, pending := P } (src 1) H
        w1.fs.node n g all draw buf abuf :=
      ⟨hs1.node rfl, hfull, hsum, fun r hr => (hb r hr).node rfl, p.shape, p.sums,
        by rw [p.sourceBase 1 (by omega), p.base]; exact hap', hfair, hfew, hbufs⟩
    refine ⟨1, 2 * A.size + 2 * (evenSplit (sampleSize g all A.size) (copyFiles nfile A.nfile)).sum +
      4 * (sampleWork g all A.size).length + 3 * n + 4, rfl, ?_⟩
    rw [hsz, hs1.size]
    intro es s t
    have := tool_with_data p hP (hr.jobs (by omega)) (hr.may (by omega)) hn2' (by decide) ⟨hsrc.1, hsrc.2.1⟩ hap' es s t
    have hT := sampled_rows_only A draw (sampleWork g all A.size)
      { Content.fresh (evenSplit (sampleSize g all A.size) (copyFiles nfile A.nfile)) with attrs := A.attrs, pending := P }
      ⟨sampleSize g all A.size, 0, fun _ => none, A.attrs, A.attrs, false⟩ rfl
    rw [hsum, hlenS, hT] at this
    exact this
  · rename_i hd
    have hz0 : A.size = 0 := by omega
    have := tool_without_data p hn hzn ⟨hsrc.1, hsrc.2.1⟩ hap'
    rw [hsum, hlenS] at this
    have hw0 : sampleWork g all A.size = [] := by rw [hz0]; rfl
    rw [hw0]
    exact this

/-! ## There are executions -/

theorem run_until_stuck {α : Type} {F : Nat → Nat → Fault} {s0 : Conf α} {B : Nat}
    (hB : ∀ es s, Run F n s0 es s → es.length ≤ B) : ∃ es s, Run F n s0 es s ∧ s.Stuck F n := by
  have key : ∀ (k : Nat) (es : List Event) (s : Conf α), Run F n s0 es s → B - es.length = k → ∃ es s, Run F n s0 es s ∧ s.Stuck F n := by
    intro k
    induction k with
    | zero =>
      intro es s hr hk
      refine ⟨es, s, hr, fun e s' h => ?_⟩
      have := hB _ _ (hr.snoc h)
      rw [List.length_append, List.length_singleton] at this
      omega
    | succ k ih =>
      intro es s hr hk
      by_cases hs : s.Stuck F n
      · exact ⟨es, s, hr, hs⟩
      · unfold Conf.Stuck at hs
        rw [Classical.not_forall] at hs
        obtain ⟨e, hs⟩ := hs
        rw [Classical.not_forall] at hs
        obtain ⟨s', hs⟩ := hs
        have hr' := hr.snoc (Classical.not_not.mp hs)
        exact ih _ _ hr' (by rw [List.length_append, List.length_singleton]; omega)
  exact key _ [] s0 (.nil _) rfl

/-- Somebody takes part in every phase. -/
def Phases.Attended {α : Type} : Phases α → Prop
  | .ret _ => True
  | .ub => True
  | .hang => True
  | .root _ k => ∀ b, (k b).Attended
  | .all n _ k => 0 < n ∧ ∀ out, (k out).Attended

theorem Phases.attended_bind' {α β : Type} {p : Phases α} {f : α → Phases β} (hp : p.Attended) (hf : ∀ a, (f a).Attended) :
    (p.bind f).Attended := by
  induction p with
  | ret a => exact hf a
  | ub => trivial
  | hang => trivial
  | root m k ih => exact fun b => ih b (hp b)
  | all n P k ih => exact ⟨hp.1, fun out => ih out (hp.2 out)⟩

theorem Phases.attended_bind {α β : Type} {p : Phases α} {f : α → Phases β} (hp : p.Attended) (hf : ∀ a, (f a).Attended) :
    (p >>= f).Attended := Phases.attended_bind' hp hf

theorem together0_attended {α : Type} {c : Nat → Int} {good bad : Phases α} (hg : good.Attended) (hb : bad.Attended) :
    (together0 n c good bad).Attended := by
  unfold together0
  split
  · exact hg
  · split
    · exact hb
    · trivial

/-- A collective computation all of whose executions end with `Q` has an execution. -/
theorem Phases.ensures_some {α : Type} {F : Nat → Nat → Fault} {p : Phases α} {Q : α → World → Prop} {w : World} (hp : p.Attended)
    (h : p.Ensures F w Q) : ∃ a w', Q a w' := by
  induction p generalizing w with
  | ret a => exact ⟨_, _, h⟩
  | ub => exact h.elim
  | hang => exact h.elim
  | root m k ih =>
    simp only [Phases.Ensures] at h
    cases e : m w with
    | ok b w' => rw [e] at h; exact ih b (hp b) h
    | _ => rw [e] at h; exact h.elim
  | all n P k ih =>
    obtain ⟨B, hB⟩ := h
    obtain ⟨es, s, hr, hs⟩ := run_until_stuck fun es s hr => (hB es s hr).1
    obtain ⟨h1, h2⟩ := (hB es s hr).2 hs
    obtain ⟨a0, _⟩ := h1 0 hp.1
    have hch : ∀ r, ∃ a, r < n → (s.thr r).prog = .ret a := by
      intro r
      by_cases hr : r < n
      · obtain ⟨a, ha⟩ := h1 r hr
        exact ⟨a, fun _ => ha⟩
      · exact ⟨a0, fun h => absurd h hr⟩
    exact ih (fun r => (hch r).choose) (hp.2 _) (h2 _ fun r hr => (hch r).choose_spec hr)

theorem prepare_attended (hn : 0 < n) (file block newfile newblock : CStr) (nfile : Option Nat) (size : Nat → Nat) (check : Bool) :
    (mpiToolPrepare env n file block newfile newblock nfile size check).Attended := by
  have ho : ∀ f, (mpiFileOpen n f).Attended := fun f => fun b => ⟨hn, fun _ => trivial⟩
  have hc : ∀ f, (mpiFileCreate n f).Attended := fun f => fun b => ⟨hn, fun _ => trivial⟩
  have hb : ∀ (f g : CStr) (dt : Option CStr) (nm : Int) (l : List Nat), (mpiCreateBlock env n f g dt nm l).Attended := by
    intro f g dt nm l
    refine Phases.attended_bind (fun _ => trivial) fun x => ?_
    split
    · exact ⟨hn, fun _ => trivial⟩
    · trivial
  unfold mpiToolPrepare
  refine Phases.attended_bind (ho _) fun bf => together0_attended ?_ trivial
  refine Phases.attended_bind (fun _ => trivial) fun x => ?_
  split
  · refine Phases.attended_bind (hc _) fun bfnew => together0_attended ?_ trivial
    refine Phases.attended_bind (hb _ _ _ _ _) fun x => ?_
    split
    · refine together0_attended ?_ trivial
      split
      · trivial
      · exact Phases.attended_bind ⟨hn, fun _ => trivial⟩ fun _ => trivial
    · trivial
  · trivial

/-- Two facts about all executions. -/
theorem Phases.ensures_and {α : Type} {F : Nat → Nat → Fault} {p : Phases α} {Q Q' : α → World → Prop} {w : World} (h : p.Ensures F w Q)
    (h' : p.Ensures F w Q') : p.Ensures F w fun a w' => Q a w' ∧ Q' a w' := by
  induction p generalizing w with
  | ret a => exact ⟨h, h'⟩
  | ub => exact h
  | hang => exact h
  | root m k ih =>
    simp only [Phases.Ensures] at h h' ⊢
    cases e : m w with
    | ok b w' => rw [e] at h h'; exact ih b h h'
    | _ => rw [e] at h; exact h
  | all n P k ih =>
    obtain ⟨B, hB⟩ := h
    obtain ⟨B', hB'⟩ := h'
    refine ⟨B, fun es s hr => ⟨(hB es s hr).1, fun hs => ?_⟩⟩
    obtain ⟨h1, h2⟩ := (hB es s hr).2 hs
    obtain ⟨_, h4⟩ := (hB' es s hr).2 hs
    exact ⟨h1, fun out ho => ih out (h2 out ho) (h4 out ho)⟩

/-- **C87, one process.** Under the conditions of `C87_copy_partial`, but with one process and at least one row, the program never ends: the
only process waits for a message that nobody sends. -/
theorem C87_alone (env : Env) (K : Kind) (A : Content) (file block newfile newblock : CStr) (nfile : Option Nat)
    (buffersize : Nat) (buf : Int) (mem : Nat → Mem) (w : World) (hnf : w.faults = noFaults) (ht : TreeOk w.fs) (hrows : 0 < A.size)
    (hf : file ≠ []) (hfl : file.length ≤ 8192) (hnew : newfile ≠ []) (hnewl : newfile.length ≤ 8192)
    (hz : (0 : Byte) ∉ mpiPath file block) (hlen : (mpiPath file block).length ≤ 8192)
    (hzn : (0 : Byte) ∉ mpiPath newfile newblock) (hlenn : (mpiPath newfile newblock).length ≤ 8192)
    (hmeta : isMeta (pathJoin newfile newblock) = false) (hblank : hasBlank (pathJoin newfile newblock) = false)
    (hsrc : OnDisk env K w.fs (pathJoin file block) A)
    (hap : Apart (pathJoin file block) (pathJoin newfile newblock)) (hroom : Room w.fs (pathJoin newfile newblock))
    (hfiles : 0 < copyFiles nfile A.nfile) (hnmax : copyFiles nfile A.nfile ≤ 16777216)
    (hov : A.size * copyFiles nfile A.nfile < 18446744073709551616) (Q : Exit → World → Prop) :
    ¬ CopyMpiEnds env faultless 1 file block newfile newblock nfile buffersize buf mem w Q := by
  intro h
  have hp := tool_prepares env K A file block newfile newblock nfile (fun s => s) true 1 w hnf ht ⟨by decide, by decide⟩ hf hfl hnew hnewl hz
    hlen hzn hlenn hmeta hblank hsrc hap hroom (Or.inl hfiles) hnmax hov (Nat.le_refl _) (fun _ => rfl)
  obtain ⟨x, w1, h1, src, H, rfl, p⟩ := Phases.ensures_some (prepare_attended (by decide) _ _ _ _ _ _ _) (Phases.ensures_and h hp)
  have hs0 := p.source 0 (by decide)
  have hsz := hs0.size
  have hnm : 0 < (src 0).nmemb := by rw [hs0.ok.memb]; have := hs0.ok.memb0; omega
  dsimp only at h1
  rw [if_pos ⟨hnm, by omega⟩] at h1
  obtain ⟨c, B, _, h2⟩ := h1
  obtain ⟨h3, h4⟩ := C52_alone (src 0).size c (by omega)
  refine h4 ((h2 [] _ (.nil _)).2 ?_).1
  intro e s' t
  cases t with
  | talk e q h => exact h3 _ _ h
  | take r o l q x t h => exact h3 _ _ h
  | file e p h =>
    cases h with
    | file r op k t a nd hr ht he => cases ht
    | coll c hne hall =>
      obtain ⟨r, hr⟩ := List.exists_mem_of_ne_nil _ hne
      exact absurd (hall r hr).2 (by simp [filesStart, Prog.WaitsAt])
  | copied r o l q x t h => exact h3 _ _ h
  | failed r o l q x t h => exact h3 _ _ h

/-! ## Examples -/

/-- **C87, a failing close is reported.** Some process has written rows of the new block; nothing in the handles of the source has changed. Whatever
file operations fail (but none loses data silently, see `C16_silent`), unless rank 0 is killed while it closes the new block, the program
exits with 0 only if the header of the new block and its attributes are stored, and it exits with failure otherwise; if nothing fails it exits with 0. -/
theorem C87_close_reported (env : Env) (n : Nat) (src H : Nat → Block) (F : Nat → Nat → Fault) (w : World) (hns : NoSilent w.faults)
    (hsv : Savable env (H 0)) (hfl : Flushable env w.fs (H 0)) (hd : ∃ r, r < n ∧ (H r).dirty = true)
    (hc : ∀ r, r < n → (src r).dirty = false) (ha : (src 0).attrset.dirty = false) :
    (∃ w', mpiClose env n H w = .crash w' ∧ w.faults ≠ noFaults) ∨
    (mpiToolFinish env n src H).Ensures F w fun e w' => (e = .done ∨ e = .failed) ∧ (w.faults = noFaults → e = .done) ∧
      (e = .done → HeaderSays w'.fs (flushTarget n H) ∧ AttrsSay env w'.fs (H 0).basename (attrView env.m (H 0).attrset)) := by
  have h := C47_close_reports env n H w hns hsv hfl hd
  unfold wpc at h
  cases e : mpiClose env n H w with
  | crash w' => rw [e] at h; exact Or.inl ⟨w', rfl, h⟩
  | ub => rw [e] at h; exact h.elim
  | hang => rw [e] at h; exact h.elim
  | ok rc w' =>
    rw [e] at h
    obtain ⟨_, h2, h3⟩ := h
    right
    unfold mpiToolFinish
    apply Phases.ensures_bind
    refine Phases.ensures_alone e ?_
    by_cases h0 : rc = 0
    · rw [if_neg (fun hx => hx h0)]
      apply Phases.ensures_bind
      refine Phases.ensures_alone (mpiClose_clean hc ha) ?_
      exact Phases.ensures_pure ⟨Or.inl rfl, fun _ => rfl, fun _ => h3 h0⟩
    · rw [if_pos h0]
      exact Phases.ensures_pure ⟨Or.inr rfl, fun hx => absurd (h2 hx) h0, fun hx => by cases hx⟩

example := C87_close_reported exEnv 3 (fun _ => exShared) exDirtyOne faultless ⟨exSharedW.fs, exFail, 0⟩ exFail_noSilent exShared_savable
  exDirtyOne_flushable ⟨1, by decide, by decide⟩ (by decide) (by decide)

-- the failure of opening the header or of writing it is reported
example : ∀ i < 2, (mpiToolFinish exEnv 3 (fun _ => exShared) exDirtyOne).Ensures faultless ⟨exSharedW.fs, fun t => if t = i then .fail else .none, 0⟩
    fun e _ => e = .failed := by
  intro i hi
  have h : (mpiClose exEnv 3 exDirtyOne ⟨exSharedW.fs, fun t => if t = i then .fail else .none, 0⟩).val? = some (-1) := by
    have : i = 0 ∨ i = 1 := by omega
    rcases this with rfl | rfl <;> decide +kernel
  unfold mpiToolFinish
  apply Phases.ensures_bind
  cases e : mpiClose exEnv 3 exDirtyOne ⟨exSharedW.fs, fun t => if t = i then .fail else .none, 0⟩ with
  | ok rc w' =>
    rw [e] at h
    refine Phases.ensures_alone e ?_
    rw [show rc = -1 from Option.some.inj h, if_pos (by decide)]
    exact Phases.ensures_pure rfl
  | _ => rw [e] at h; cases h

/-- The source of the examples, and the room for the new block `new/y` of another file. -/
theorem exTool_world : ∃ w : World, w.faults = noFaults ∧ TreeOk w.fs ∧ OnDisk exEnv exKind w.fs (pathJoin b!"d" b!"z") exCopyA ∧
    Room w.fs (pathJoin b!"e/f" b!"new/y") := by
  obtain ⟨w, e, nf, ht, h⟩ := exCopy_src
  have hchk : (exCopySrc exTreeWorld).fs?.map (fun fs => (fs.node (resolve b!"e/f/new/y") = none ∧
      ∀ k ∈ fs.dom, k <+: resolve b!"e/f/new/y" → fs.node k = some .dir : Bool)) = some true := by decide +kernel
  rw [e] at hchk
  simp only [Res.fs?, Option.map_some, Option.some.injEq, decide_eq_true_eq] at hchk
  exact ⟨w, nf, ht, h, Room.of_absent ht hchk.1 hchk.2⟩

theorem exTool_apart : Apart (pathJoin b!"d" b!"z") (pathJoin b!"e/f" b!"new/y") :=
  ⟨by decide, fun id he => by
    rw [fileKey_eq] at he
    exact absurd (congrArg List.length he) (by simp; decide), fun id he => by
    rw [fileKey_eq] at he
    exact absurd (List.IsPrefix.trans (List.prefix_append _ _) he) (by decide)⟩

/-- Three processes copy five rows and an attribute, from three files into two; with one process this never ends. -/
example : ∃ w, OnDisk exEnv exKind w.fs b!"d/z" exCopyA ∧
    CopyMpiEnds exEnv faultless 3 b!"d" b!"z" b!"e/f" b!"new/y" (some 2) 9 500 (fun _ => exMem) w (fun e w' => e = .done ∧
      OnDisk exEnv exKind w'.fs b!"e/f/new/y" (exCopyA.inFiles 2)) ∧
    ¬ CopyMpiEnds exEnv faultless 1 b!"d" b!"z" b!"e/f" b!"new/y" (some 2) 9 500 (fun _ => exMem) w (fun _ _ => True) := by
  obtain ⟨w, nf, ht, h, hroom⟩ := exTool_world
  refine ⟨w, h, MpiToolEnds.mono (C87_copy_partial exEnv exKind exCopyA b!"d" b!"z" b!"e/f" b!"new/y" (some 2) 9 500 (fun _ => exMem) 3 w nf ht
    (by decide) (by decide) (by decide) (by decide) (by decide) (by decide) (by decide) (by decide) (by decide) (by decide) (by decide) (by decide)
    (by decide) h (fun r hr => exCopyA_full r (exSampleA_size ▸ hr)) exTool_apart hroom (by decide) (by decide) (by decide) (by decide) (by decide))
    fun e w' h => ⟨h.1, h.2.1⟩, ?_⟩
  exact C87_alone exEnv exKind exCopyA b!"d" b!"z" b!"e/f" b!"new/y" (some 2) 9 500 (fun _ => exMem) w nf ht
    (by decide) (by decide) (by decide) (by decide) (by decide) (by decide) (by decide) (by decide) (by decide) (by decide) (by decide)
    h exTool_apart hroom (by decide) (by decide) (by decide) _

/-- Three processes take three of five rows. -/
example : ∃ w T sel, OnDisk exEnv exKind w.fs b!"d/z" exCopyA ∧ Choice sel 3 5 ∧ (List.range 3).map T = sel.map exCopyA.rows ∧
    SampleMpiEnds exEnv faultless 3 b!"d" b!"z" b!"e/f" b!"new/y" (some 2) (exRng 3) false exDraw 100000000 500 (fun _ => exMem) w
      (fun e w' => e = .done ∧ OnDisk exEnv exKind w'.fs b!"e/f/new/y" ⟨3, 2, T, exCopyA.attrs, exCopyA.attrs, false⟩) := by
  obtain ⟨w, nf, ht, h, hroom⟩ := exTool_world
  obtain ⟨T, sel, c1, c2, k⟩ := C87_sample_partial exEnv exKind exCopyA b!"d" b!"z" b!"e/f" b!"new/y" (some 2) (exRng 3) false exDraw 100000000 500
    exDraw_fair (by rw [exSampleA_size, exSample_work]; intro wk hwk; simp at hwk; subst hwk; decide) (by decide)
    (by decide) (by decide) (by decide) (by decide) (by decide) (by decide) (by decide) (by decide) (by decide) (by decide) (by decide)
    (fun r hr => exCopyA_full r (exSampleA_size ▸ hr)) exTool_apart (by decide) (by decide) (by decide)
  rw [exSampleA_size, exSample_size] at c1
  rw [exSampleA_size, exSample_size] at c2
  refine ⟨w, T, sel, h, c1, c2, MpiToolEnds.mono (k (fun _ => exMem) 3 w nf ht (by decide) (by decide) h hroom) fun e w' h => ⟨h.1, ?_⟩⟩
  have := h.2.1
  rw [exSampleA_size, exSample_size] at this
  exact this

end Verif
