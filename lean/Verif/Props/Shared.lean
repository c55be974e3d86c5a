import Verif.Proof.Shared
import Verif.Proof.RecordMake
import Verif.Props.Object
import Verif.Props.Copy
/-!
# C71: any history of collective operations on a block; sessions of one process and of several
-/

set_option autoImplicit false

namespace Verif

open Spec

variable {env : Env} {K : Kind} {A : Content} {w : World}

/-! ## The same block under another spelling of its path -/

theorem Spec.Holds.renamed {b : Block} {a : CStr} {fs : FS} (h : Holds env K b fs A) (hr : resolve a = resolve b.basename)
    (hlen : a.length ≤ 8192) (hm : isMeta a = false) : Holds env K (b.named a) fs A := by
  have hk : ∀ id, fileKey a id = fileKey b.basename id := fun id => by rw [fileKey_eq, fileKey_eq, hr]
  have l := h.ok.layout
  have g := h.savable.header
  have hrow : ∀ r, row env.m fs (b.named a) r = row env.m fs b r := by
    intro r
    show ((fs.bytes (fileKey a (.data (rowFile b r)))).drop (rowOff env.m b r)).take (rowSize env.m b) = _
    rw [hk]
    rfl
  refine ⟨⟨⟨l.nfile, l.nck, l.foff, l.size, l.small, l.ck32⟩, h.ok.item, h.ok.item0, h.ok.memb, h.ok.memb0, h.ok.felInt,
    h.ok.buf, h.ok.bufMax, h.ok.offs⟩, h.kind, h.size, h.nfile,
    ⟨h.savable.fmt, ⟨g.dt, g.nmemb0, g.nmembMax, g.nfile, g.nck, g.nfileMax, g.sizes, g.cks⟩, h.savable.offsets, h.savable.size,
      h.savable.attrs, h.savable.storable, hlen, hm⟩, h.attrs, h.pending, h.tame, fun hp => ?_, fun hd => ?_, ⟨?_, ?_, ?_⟩, ?_,
    fun f => ?_, fun f hf => ?_, fun r bytes hb => ?_⟩
  · obtain ⟨s1, s2, k1, k2, k3⟩ := h.saved hp
    refine ⟨s1, s2, ?_, ?_, k3⟩
    · show readsV1 env fs a _ = _
      unfold readsV1 at k1 ⊢
      rw [hk]; exact k1
    · show readsV2 env fs a _ = _
      unfold readsV2 at k2 ⊢
      rw [hk]; exact k2
  · have := h.header hd
    unfold HeaderSays at this ⊢
    show (fs.node (fileKey a .header)).isSome = true ∧ parseHeader (fs.bytes (fileKey a .header)) = _
    rw [hk]; exact this
  · show fs.node (resolve a) = _; rw [hr]; exact h.dir.dir
  · show fs.node (fileKey a .header) ≠ _; rw [hk]; exact h.dir.header
  · show fs.node (fileKey a .attrV2) ≠ _; rw [hk]; exact h.dir.attr
  · show fs.node (fileKey a .attr) = _; rw [hk]; exact h.noOld
  · show fs.node (fileKey a (.data f)) ≠ _; rw [hk]; exact h.noDirs f
  · show IsFile fs (fileKey a (.data f)); rw [hk]; exact h.data f hf
  · obtain ⟨g1, g2, g3⟩ := h.rows r bytes hb
    refine ⟨g1, (hrow r).trans g2, ?_⟩
    unfold Stored
    rw [hrow]
    exact g3

theorem Spec.OnDisk.renamed {a base : CStr} {fs : FS} (h : OnDisk env K fs base A) (hr : resolve a = resolve base)
    (hlen : a.length ≤ 8192) (hm : isMeta a = false) : OnDisk env K fs a A := by
  obtain ⟨h1, h2, b, rfl, h3, h4⟩ := h
  exact ⟨h1, h2, b.named a, rfl, h3, h4.renamed hr hlen hm⟩

theorem SameOutside.renamed {a b : CStr} {fs fs' : FS} (h : SameOutside a fs fs') (hr : resolve a = resolve b) :
    SameOutside b fs fs' := by
  intro k hk
  apply h
  intro id he
  exact hk id (by rw [he, fileKey_eq, fileKey_eq, hr])

/-! ## Histories -/

/-- **C71, from any state** (partial for the same reason as C56: rows must have been written before they are read).
If the handles of `n` processes and the block directory hold the content `A`, then any legal history of
collective operations is answered as the content prescribes, on every process and in every interleaving, and no
execution hangs. At the end the handles and the directory hold the content that the history describes. Files of other
blocks are as before. -/
theorem C71_history_partial (env : Env) (K : Kind) (ops : List MOp) : ∀ (n : Nat) (H : Nat → Block) (w : World) (A : Content),
    HoldsAll env K n H w.fs A → w.faults = noFaults → A.allLegalAll env K n ops →
    (runMOps env n H ops).Ensures faultless w fun x w' => A.allAnsweredAll env K n ops x.1 ∧
      HoldsAll env K (procsAfter n ops) x.2 w'.fs (A.afterAll env K n ops) ∧ w'.faults = noFaults ∧
      SameOutside (H 0).basename w.fs w'.fs ∧ (x.2 0).basename = (H 0).basename ∧ (TreeOk w.fs → Later w.fs w'.fs) := by
  induction ops with
  | nil =>
    intro n H w A h hnf _
    exact Phases.ensures_pure ⟨trivial, h, hnf, .refl _ _, rfl, Later.refl⟩
  | cons op ops ih =>
    intro n H w A h hnf hl
    unfold runMOps
    apply Phases.ensures_bind
    refine Phases.ensures_mono (mop_step h hnf op hl.1) fun x w1 d => ?_
    apply Phases.ensures_bind
    refine Phases.ensures_mono (ih _ x.2 w1 _ d.holds (d.faults.trans hnf) hl.2) fun y w2 g => ?_
    obtain ⟨g1, g2, g3, g4, g5, g6⟩ := g
    rw [d.base] at g4
    exact Phases.ensures_pure ⟨⟨d.ans, g1⟩, g2, g3, d.out.trans g4, g5.trans d.base, fun ht => (d.tree ht).trans (g6 (d.tree ht).1)⟩

theorem mpiPath_length {bf name : CStr} (h : (mpiPath bf name).length ≤ 8192) : (pathJoin bf name).length ≤ 8192 := by
  have : (pathJoin bf name).length ≤ (mpiPath bf name).length := by
    unfold pathJoin mpiPath
    split
    · rename_i h; simp; omega
    · split <;> simp <;> omega
  omega

/-- **C71, opening.** `n` processes open together a block that is on disk, however it got there. -/
theorem C71_opened (env : Env) (K : Kind) (A : Content) (bf name : CStr) (n : Nat) (w : World) (hbf : bf ≠ [])
    (hz : (0 : Byte) ∉ mpiPath bf name) (hlen : (mpiPath bf name).length ≤ 8192) (hn : 0 < n ∧ n < 2147483648)
    (hnf : w.faults = noFaults) (h : OnDisk env K w.fs (pathJoin bf name) A) :
    ∃ H w', mpiOpenBlock env bf name w = .ok (0, some H) w' ∧ w'.fs = w.fs ∧ w'.faults = noFaults ∧ HoldsAll env K n H w'.fs A ∧
      (H 0).basename = mpiPath bf name :=
  open_all (h.renamed (resolve_mpiPath bf name hbf) hlen (isMeta_mpiPath bf name)) hnf hz hn

/-- **C71, closing.** When `n` processes close a block together, the close returns 0 and its content is on disk, under the
path that one process uses. -/
theorem C71_closed (env : Env) (K : Kind) (A : Content) (bf name : CStr) (n : Nat) (H : Nat → Block) (w : World) (hbf : bf ≠ [])
    (hlen : (mpiPath bf name).length ≤ 8192) (hmeta : isMeta (pathJoin bf name) = false)
    (hnf : w.faults = noFaults) (h : HoldsAll env K n H w.fs A) (hb : (H 0).basename = mpiPath bf name) :
    ∃ w', mpiClose env n H w = .ok 0 w' ∧ w'.faults = noFaults ∧ OnDisk env K w'.fs (pathJoin bf name) A.closed ∧
      SameOutside (pathJoin bf name) w.fs w'.fs ∧ (TreeOk w.fs → Later w.fs w'.fs) := by
  obtain ⟨w', e, f, o, d, t⟩ := close_all h hnf
  rw [hb] at o d
  exact ⟨w', e, f, d.renamed (resolve_mpiPath bf name hbf).symm (mpiPath_length hlen) hmeta,
    o.renamed (resolve_mpiPath bf name hbf), t⟩

theorem mpiCreateRoot_keeps (env : Env) (bf name : CStr) (dt : Option CStr) (nmemb : Int) (fsize : List Nat) :
    KeepsTree (mpiCreateRoot env bf name dt nmemb fsize) := by
  unfold mpiCreateRoot
  refine KeepsTree.bind (mksubdirR_keeps _ _) fun rc => KeepsTree.ite (KeepsTree.pure _) ?_
  refine KeepsTree.bind (createInternal_keeps _ _ _ _ _) ?_
  rintro ⟨rc, b⟩
  split <;> exact KeepsTree.pure _

theorem mpiCreateRoot_faults {env : Env} {bf name dt : CStr} {nmemb : Int} {fsize : List Nat} {w w' : World}
    {r : Int × Option (Nat → Block)} (hlen : (mpiPath bf name).length ≤ 8192)
    (h : mpiCreateRoot env bf name (some dt) nmemb fsize w = .ok r w') : w'.faults = w.faults := by
  unfold mpiCreateRoot at h
  obtain ⟨rc, w1, e1, h⟩ := bind_ok_iff.mp h
  have f1 := (wpc_ok (wpc_mksubdirR bf name w) e1).1
  split at h
  · obtain ⟨_, rfl⟩ := pure_ok_iff.mp h; exact f1
  · obtain ⟨x, w2, e2, h⟩ := bind_ok_iff.mp h
    have f2 := (wpc_ok (wpc_createInternal hlen (isMeta_mpiPath bf name)) e2).1
    split at h <;> (obtain ⟨_, rfl⟩ := pure_ok_iff.mp h; exact f2.trans f1)

/-- What the processes have after they created a block together: all have the handle that rank 0 has made, and nothing is pending. -/
theorem created_broadcast (env : Env) (bf name dt : CStr) (nmemb : Int) (fsize : List Nat) (n wd nm : Nat) (w : World) (hbf : bf ≠ [])
    (hz : (0 : Byte) ∉ mpiPath bf name) (hlen : (mpiPath bf name).length ≤ 8192) (hmeta : isMeta (pathJoin bf name) = false)
    (hblank : hasBlank (pathJoin bf name) = false) (hn : 0 < n ∧ n < 2147483648) (hnf : w.faults = noFaults)
    (ht : TreeOk w.fs) (hdir : w.fs.node (resolve bf) = some .dir) (hroom : Room w.fs (pathJoin bf name)) (hfmt : FmtOk env)
    (hdt : PlainDtype (dtypeNormalize env.m dt)) (hit : itemsize env.m dt = wd) (hwd : 0 < wd) (hnm : nmemb = nm) (hnm0 : 0 < nm)
    (hrow : wd * nm < 2147483648) (hbuf : wd * nm ≤ env.chunkBytes) (hbufm : env.chunkBytes < 18446744073709551616)
    (hnf' : fsize.length ≤ 16777216) (hs : fsize.sum < 9223372036854775808)
    (hoff : fsize.sum * (wd * nm) < 9223372036854775808) :
    (mpiCreateBlock env n bf name (some dt) nmemb fsize).Ensures faultless w fun x w' => ∃ bn, x.2 = some (mpiBroadcast env bn) ∧
      (∀ r, r < n → x.1 r = 0) ∧ Holds env ⟨dtypeNormalize env.m dt, wd, nm⟩ bn w'.fs (Content.fresh fsize) ∧
      bn.dirty = false ∧ bn.attrset.dirty = false ∧ (∀ f, bn.fchecksum.getD f 0 = 0) ∧ bn.basename = mpiPath bf name ∧
      w'.faults = noFaults ∧ Later w.fs w'.fs ∧ ChangedAt (pathJoin bf name) w.fs w'.fs := by
  have hl := mpiPath_length hlen
  have hres := resolve_mpiPath bf name hbf
  obtain ⟨w1, e1⟩ := createBlock_succeeds (env := env) (dt := dt) (nmemb := nmemb) (fsize := fsize) (name := name)
    hnf hbf hdir hl hmeta hblank hroom
  obtain ⟨h1, nf1⟩ := fresh_holds (wd := wd) (nm := nm) hfmt hnf hl hmeta hdt
    (by rw [itemsize_normalize]; exact hit) hwd hnm hnm0 hrow hbuf hbufm hnf' hs hoff e1
    (fun d hd => hroom.way _ (List.prefix_refl _) ⟨d, hd⟩) hroom.noOld (fun f => hroom.files _)
  rw [normalize_idem] at h1
  obtain ⟨l1, c1, _⟩ := wlp_ok (createBlock_out env bf name (some dt) nmemb fsize w ht hbf hl) e1
  have c1' : ChangedAt (pathJoin bf name) w.fs w1.fs := by
    intro k hk
    rcases c1 k hk with h | ⟨t, h, hk⟩
    · exact Or.inl h
    · obtain ⟨u, hu⟩ := h
      exact Or.inr ⟨u, by rw [hk, List.append_assoc, hu, resolve_join bf name hbf]⟩
  obtain ⟨H, w0, e0, rfl, B, hB⟩ := C61_create_partial env bf name dt nmemb fsize w w1 _ n (fun _ => none) (fun _ => b!"cannot open")
    hbf hlen hmeta hn.1 hn.2 (by omega) e1
  have f0 := mpiCreateRoot_faults hlen e0
  have l0 := wlp_ok (mpiCreateRoot_keeps env bf name (some dt) nmemb fsize w ht) e0
  have h2 := h1.renamed hres hlen (isMeta_mpiPath bf name)
  have hbr : ∀ r, Mate env ((freshBlock env (pathJoin bf name) dt nmemb fsize).named (mpiPath bf name))
      (mpiBroadcast env ((freshBlock env (pathJoin bf name) dt nmemb fsize).named (mpiPath bf name)) r) :=
    fun r => mate_broadcast h2.ok.layout hz hlen h2.savable.attrs r
  unfold mpiCreateBlock
  apply Phases.ensures_bind
  apply Phases.ensures_alone e0
  apply Phases.ensures_bind
  apply Phases.ensures_together (P' := fun r => mpiTruncP n r (mpiPath bf name) 0 fsize.length none b!"cannot open")
  · intro r hr
    have e : (mpiBroadcast env ((freshBlock env (pathJoin bf name) dt nmemb fsize).named (mpiPath bf name)) r).basename = mpiPath bf name :=
      (hbr r).shape.base
    have e' : (mpiBroadcast env ((freshBlock env (pathJoin bf name) dt nmemb fsize).named (mpiPath bf name)) r).nfile = fsize.length :=
      (hbr r).shape.nfile
    unfold Block.named at e e'
    rw [e, e']
  · refine ⟨B, fun es s hr => ⟨(hB es s hr).1, fun hs => ?_⟩⟩
    obtain ⟨hret, hnodes⟩ := (hB es s hr).2 hs
    have hch : ∀ r, ∃ e, r < n → (s.thr r).prog = .ret ((0 : Int), e) := by
      intro r
      by_cases hr : r < n
      · obtain ⟨e, he⟩ := hret r hr
        exact ⟨e, fun _ => he⟩
      · exact ⟨none, fun hr' => absurd hr' hr⟩
    refine ⟨fun r => (0, (hch r).choose), fun r hr => (hch r).choose_spec hr, fun out dom hlat ho => ?_⟩
    apply Phases.ensures_pure
    refine ⟨_, rfl, fun r hr => by dsimp only; rw [ho r hr], h2.congr ?_ (fun id => ?_), rfl, rfl, fun f => ?_, rfl,
      f0.trans hnf, l0.trans (hlat l0.1), ?_⟩
    · show s.nodes _ = _; rw [hnodes]
    · show s.nodes _ = _; rw [hnodes]
    · show (List.replicate _ 0).getD f 0 = 0
      rw [List.getD_eq_getElem?_getD, List.getElem?_replicate]
      split <;> rfl
    · intro k hk
      apply c1'
      rw [← hnodes]
      exact hk

/-- **C71, creating.** In an existing directory, where there is room for the block, `n` processes create a block
together: every process gets 0, and the handles and the directory hold a block of the given dtype, number of members and
files, without rows and attributes. Only files of this block, and directories on the way to it, have changed. -/
theorem C71_created (env : Env) (bf name dt : CStr) (nmemb : Int) (fsize : List Nat) (n wd nm : Nat) (w : World) (hbf : bf ≠ [])
    (hz : (0 : Byte) ∉ mpiPath bf name) (hlen : (mpiPath bf name).length ≤ 8192) (hmeta : isMeta (pathJoin bf name) = false)
    (hblank : hasBlank (pathJoin bf name) = false) (hn : 0 < n ∧ n < 2147483648) (hnf : w.faults = noFaults)
    (ht : TreeOk w.fs) (hdir : w.fs.node (resolve bf) = some .dir) (hroom : Room w.fs (pathJoin bf name)) (hfmt : FmtOk env)
    (hdt : PlainDtype (dtypeNormalize env.m dt)) (hit : itemsize env.m dt = wd) (hwd : 0 < wd) (hnm : nmemb = nm) (hnm0 : 0 < nm)
    (hrow : wd * nm < 2147483648) (hbuf : wd * nm ≤ env.chunkBytes) (hbufm : env.chunkBytes < 18446744073709551616)
    (hnf' : fsize.length ≤ 16777216) (hs : fsize.sum < 9223372036854775808)
    (hoff : fsize.sum * (wd * nm) < 9223372036854775808) :
    (mpiCreateBlock env n bf name (some dt) nmemb fsize).Ensures faultless w fun x w' => ∃ H, x.2 = some H ∧
      (∀ r, r < n → x.1 r = 0) ∧ HoldsAll env ⟨dtypeNormalize env.m dt, wd, nm⟩ n H w'.fs (Content.fresh fsize) ∧
      w'.faults = noFaults ∧ (H 0).basename = mpiPath bf name ∧ Later w.fs w'.fs ∧ ChangedAt (pathJoin bf name) w.fs w'.fs := by
  refine Phases.ensures_mono (created_broadcast env bf name dt nmemb fsize n wd nm w hbf hz hlen hmeta hblank hn hnf ht hdir hroom hfmt hdt
    hit hwd hnm hnm0 hrow hbuf hbufm hnf' hs hoff) ?_
  rintro x w' ⟨bn, h1, h2, h3, _, _, _, h4, h5, h6, h7⟩
  have hz' : (0 : Byte) ∉ bn.basename := by rw [h4]; exact hz
  exact ⟨_, h1, h2, ⟨hn.1, hn.2, bn, h3, hz', fun hd => ⟨0, hn.1, hd⟩,
    fun r _ => mate_broadcast h3.ok.layout hz' (by rw [h4]; exact hlen) h3.savable.attrs r⟩, h5, h4, h6, h7⟩

/-- One session. -/
theorem visit_step (bf name : CStr) (s : Visit) (hbf : bf ≠ [])
    (hz : (0 : Byte) ∉ mpiPath bf name) (hlen : (mpiPath bf name).length ≤ 8192) (hmeta : isMeta (pathJoin bf name) = false)
    (hnf : w.faults = noFaults) (h : OnDisk env K w.fs (pathJoin bf name) A) (hl : A.legalVisit env K s) :
    (runVisit env bf name s).Ensures faultless w fun x w' => A.answeredVisit env K s x ∧ w'.faults = noFaults ∧
      OnDisk env K w'.fs (pathJoin bf name) (A.afterVisit env K s) := by
  cases s with
  | alone ops =>
    obtain ⟨b, w1, e1, fs1, f1, hb, _, hh⟩ := h.opens hnf
    rw [← fs1] at hh
    obtain ⟨xs, b2, w2, e2, ha, h2, f2, hb2⟩ := C56_history_partial env K ops b w1 A hh f1 hl
    obtain ⟨w3, e3, f3, _, d3⟩ := h2.closes f2
    rw [hb2, hb] at d3
    unfold runVisit
    apply Phases.ensures_alone (a := .one 0 xs) (w' := w3)
    · simp only [bind, M.bind, openBlock]
      rw [e1]
      simp only [M.bind]
      rw [e2]
      simp only [M.bind]
      rw [e3]
      rfl
    · exact ⟨⟨rfl, ha⟩, f3, d3⟩
  | shared n ops =>
    obtain ⟨hn0, hn1, hl⟩ := hl
    obtain ⟨H, w1, e1, _, f1, h1, hb1⟩ := C71_opened env K A bf name n w hbf hz hlen ⟨hn0, hn1⟩ hnf h
    unfold runVisit
    apply Phases.ensures_bind
    apply Phases.ensures_alone e1
    apply Phases.ensures_bind
    refine Phases.ensures_mono (C71_history_partial env K ops n H w1 A h1 f1 hl) ?_
    rintro ⟨xs, H2⟩ w2 ⟨g1, g2, g3, _, g5, _⟩
    obtain ⟨w3, e3, f3, d3, _⟩ := C71_closed env K _ bf name _ H2 w2 hbf hlen hmeta g3 g2 (g5.trans hb1)
    apply Phases.ensures_bind
    apply Phases.ensures_alone e3
    exact Phases.ensures_pure ⟨⟨rfl, g1⟩, f3, d3⟩

/-- **C71.** A block is on disk. Any number of sessions follow: in each the block is opened, by one process or by any
number of processes together, used in any legal way, and closed. Every operation of every session is answered, on
every process and in every interleaving, as the array of rows with attributes prescribes, whichever session and
whichever number of processes wrote the rows and attributes; no execution hangs; and at the end the block on disk holds what
the sessions describe. -/
theorem C71_sessions_partial (env : Env) (K : Kind) (bf name : CStr) (ss : List Visit) (hbf : bf ≠ [])
    (hz : (0 : Byte) ∉ mpiPath bf name) (hlen : (mpiPath bf name).length ≤ 8192) (hmeta : isMeta (pathJoin bf name) = false) :
    ∀ (A : Content) (w : World), w.faults = noFaults → OnDisk env K w.fs (pathJoin bf name) A → A.legalVisits env K ss →
      (runVisits env bf name ss).Ensures faultless w fun xs w' => A.answeredVisits env K ss xs ∧ w'.faults = noFaults ∧
        OnDisk env K w'.fs (pathJoin bf name) (A.afterVisits env K ss) := by
  induction ss with
  | nil => intro A w hnf h _; exact Phases.ensures_pure ⟨trivial, hnf, h⟩
  | cons s ss ih =>
    intro A w hnf h hl
    unfold runVisits
    apply Phases.ensures_bind
    refine Phases.ensures_mono (visit_step bf name s hbf hz hlen hmeta hnf h hl.1) ?_
    rintro x w1 ⟨g1, g2, g3⟩
    apply Phases.ensures_bind
    refine Phases.ensures_mono (ih _ w1 g2 g3 hl.2) ?_
    rintro xs w2 ⟨k1, k2, k3⟩
    exact Phases.ensures_pure ⟨⟨g1, k1⟩, k2, k3⟩

/-! ## Example -/

/-- Two elements of type `<i8` and of type `>i4`. -/
def exPair : Arr := { dtype := b!"<i8", dims := [2], strides := [16], size := 2, data := 100 }
def exPairDst : Arr := { dtype := b!">i4", dims := [2], strides := [4], size := 2, data := 8 }

/-- Process 0 has three rows, process 1 none, process 2 two. -/
def exArrs (r : Nat) : Arr := if r = 0 then exSrc else if r = 1 then exNone else exPair
/-- Process 0 wants three rows, process 1 two. -/
def exDsts (r : Nat) : Arr := if r = 0 then exDst else exPairDst

/-- Three processes write five rows, set an attribute and add a file; then two processes open the block and read the five
rows. Later a process on its own reads three of them. -/
def exVisits : List Visit :=
  [.shared 3 [.write 0 exArrs (fun _ => exMem) (fun _ => 8) 2 1, .attr (.set b!"a" b!"i4" 1 exMem 100), .grow [4], .reopen 2,
      .read 0 exDsts (fun _ => exMem) (fun _ => 4) 1 100],
    .alone [.read 1 exDst exMem 4]]

theorem exPair_array : ArrayOk exEnv exPair 8 :=
  ⟨⟨by decide, rfl, by decide, by decide, by decide⟩, by decide, by decide, by decide, by decide, by decide⟩

theorem exPairDst_array : ArrayOk exEnv exPairDst 4 :=
  ⟨⟨by decide, rfl, by decide, by decide, by decide⟩, by decide, by decide, by decide, by decide, by decide⟩

theorem exPairDst_disjoint : Disjoint exPairDst 4 := by
  intro i j hi hj hij
  have : ∀ i < 2, ∀ j < 2, i ≠ j →
    elemAddr exPairDst i + 4 ≤ elemAddr exPairDst j ∨ elemAddr exPairDst j + 4 ≤ elemAddr exPairDst i := by decide
  exact this i hi j hj hij

theorem exShared_legal : exCopyA.legalVisits exEnv exKind exVisits := by
  have hrows : ∀ i < 5, (if 0 ≤ i ∧ i < 0 + rowsBefore (rowsOf exKind exArrs) 3 then
      some ((gathered exEnv exKind 3 exArrs (fun _ => exMem) (fun _ => 8)).getD (i - 0) []) else exCopyA.rows i).isSome = true ∧
      ∀ j < 1, (fromBlock exEnv exKind exDst ((gathered exEnv exKind 3 exArrs (fun _ => exMem) (fun _ => 8)).getD (i - 0) []) j).isSome = true ∧
        (fromBlock exEnv exKind exPairDst ((gathered exEnv exKind 3 exArrs (fun _ => exMem) (fun _ => 8)).getD (i - 0) []) j).isSome = true := by
    decide +kernel
  refine ⟨⟨by decide, by decide, ⟨by decide, by decide, by decide, ?_⟩, ⟨⟨by decide, by decide, by decide, by decide⟩, ?_⟩,
    ⟨by decide, by decide, by decide⟩, ⟨by decide, by decide⟩, ⟨by decide, by decide, by decide, ?_⟩, trivial⟩,
    ⟨⟨by decide, exDst_array, exDst_disjoint, by decide, fun _ i hi => ?_⟩, trivial⟩, trivial⟩
  · intro r hr
    match r, hr with
    | 0, _ => exact ⟨⟨by decide, by decide, by decide, fun _ => exSrc_array⟩, fun h => absurd h (by decide), by decide +kernel⟩
    | 1, _ => exact ⟨⟨by decide, by decide, by decide, fun h => absurd h (by decide)⟩, fun h => absurd h (by decide), by decide⟩
    | 2, _ => exact ⟨⟨by decide, by decide, by decide, fun _ => exPair_array⟩, fun h => absurd h (by decide), by decide +kernel⟩
  · have : attrNext exEnv.m (attrNext exEnv.m AttrMap.empty (.set b!"a" b!"i4" 1 exMem 100)) (.set b!"a" b!"i4" 1 exMem 100) =
        attrNext exEnv.m AttrMap.empty (.set b!"a" b!"i4" 1 exMem 100) := by
      simp only [attrNext]
      rw [if_neg (by decide), if_neg (by decide)]
      funext name
      simp only [AttrMap.put]
      split <;> rfl
    show Tame exEnv.m (attrNext exEnv.m (attrNext exEnv.m AttrMap.empty (.set b!"a" b!"i4" 1 exMem 100)) (.set b!"a" b!"i4" 1 exMem 100))
    rw [this]
    exact exTame
  · intro r hr
    match r, hr with
    | 0, _ =>
      refine ⟨⟨by decide, by decide, by decide, fun _ => exDst_array⟩, exDst_disjoint, by decide, fun i hi => ?_⟩
      have hi : i < 3 := hi
      obtain ⟨h1, h2⟩ := hrows i (by omega)
      have hlt : 0 + rowsBefore (rowsOf exKind exDsts) 0 + i < 0 + rowsBefore (rowsOf exKind exArrs) 3 := by
        show 0 + 0 + i < 0 + 5; omega
      refine ⟨_, if_pos ⟨Nat.zero_le _, hlt⟩, fun j hj => ?_⟩
      · have := (h2 j hj).1
        rw [show 0 + rowsBefore (rowsOf exKind exDsts) 0 + i - 0 = i - 0 by show 0 + 0 + i - 0 = _; omega]
        exact this
    | 1, _ =>
      refine ⟨⟨by decide, by decide, by decide, fun _ => exPairDst_array⟩, exPairDst_disjoint, by decide, fun i hi => ?_⟩
      have hi : i < 2 := hi
      obtain ⟨h1, h2⟩ := hrows (3 + i) (by omega)
      have hlt : 0 + rowsBefore (rowsOf exKind exDsts) 1 + i < 0 + rowsBefore (rowsOf exKind exArrs) 3 := by
        show 0 + 3 + i < 0 + 5; omega
      refine ⟨_, if_pos ⟨Nat.zero_le _, hlt⟩, fun j hj => ?_⟩
      · have := (h2 j hj).2
        rw [show 0 + rowsBefore (rowsOf exKind exDsts) 1 + i - 0 = 3 + i - 0 by show 0 + 3 + i - 0 = _; omega]
        exact this
  · have hi : i < 3 := hi
    obtain ⟨h1, h2⟩ := hrows (1 + i) (by omega)
    refine ⟨_, if_pos ⟨Nat.zero_le _, ?_⟩, fun j hj => (h2 j hj).1⟩
    show 1 + i < 0 + 5; omega

/-- The example of `C71_sessions_partial`. -/
example : ∃ w, exCopySrc exTreeWorld = .ok 0 w ∧ (runVisits exEnv b!"d" b!"z" exVisits).Ensures faultless w fun xs w' =>
    exCopyA.answeredVisits exEnv exKind exVisits xs ∧ w'.faults = noFaults ∧
      OnDisk exEnv exKind w'.fs b!"d/z" (exCopyA.afterVisits exEnv exKind exVisits) := by
  obtain ⟨w, e, nf, _, h⟩ := exCopy_src
  exact ⟨w, e, C71_sessions_partial exEnv exKind b!"d" b!"z" exVisits (by decide) (by decide) (by decide) (by decide) exCopyA w nf h
    exShared_legal⟩

/-- The content at the end: nine rows in four files; row 4 is the second row of process 2, the number 11. -/
example : (exCopyA.afterVisits exEnv exKind exVisits).size = 9 ∧ (exCopyA.afterVisits exEnv exKind exVisits).nfile = 4 ∧
    (exCopyA.afterVisits exEnv exKind exVisits).rows 4 = some [11, 0, 0, 0] ∧
    (exCopyA.afterVisits exEnv exKind exVisits).rows 2 = some [12, 0, 0, 0] ∧
    (exCopyA.afterVisits exEnv exKind exVisits).rows 5 = none := by decide +kernel

/-- The example of `C71_created`: four processes create a block, and then run a history. -/
example : (do
      let x ← mpiCreateBlock exEnv 4 b!"d" b!"new/y" (some b!"i4") 1 [2, 0, 3]
      match x.2 with
      | some H => runMOps exEnv 4 H [.grow [7], .flush, .reopen 2, .attr .list]
      | none => Phases.hang : Phases (List (Nat → BAns) × (Nat → Block))).Ensures faultless exTreeWorld fun x w' =>
    (Content.fresh [2, 0, 3]).allAnsweredAll exEnv exKind 4 [.grow [7], .flush, .reopen 2, .attr .list] x.1 ∧
    HoldsAll exEnv exKind 2 x.2 w'.fs ⟨12, 4, fun _ => none, AttrMap.empty, AttrMap.empty, false⟩ := by
  apply Phases.ensures_bind
  refine Phases.ensures_mono (C71_created exEnv b!"d" b!"new/y" b!"i4" 1 [2, 0, 3] 4 4 1 exTreeWorld (by decide) (by decide) (by decide)
    (by decide) (by decide) (by decide) rfl exTree_ok (by decide) (Room.of_absent exTree_ok (by decide) (by decide)) exFmt exB_good.dt
    (by decide) (by decide) (by decide) (by decide) (by decide) (by decide) (by decide) (by decide) (by decide) (by decide)) ?_
  rintro ⟨c, o⟩ w1 ⟨H, rfl, _, h1, f1, _⟩
  have hK : (⟨dtypeNormalize exEnv.m b!"i4", 4, 1⟩ : Kind) = exKind := by
    unfold exKind; congr 1
  rw [hK] at h1
  refine Phases.ensures_mono (C71_history_partial exEnv exKind _ 4 H w1 _ h1 f1 ⟨⟨by decide, by decide, by decide⟩, trivial, ⟨by decide, by decide⟩,
    ⟨trivial, ?_⟩, trivial⟩) ?_
  · intro name v h; cases h
  · rintro x w2 ⟨g1, g2, _⟩
    exact ⟨g1, g2⟩

end Verif
