import Verif.Proof.KillFiles
import Verif.Proof.CopyMay
import Verif.Props.SampleMay
/-!
# Processes that get their work from a queue, when operations fail and processes are killed
-/

set_option autoImplicit false

namespace Verif

open Spec

variable {env : Env} {K : Kind} {S T B : Content} {bb bd : Block} {H : Nat → Block} {mem : Nat → Mem} {nd : Nodes} {n size chunk total : Nat}
  {job : Nat → Nat → Worker → Prog Worker} {loc : Nat × Nat → Nat × Nat} {cost : Nat × Nat → Nat} {F : Nat → Nat → Fault}

/-- A handle of the new block that can be written with, whatever became of earlier writes. -/
structure HandleOk (env : Env) (K : Kind) (bd b : Block) : Prop where
  ok : BlockOk env b K.w K.nm
  shape : SameShape bd b

/-- What is needed of the work on the range `(o, k)` when operations may fail. -/
structure JobMay (env : Env) (K : Kind) (S T : Content) (bb bd : Block) (job : Nat → Nat → Worker → Prog Worker) (d : Nat × Nat) (o k : Nat) :
    Prop where
  rets : ∀ (w : World) (x : Worker), Holds env K bb w.fs S → HandleOk env K bd x.bb →
    wpc (job o k x).interp w
      (fun y w' => HandleOk env K bd y.bb ∧
        (y.rc = 0 → ∀ i, i < d.2 → row env.m w'.fs bd (d.1 + i) = (T.rows (d.1 + i)).getD []))
      (fun _ => True)
  picky : ∀ x : Worker, BlockOk env bb K.w K.nm → HandleOk env K bd x.bb → (job o k x).Picky (fun y => y.rc ≠ 0)

/-! ## The queue -/

theorem sumTo_ge {n : Nat} {f : Nat → Nat} {r : Nat} (hr : r < n) : f r ≤ sumTo n f := by
  induction n with
  | zero => omega
  | succ n ih =>
    rw [sumTo_succ]
    by_cases h : r = n
    · subst h; omega
    · have := ih (by omega)
      omega

theorem sumTo_ge_two {n : Nat} {f : Nat → Nat} {r q : Nat} (hr : r < n) (hq : q < n) (hne : r ≠ q) : f r + f q ≤ sumTo n f := by
  induction n with
  | zero => omega
  | succ n ih =>
    rw [sumTo_succ]
    by_cases h : r = n
    · subst h
      have := sumTo_ge (f := f) (show q < r by omega)
      omega
    · by_cases h' : q = n
      · subst h'
        have := sumTo_ge (f := f) (show r < q by omega)
        omega
      · have := ih (by omega) (by omega)
        omega

theorem timesIn_mem {row : Nat} {l : List (Nat × Nat)} {o k : Nat} (h : (o, k) ∈ l) (hr : o ≤ row ∧ row < o + k) : 0 < timesIn row l := by
  unfold timesIn
  rw [List.countP_pos_iff]
  exact ⟨_, h, by simpa using hr⟩

/-- Every row is in at most one range that was copied, failed, or is being copied. -/
theorem queue_once (hc : 0 < chunk) {es : List CopyEvent} {q : CopyConf} (hq : CopyRun n size (copyStart chunk) es q) (row : Nat) :
    timesIn row (copiedRanges es) + timesIn row (failedRanges es) + sumTo n (fun r => timesIn row (atRanges (q.worker r))) ≤ 1 := by
  obtain ⟨out, hinv⟩ := copyInv_run hc hq
  have h1 := hinv.rows row
  have h2 : sumTo n (pendingTimes row q) =
      sumTo n (fun r => timesIn row (orderRanges (q.toWorker r))) + sumTo n (fun r => timesIn row (atRanges (q.worker r))) :=
    sumTo_add n _ _
  split at h1 <;> omega

theorem busy_apart (hc : 0 < chunk) {es : List CopyEvent} {q : CopyConf} (hq : CopyRun n size (copyStart chunk) es q) {r r' o l o' l' : Nat}
    (hr : r < n) (hr' : r' < n) (hne : r ≠ r') (h : q.worker r = .copying o l) (h' : q.worker r' = .copying o' l') :
    o + l ≤ o' ∨ o' + l' ≤ o ∨ l = 0 ∨ l' = 0 := by
  refine Classical.byContradiction fun hov => ?_
  have h1 := queue_once hc hq (max o o')
  have h2 := sumTo_ge_two (f := fun r => timesIn (max o o') (atRanges (q.worker r))) hr hr' hne
  have h3 : 0 < timesIn (max o o') (atRanges (q.worker r)) := by
    rw [h]; exact timesIn_mem (List.mem_singleton.mpr rfl) (by omega)
  have h4 : 0 < timesIn (max o o') (atRanges (q.worker r')) := by
    rw [h']; exact timesIn_mem (List.mem_singleton.mpr rfl) (by omega)
  omega

theorem busy_copied_apart (hc : 0 < chunk) {es : List CopyEvent} {q : CopyConf} (hq : CopyRun n size (copyStart chunk) es q) {r o l o' l' : Nat}
    (hr : r < n) (h : q.worker r = .copying o l) (h' : (o', l') ∈ copiedRanges es) :
    o + l ≤ o' ∨ o' + l' ≤ o ∨ l = 0 ∨ l' = 0 := by
  refine Classical.byContradiction fun hov => ?_
  have h1 := queue_once hc hq (max o o')
  have h2 := sumTo_ge (f := fun r => timesIn (max o o') (atRanges (q.worker r))) hr
  have h3 : 0 < timesIn (max o o') (atRanges (q.worker r)) := by
    rw [h]; exact timesIn_mem (List.mem_singleton.mpr rfl) (by omega)
  have h4 : 0 < timesIn (max o o') (copiedRanges es) := timesIn_mem h' (by omega)
  omega

/-- What is being copied was handed out. -/
theorem busy_taken {es : List CopyEvent} {q : CopyConf} (hq : CopyRun n size (copyStart chunk) es q) :
    (∀ r o l, q.worker r = .copying o l → (r, o, l) ∈ takenRanges es) ∧
    (∀ o l, (o, l) ∈ copiedRanges es → ∃ r, (r, o, l) ∈ takenRanges es) := by
  induction hq with
  | nil => exact ⟨fun r o l h => by simp [copyStart] at h, fun o l h => by simp [copiedRanges] at h⟩
  | @snoc s1 s' es e t h ih =>
    obtain ⟨ih1, ih2⟩ := ih
    rw [takenRanges_append, copiedRanges_append]
    have up : ∀ (r : Nat) (v : WorkerAt), (∀ o l, v ≠ .copying o l) → ∀ q o l, upd s1.worker r v q = .copying o l → s1.worker q = .copying o l := by
      intro r v hv q o l h
      by_cases e : q = r
      · subst e; rw [upd_same] at h; exact absurd h (hv o l)
      · rwa [upd_ne _ _ e] at h
    have old1 : ∀ r o l, s1.worker r = .copying o l → ∀ x, (r, o, l) ∈ takenRanges es ++ x := fun r o l h x => List.mem_append_left _ (ih1 r o l h)
    have old2 : ∀ o l, (o, l) ∈ copiedRanges es → ∀ x, ∃ r, (r, o, l) ∈ takenRanges es ++ x := fun o l h x => by
      obtain ⟨r, hr⟩ := ih2 o l h
      exact ⟨r, List.mem_append_left _ hr⟩
    cases h with
    | hand offset chunk r q h hlt hr hm => exact ⟨fun r o l h => old1 r o l h _, fun o l h => old2 o l (by simpa [copiedRanges] using h) _⟩
    | giveUp offset chunk r q h hlt hr hm => exact ⟨fun r o l h => old1 r o l h _, fun o l h => old2 o l (by simpa [copiedRanges] using h) _⟩
    | allOut offset chunk h hge => exact ⟨fun r o l h => old1 r o l h _, fun o l h => old2 o l (by simpa [copiedRanges] using h) _⟩
    | dismiss i h hi => exact ⟨fun r o l h => old1 r o l h _, fun o l h => old2 o l (by simpa [copiedRanges] using h) _⟩
    | leave i h hi => exact ⟨fun r o l h => old1 r o l h _, fun o l h => old2 o l (by simpa [copiedRanges] using h) _⟩
    | start r hr h =>
      exact ⟨fun q o l h => old1 q o l (up r _ (by simp) q o l h) _, fun o l h => old2 o l (by simpa [copiedRanges] using h) _⟩
    | quit r q hr h hm =>
      exact ⟨fun q o l h => old1 q o l (up r _ (by simp) q o l h) _, fun o l h => old2 o l (by simpa [copiedRanges] using h) _⟩
    | take r offset len q hr h hm =>
      refine ⟨fun q o l h => ?_, fun o l h => old2 o l (by simpa [copiedRanges] using h) _⟩
      by_cases e : q = r
      · subst e
        dsimp only at h
        rw [upd_same] at h
        cases h
        exact List.mem_append_right _ (by simp [takenRanges])
      · dsimp only at h
        rw [upd_ne _ _ e] at h
        exact old1 q o l h _
    | failed r offset len hr h =>
      exact ⟨fun q o l h => old1 q o l (up r _ (by simp) q o l h) _, fun o l h => old2 o l (by simpa [copiedRanges] using h) _⟩
    | copied r offset len hr h =>
      refine ⟨fun q o l h => old1 q o l (up r _ (by simp) q o l h) _, fun o l h' => ?_⟩
      rcases List.mem_append.mp h' with h' | h'
      · exact old2 o l h' _
      · simp [copiedRanges] at h'
        obtain ⟨rfl, rfl⟩ := h'
        exact ⟨r, old1 r o l h _⟩

/-- Messages do not change what is being copied. -/
theorem CopyStep.talk_busy {s s' : CopyConf} {e : CopyEvent} (h : CopyStep n size s e s') (he : e.isTalk = true) (r o l : Nat) :
    s'.worker r = .copying o l ↔ s.worker r = .copying o l := by
  have up : ∀ (q : Nat) (v : WorkerAt), (∀ o l, v ≠ .copying o l) → (∀ o l, s.worker q ≠ .copying o l) →
      (upd s.worker q v r = .copying o l ↔ s.worker r = .copying o l) := by
    intro q v hv hs
    by_cases e : r = q
    · subst e
      rw [upd_same]
      exact ⟨fun h => absurd h (hv o l), fun h => absurd h (hs o l)⟩
    · rw [upd_ne _ _ e]
  cases h with
  | hand offset chunk r q h hlt hr hm => exact Iff.rfl
  | giveUp offset chunk r q h hlt hr hm => exact Iff.rfl
  | allOut offset chunk h hge => exact Iff.rfl
  | dismiss i h hi => exact Iff.rfl
  | leave i h hi => exact Iff.rfl
  | start r hr h => exact up r _ (by simp) (by rw [h]; simp)
  | quit r q hr h hm => exact up r _ (by simp) (by rw [h]; simp)
  | take r offset len q hr h hm => cases he
  | copied r offset len hr h => cases he
  | failed r offset len hr h => cases he

/-! ## At every moment -/

/-- Somebody else's operation. -/
def Elsewhere (env : Env) (bb bd : Block) (d : Nat × Nat) (o : FOp) : Prop :=
  ∃ x : Nat × Nat, (x.1 + x.2 ≤ d.1 ∨ d.1 + d.2 ≤ x.1) ∧ RangeOp env.m bb.basename bd x.1 x.2 o

theorem Meanwhile.rows {a b : Nodes} {d : Nat × Nat} (h : Meanwhile (Elsewhere env bb bd d) a b) {r : Nat}
    (hr : d.1 ≤ r ∧ r < d.1 + d.2) (hs : Stored env.m ⟨a, []⟩ bd r) :
    row env.m ⟨b, []⟩ bd r = row env.m ⟨a, []⟩ bd r := by
  induction h with
  | nil => rfl
  | snoc h o f ho ih =>
    obtain ⟨x, hx, hop⟩ := ho
    have : row env.m ⟨(o.does f _).2, []⟩ bd r = _ := hop.row f _ r (by omega) (by
      unfold Stored
      rw [ih]
      exact hs)
    rw [this, ih]

/-- A process at work on a range. -/
structure AtWork (env : Env) (K : Kind) (S : Content) (bb bd : Block) (job : Nat → Nat → Worker → Prog Worker) (loc : Nat × Nat → Nat × Nat)
    (F : Nat → Fault) (o l : Nat) (th : Thread Worker) (nodes : Nodes) : Prop where
  intro ::
  work : ∃ (x : Worker) (a0 a : Nodes) (c0 c : Nat), HandleOk env K bd x.bb ∧ Holds env K bb ⟨a0, []⟩ S ∧ th.clock = c0 + c ∧
    Alone (fun i => F (c0 + i)) (job o l x) a0 c th.prog a ∧ Meanwhile (Elsewhere env bb bd (loc (o, l))) a nodes

/-- What holds at every moment. -/
structure KInv (env : Env) (K : Kind) (S T : Content) (bb : Block) (H : Nat → Block) (nd : Nodes) (n size chunk : Nat)
    (job : Nat → Nat → Worker → Prog Worker) (loc : Nat × Nat → Nat × Nat) (F : Nat → Nat → Fault) (es : List CopyEvent) (s : FilesConf) : Prop where
  queue : CopyRun n size (copyStart chunk) es s.queue
  out : ∀ k, (∀ g, k ≠ fileKey (H 0).basename (.data g)) → s.procs.nodes k = nd k
  idle : ∀ r, r < n → (∀ o l, s.queue.worker r ≠ .copying o l) → ∃ x c, s.procs.thr r = ⟨.ret x, c⟩ ∧ HandleOk env K (H 0) x.bb
  busy : ∀ r, r < n → ∀ o l, s.queue.worker r = .copying o l → AtWork env K S bb (H 0) job loc (F r) o l (s.procs.thr r) s.procs.nodes
  copied : ∀ o l, (o, l) ∈ copiedRanges es → ∀ i, i < (loc (o, l)).2 →
    row env.m ⟨s.procs.nodes, []⟩ (H 0) ((loc (o, l)).1 + i) = (T.rows ((loc (o, l)).1 + i)).getD []

section
variable (hr : JobsReady env K S T B bb H nd n size chunk total job loc cost) (hn : 0 < n) (hc : 0 < chunk)
  (hm : ∀ o k, 0 < k → k ≤ chunk → o + k ≤ size → JobMay env K S T bb (H 0) job (loc (o, k)) o k)
include hr

theorem handle_start (r : Nat) (h : r < n) : HandleOk env K (H 0) (H r) := ⟨(hr.dst r h).ok, hr.shape r h⟩

include hc in
theorem busy_range {es : List CopyEvent} {q : CopyConf} (hq : CopyRun n size (copyStart chunk) es q) {r o l : Nat}
    (h : (r, o, l) ∈ takenRanges es) : 0 < l ∧ l ≤ chunk ∧ o + l ≤ size := by
  obtain ⟨out, hinv⟩ := copyInv_run hc hq
  exact hinv.handed r o l ((taken_handed hq).2 r o l h).2.2

theorem src_holds {es : List CopyEvent} {s : FilesConf} (hi : KInv env K S T bb H nd n size chunk job loc F es s) :
    Holds env K bb ⟨s.procs.nodes, []⟩ S :=
  hr.src.outside hr.apart fun k hk => hi.out k fun g => hk (.data g)

include hn in
theorem job_ops {x : Worker} (hx : HandleOk env K (H 0) x.bb) {o l : Nat} (h : 0 < l ∧ l ≤ chunk ∧ o + l ≤ size) :
    (job o l x).AllOps (RangeOp env.m bb.basename (H 0) (loc (o, l)).1 (loc (o, l)).2) :=
  ((hr.jobs o l h.1 h.2.1 h.2.2).sat x hr.src.ok hr.src.size hx.ok (hx.shape.size.trans (hr.dst 0 hn).size) hx.shape).allOps

include hn in
theorem rows_size : rowSize env.m (H 0) = K.nm * K.w := by
  have h := (hr.dst 0 hn).ok
  unfold rowSize
  rw [h.item, h.memb]
  simp [Nat.mul_comm]

include hm hn in
/-- What a process has when its work has ended. -/
theorem work_ends {o l : Nat} (hl : 0 < l ∧ l ≤ chunk ∧ o + l ≤ size) {th : Thread Worker} {nodes : Nodes} {Fr : Nat → Fault}
    (h : AtWork env K S bb (H 0) job loc Fr o l th nodes) :
    th.prog ≠ .ub ∧ (∀ c, ¬ th.prog.WaitsAt c) ∧ ∀ y, th.prog = .ret y → HandleOk env K (H 0) y.bb ∧
      (y.rc = 0 → ∀ i, i < (loc (o, l)).2 → row env.m ⟨nodes, []⟩ (H 0) ((loc (o, l)).1 + i) = (T.rows ((loc (o, l)).1 + i)).getD []) := by
  obtain ⟨x, a0, a, c0, c, h1, h2, h3, h4, h5⟩ := h.work
  have hj := hm o l hl.1 hl.2.1 hl.2.2
  obtain ⟨w', g1, g2⟩ := h4.interp ⟨⟨a0, []⟩, fun i => Fr (c0 + i), 0⟩ rfl rfl (fun _ _ => rfl)
  have hw := hj.rets ⟨⟨a0, []⟩, fun i => Fr (c0 + i), 0⟩ x h2 h1
  rcases g2 with ⟨_, _, g2⟩ | ⟨g2, _⟩
  · refine ⟨?_, ?_, ?_⟩
    · intro e
      rw [e] at g2
      unfold wpc at hw
      rw [g2] at hw
      exact hw
    · intro q hq
      cases hp : th.prog with
      | coll c' v f =>
        rw [hp] at g2
        unfold wpc at hw
        rw [g2] at hw
        exact hw
      | _ => rw [hp] at hq; exact hq
    · intro y e
      rw [e] at g2
      have := wpc_ok hw g2
      refine ⟨this.1, fun hrc i hi => ?_⟩
      have hrow := this.2 hrc i hi
      have hrow' : row env.m ⟨a, []⟩ (H 0) ((loc (o, l)).1 + i) = (T.rows ((loc (o, l)).1 + i)).getD [] := by
        rw [← hrow]
        unfold Spec.row FS.bytes
        rw [g1]
      rw [h5.rows (by omega), hrow']
      unfold Stored
      rw [hrow']
      obtain ⟨bytes, e1, e2⟩ := (hr.jobs o l hl.1 hl.2.1 hl.2.2).rows i hi
      rw [e1, Option.getD_some, e2, rows_size hr hn]
  · rw [g2]
    exact ⟨nofun, fun c h => h, nofun⟩

include hc in
theorem busy_loc {es : List CopyEvent} {q : CopyConf} (hq : CopyRun n size (copyStart chunk) es q) {r r' o l o' l' : Nat}
    (h : (r, o, l) ∈ takenRanges es) (h' : (r', o', l') ∈ takenRanges es) (ha : o + l ≤ o' ∨ o' + l' ≤ o ∨ l = 0 ∨ l' = 0) :
    (loc (o, l)).1 + (loc (o, l)).2 ≤ (loc (o', l')).1 ∨ (loc (o', l')).1 + (loc (o', l')).2 ≤ (loc (o, l)).1 := by
  have h1 := busy_range hr hc hq h
  have h2 := busy_range hr hc hq h'
  exact hr.sep o l o' l' h1.1 h1.2.1 h1.2.2 h2.1 h2.2.1 h2.2.2 (by omega)

include hn hc hm

theorem kinv_start : KInv env K S T bb H nd n size chunk job loc F [] (filesStart chunk H mem nd) := by
  refine ⟨.nil _, fun _ _ => rfl, fun r h _ => ⟨_, _, rfl, handle_start hr r h⟩, fun r _ o l h => ?_, fun o l h => ?_⟩
  · simp [filesStart, copyStart] at h
  · simp [copiedRanges] at h

theorem kinv_file {es : List CopyEvent} {s : FilesConf} (hi : KInv env K S T bb H nd n size chunk job loc F es s)
    (r : Nat) (op : FOp) (k : Resp → Prog Worker) (c : Nat) (hrn : r < n) (ht : s.procs.thr r = ⟨.file op k, c⟩) :
    KInv env K S T bb H nd n size chunk job loc F es
      { s with procs := s.procs.put r ⟨Prog.after k (op.does (F r c) s.procs.nodes).1, c + 1⟩ (op.does (F r c) s.procs.nodes).2 } := by
  have hbusy : ∃ o l, s.queue.worker r = .copying o l := by
    refine Classical.byContradiction fun hno => ?_
    obtain ⟨x, c', e, _⟩ := hi.idle r hrn fun o l h => hno ⟨o, l, h⟩
    rw [ht] at e
    cases e
  obtain ⟨o, l, hol⟩ := hbusy
  have htak := (busy_taken hi.queue).1
  have hcop := (busy_taken hi.queue).2
  have hlr := busy_range hr hc hi.queue (htak r o l hol)
  obtain ⟨x, a0, a, c0, d, h1, h2, h3, h4, h5⟩ := (hi.busy r hrn o l hol).work
  rw [ht] at h3 h4
  dsimp only at h3 h4
  have hop : RangeOp env.m bb.basename (H 0) (loc (o, l)).1 (loc (o, l)).2 op := (h4.allOps (job_ops hr hn h1 hlr)).1
  have hpush := h5.push (o := op) (f := F r c) (fun o' f' ho' => by
    obtain ⟨y, hy, ho'⟩ := ho'
    exact hop.doCommute hr.apart.ne (by omega) ho' _ _)
  refine ⟨hi.queue, fun k hk => ?_, fun q hq hnb => ?_, fun q hq o' l' hb => ?_, fun o' l' hco i hi' => ?_⟩
  · exact (hop.other _ _ k hk).trans (hi.out k hk)
  · have hne : q ≠ r := fun e => hnb o l (e ▸ hol)
    obtain ⟨y, t, e, hy⟩ := hi.idle q hq hnb
    exact ⟨y, t, by simp only [Conf.put, if_neg hne]; exact e, hy⟩
  · by_cases hne : q = r
    · subst hne
      dsimp only at hb
      rw [hol] at hb
      injection hb with e1 e2
      subst e1 e2
      refine ⟨x, a0, (op.does (F q c) a).2, c0, d + 1, h1, h2, by simp [Conf.put]; omega, ?_, hpush.2⟩
      simp only [Conf.put, if_true]
      rw [hpush.1]
      have h6 := h4.snoc
      rw [show c0 + d = c by omega] at h6
      exact h6
    · obtain ⟨x', a0', a', c0', d', g1, g2, g3, g4, g5⟩ := (hi.busy q hq o' l' hb).work
      refine ⟨x', a0', a', c0', d', g1, g2, ?_, ?_, ?_⟩
      · simp only [Conf.put, if_neg hne]; exact g3
      · simp only [Conf.put, if_neg hne]; exact g4
      · refine g5.snoc op _ ⟨loc (o, l), ?_, hop⟩
        exact busy_loc hr hc hi.queue (htak r o l hol) (htak q o' l' hb) (busy_apart hc hi.queue hrn hq (Ne.symm hne) hol hb)
  · have hold := hi.copied o' l' hco i hi'
    obtain ⟨r', htk⟩ := hcop o' l' hco
    have hsep := busy_loc hr hc hi.queue (htak r o l hol) htk (busy_copied_apart hc hi.queue hrn hol hco)
    have hrg := busy_range hr hc hi.queue htk
    obtain ⟨bytes, e1, e2⟩ := (hr.jobs o' l' hrg.1 hrg.2.1 hrg.2.2).rows i hi'
    rw [← hold]
    refine hop.row _ _ _ (by omega) ?_
    unfold Stored
    rw [hold, e1, Option.getD_some, e2, rows_size hr hn]

theorem kinv_queue {es : List CopyEvent} {s s' : FilesConf} {e : CopyEvent} (hi : KInv env K S T bb H nd n size chunk job loc F es s)
    (h : FilesStep job F n size s (.queue e) s') : KInv env K S T bb H nd n size chunk job loc F (es ++ [e]) s' := by
  cases h with
  | talk _ q h he =>
    have hb := fun r o l => h.talk_busy he r o l
    refine ⟨hi.queue.snoc h, hi.out, fun r hrn hnb => hi.idle r hrn fun o l ho => hnb o l ((hb r o l).mpr ho),
      fun r hrn o l ho => hi.busy r hrn o l ((hb r o l).mp ho), fun o l hco => hi.copied o l ?_⟩
    rw [copiedRanges_append] at hco
    rcases List.mem_append.mp hco with hco | hco
    · exact hco
    · cases e <;> simp [copiedRanges, CopyEvent.isTalk] at hco he
  | take r o l q x t h ht =>
    have hq := hi.queue.snoc h
    cases h with
    | take _ _ _ q hrn h hm =>
      refine ⟨hq, hi.out, fun p hp hnb => ?_, fun p hp o' l' hb => ?_, fun o' l' hco => hi.copied o' l' ?_⟩
      · have hne : p ≠ r := fun e => hnb o l (by rw [e]; exact upd_same _ _ _)
        obtain ⟨y, t', e, hy⟩ := hi.idle p hp fun o' l' hb' => hnb o' l' (by dsimp only; rw [upd_ne _ _ hne]; exact hb')
        exact ⟨y, t', by simp only [Conf.put, if_neg hne]; exact e, hy⟩
      · by_cases hne : p = r
        · subst hne
          dsimp only at hb
          rw [upd_same] at hb
          injection hb with e1 e2
          subst e1 e2
          obtain ⟨y, t', e, hy⟩ := hi.idle p hp (by rw [h]; simp)
          rw [ht] at e
          injection e with e1 e2
          injection e1 with e1
          subst e1 e2
          refine ⟨x, s.procs.nodes, s.procs.nodes, t, 0, hy, src_holds hr hi, by simp [Conf.put], ?_, .nil⟩
          simp only [Conf.put, if_true]
          exact .nil
        · dsimp only at hb
          rw [upd_ne _ _ hne] at hb
          obtain ⟨x', a0', a', c0', d', g1, g2, g3, g4, g5⟩ := (hi.busy p hp o' l' hb).work
          exact ⟨x', a0', a', c0', d', g1, g2, by simp only [Conf.put, if_neg hne]; exact g3,
            by simp only [Conf.put, if_neg hne]; exact g4, g5⟩
      · rw [copiedRanges_append] at hco
        simpa [copiedRanges] using hco
  | copied r o l q x t h ht hx =>
    have hq := hi.queue.snoc h
    cases h with
    | copied _ _ _ hrn h =>
      have hw := hi.busy r hrn.2 o l h
      have hlr := busy_range hr hc hi.queue ((busy_taken hi.queue).1 r o l h)
      have hend := work_ends hr hn hm hlr hw
      rw [ht] at hend
      obtain ⟨hy, hrows⟩ := hend.2.2 x rfl
      refine ⟨hq, hi.out, fun p hp hnb => ?_, fun p hp o' l' hb => ?_, fun o' l' hco => ?_⟩
      · by_cases hne : p = r
        · subst hne
          exact ⟨x, t, ht, hy⟩
        · exact hi.idle p hp fun o' l' hb' => hnb o' l' (by dsimp only; rw [upd_ne _ _ hne]; exact hb')
      · by_cases hne : p = r
        · subst hne
          dsimp only at hb
          rw [upd_same] at hb
          cases hb
        · dsimp only at hb
          rw [upd_ne _ _ hne] at hb
          exact hi.busy p hp o' l' hb
      · rw [copiedRanges_append] at hco
        rcases List.mem_append.mp hco with hco | hco
        · exact hi.copied o' l' hco
        · simp [copiedRanges] at hco
          obtain ⟨rfl, rfl⟩ := hco
          exact hrows hx
  | failed r o l q x t h ht hx =>
    have hq := hi.queue.snoc h
    cases h with
    | failed _ _ _ hrn h =>
      have hw := hi.busy r hrn.2 o l h
      have hlr := busy_range hr hc hi.queue ((busy_taken hi.queue).1 r o l h)
      have hend := work_ends hr hn hm hlr hw
      rw [ht] at hend
      obtain ⟨hy, hrows⟩ := hend.2.2 x rfl
      refine ⟨hq, hi.out, fun p hp hnb => ?_, fun p hp o' l' hb => ?_, fun o' l' hco => hi.copied o' l' ?_⟩
      · by_cases hne : p = r
        · subst hne
          exact ⟨x, t, ht, hy⟩
        · exact hi.idle p hp fun o' l' hb' => hnb o' l' (by dsimp only; rw [upd_ne _ _ hne]; exact hb')
      · by_cases hne : p = r
        · subst hne
          dsimp only at hb
          rw [upd_same] at hb
          cases hb
        · dsimp only at hb
          rw [upd_ne _ _ hne] at hb
          exact hi.busy p hp o' l' hb
      · rw [copiedRanges_append] at hco
        simpa [copiedRanges] using hco

theorem kinv_run {es : List CopyEvent} {s : FilesConf} (t : KFilesRun job F n size (filesStart chunk H mem nd) es s) :
    KInv env K S T bb H nd n size chunk job loc F es s := by
  induction t with
  | nil => exact kinv_start hr hn hc hm
  | queue t h ih => exact kinv_queue hr hn hc hm ih h
  | file t r op k c hrn ht ih => exact kinv_file hr hn hc hm ih r op k c hrn ht

/-- At every moment, whatever failed and whoever was killed. -/
theorem jobs_killed {es : List CopyEvent} {s : FilesConf} (t : KFilesRun job F n size (filesStart chunk H mem nd) es s) :
    (∀ r, r < n → (s.procs.thr r).prog ≠ .ub) ∧ Holds env K bb ⟨s.procs.nodes, []⟩ S ∧
    (∀ k, (∀ g, k ≠ fileKey (H 0).basename (.data g)) → s.procs.nodes k = nd k) ∧
    ∀ o l, (o, l) ∈ copiedRanges es → ∀ i, i < (loc (o, l)).2 →
      row env.m ⟨s.procs.nodes, []⟩ (H 0) ((loc (o, l)).1 + i) = (T.rows ((loc (o, l)).1 + i)).getD [] := by
  have hi := kinv_run hr hn hc hm t
  refine ⟨fun r hrn => ?_, src_holds hr hi, hi.out, hi.copied⟩
  by_cases hb : ∃ o l, s.queue.worker r = .copying o l
  · obtain ⟨o, l, hol⟩ := hb
    exact (work_ends hr hn hm (busy_range hr hc hi.queue ((busy_taken hi.queue).1 r o l hol)) (hi.busy r hrn o l hol)).1
  · obtain ⟨x, c, e, _⟩ := hi.idle r hrn fun o l h => hb ⟨o, l, h⟩
    rw [e]
    simp

omit hn hc hm hr in
theorem Alone.picky {F : Nat → Fault} {P : Worker → Prop} {p0 p : Prog Worker} {a b : Nodes} {t : Nat} (h : Alone F p0 a t p b) (hp : p0.Picky P) :
    p.Picky P := by
  induction h with
  | nil => exact hp
  | @snoc t op k nd1 h ih =>
    cases (op.does (F t) nd1).1 with
    | none => trivial
    | some a => exact ih.2 a

/-- Somebody has failed: a failure was reported, or will be if the process is not killed before. -/
def Spoiled (n : Nat) (es : List CopyEvent) (s : FilesConf) : Prop :=
  failedRanges es ≠ [] ∨ ∃ r o l, r < n ∧ s.queue.worker r = .copying o l ∧ (s.procs.thr r).prog.Ends (fun y => y.rc ≠ 0)

omit hn hc hm hr in
theorem Spoiled.queue {es : List CopyEvent} {s s' : FilesConf} {e : CopyEvent} (hs : Spoiled n es s)
    (h : FilesStep job F n size s (.queue e) s') : Spoiled n (es ++ [e]) s' := by
  rcases hs with hs | ⟨r, o, l, hrn, hw, he⟩
  · left
    rw [failedRanges_append]
    exact List.append_ne_nil_of_left_ne_nil hs _
  · cases h with
    | talk _ q h ht => exact Or.inr ⟨r, o, l, hrn, (h.talk_busy ht r o l).mpr hw, he⟩
    | take r' o' l' q x t h ht =>
      right
      cases h with
      | take _ _ _ q hr' h hm =>
        have hne : r ≠ r' := by rintro rfl; rw [hw] at h; cases h
        exact ⟨r, o, l, hrn, by dsimp only; rw [upd_ne _ _ hne]; exact hw, by simp only [Conf.put, if_neg hne]; exact he⟩
    | copied r' o' l' q x t h ht hx =>
      right
      cases h with
      | copied _ _ _ hr' h =>
        have hne : r ≠ r' := by
          rintro rfl
          rw [ht] at he
          exact he hx
        exact ⟨r, o, l, hrn, by dsimp only; rw [upd_ne _ _ hne]; exact hw, he⟩
    | failed r' o' l' q x t h ht hx =>
      left
      rw [failedRanges_append]
      simp [failedRanges]

omit hn hc hm hr in
theorem Spoiled.file {es : List CopyEvent} {s : FilesConf} (hs : Spoiled n es s)
    (r : Nat) (op : FOp) (k : Resp → Prog Worker) (c : Nat) (ht : s.procs.thr r = ⟨.file op k, c⟩) :
    Spoiled n es { s with procs := s.procs.put r ⟨Prog.after k (op.does (F r c) s.procs.nodes).1, c + 1⟩ (op.does (F r c) s.procs.nodes).2 } := by
  rcases hs with hs | ⟨q, o, l, hq, hw, he⟩
  · exact Or.inl hs
  · right
    refine ⟨q, o, l, hq, hw, ?_⟩
    by_cases hne : q = r
    · subst hne
      rw [ht] at he
      simp only [Conf.put, if_true]
      cases (op.does (F q c) s.procs.nodes).1 with
      | none => trivial
      | some a => exact he a
    · simp only [Conf.put, if_neg hne]
      exact he

omit hn hc hm hr in
theorem FilesStep.any_faults {F' : Nat → Nat → Fault} {s s' : FilesConf} {e : CopyEvent} (h : FilesStep job F n size s (.queue e) s') :
    FilesStep job F' n size s (.queue e) s' := by
  cases h with
  | talk _ q h ht => exact .talk _ _ _ h ht
  | take r' o' l' q x t h ht => exact .take _ _ _ _ _ _ _ h ht
  | copied r' o' l' q x t h ht hx => exact .copied _ _ _ _ _ _ _ h ht hx
  | failed r' o' l' q x t h ht hx => exact .failed _ _ _ _ _ _ _ h ht hx

omit hn hc hm hr in
theorem FOp.exec_does (op : FOp) (nd : Nodes) (a : Resp) (nd' : Nodes) (h : op.does .none nd = (some a, nd')) : op.exec .none nd = some (a, nd') := by
  unfold FOp.does at h
  unfold FOp.exec
  split at h
  · rename_i r w e
    rw [e]
    simp only [Prod.mk.injEq, Option.some.injEq] at h
    obtain ⟨rfl, rfl⟩ := h
    rfl
  · cases h
  · cases h

omit hn hc hm hr in
theorem RangeOp.plain {m : Machine} {src : CStr} {bn : Block} {p k : Nat} {op : FOp} (h : RangeOp m src bn p k op) :
    (op.Passive ∨ ∃ path off bs, op = .fwrite path off bs) ∧ ∀ nd, ∃ a, (op.does .none nd).1 = some a := by
  rcases h with h | h
  · exact ⟨Or.inl h.passive, fun nd => by rw [h.passive.does]; exact ⟨_, rfl⟩⟩
  · cases op with
    | fread path off len => exact h.elim
    | fopen path mode =>
      cases mode with
      | r => exact h.elim
      | w => exact h.elim
      | rplus => exact ⟨Or.inl trivial, fun nd => by rw [does_rplus]; exact ⟨_, rfl⟩⟩
    | fwrite path off bs => exact ⟨Or.inr ⟨_, _, _, rfl⟩, fun nd => by rw [does_fwrite]; exact ⟨_, rfl⟩⟩

/-- Either somebody has failed, or everything went as if nothing could fail. -/
theorem jobs_spoiled {es : List CopyEvent} {s : FilesConf} (t : KFilesRun job F n size (filesStart chunk H mem nd) es s) :
    Spoiled n es s ∨ ∃ es', FilesRun job faultless n size (filesStart chunk H mem nd) es' s ∧ queueEvents es' = es := by
  induction t with
  | nil => exact Or.inr ⟨[], .nil _, rfl⟩
  | @queue s s' es e t h ih =>
    rcases ih with ih | ⟨es', ih, rfl⟩
    · exact Or.inl (ih.queue h)
    · refine Or.inr ⟨es' ++ [.queue e], ih.snoc h.any_faults, ?_⟩
      rw [queueEvents_append]
      rfl
  | @file s es t r op k c hrn ht ih =>
    rcases ih with ih | ⟨es', ih, rfl⟩
    · exact Or.inl (ih.file r op k c ht)
    · have hi := kinv_run hr hn hc hm t
      have hbusy : ∃ o l, s.queue.worker r = .copying o l := by
        refine Classical.byContradiction fun hno => ?_
        obtain ⟨x, c', e, _⟩ := hi.idle r hrn fun o l h => hno ⟨o, l, h⟩
        rw [ht] at e
        cases e
      obtain ⟨o, l, hol⟩ := hbusy
      have hlr := busy_range hr hc hi.queue ((busy_taken hi.queue).1 r o l hol)
      obtain ⟨x, a0, a, c0, d, h1, h2, h3, h4, h5⟩ := (hi.busy r hrn o l hol).work
      rw [ht] at h4
      have hop : RangeOp env.m bb.basename (H 0) (loc (o, l)).1 (loc (o, l)).2 op := (h4.allOps (job_ops hr hn h1 hlr)).1
      have hpk := h4.picky ((hm o l hlr.1 hlr.2.1 hlr.2.2).picky x hr.src.ok h1)
      rcases op.does_noFault hop.plain.1 (F r c) s.procs.nodes with hd | hd
      · right
        obtain ⟨ans, ha⟩ := hop.plain.2 s.procs.nodes
        rw [hd, ha]
        refine ⟨_, ih.snoc (.file s _ _ (.file s.procs r op k c ans (op.does .none s.procs.nodes).2 hrn ht ?_)), ?_⟩
        · exact FOp.exec_does _ _ _ _ (Prod.ext ha rfl)
        · rw [queueEvents_append]
          exact List.append_nil _
      · left
        right
        refine ⟨r, o, l, hrn, hol, ?_⟩
        simp only [Conf.put, if_true]
        cases hans : (op.does (F r c) s.procs.nodes).1 with
        | none => trivial
        | some ans => exact hpk.1 ans (hd ans hans)

omit hn hc hm hr in
/-- Closing together changes nothing outside. -/
theorem mpiClose_touches (Y : Nat → Block) : Touches (Y 0).basename (mpiClose env n Y) := by
  unfold mpiClose mpiFlush
  refine Touches.bind (Touches.bind (blockFlush_touches env (reducedRoot n Y)) fun x => ?_) fun x => Touches.pure _
  obtain ⟨rc, b⟩ := x
  dsimp only
  split
  · exact Touches.pure _
  · exact Touches.pure _

omit hn hc hm hr in
/-- Closing together: if it succeeds, then the files are the same whatever failed meanwhile. -/
theorem mpiClose_faults {Y : Nat → Block} {C : Content} {fs : FS} (hd : Holds env K (Y 0) fs C) :
    ∃ fs', ∀ w : World, w.fs = fs → NoSilent w.faults →
      wpc (mpiClose env n Y) w (fun rc w' => w'.faults = w.faults ∧ (rc = 0 ∨ rc = -1) ∧ (rc = 0 → w'.fs = fs')) (fun _ => True) := by
  obtain ⟨txt, htxt, _⟩ := hd.durable.attrText
  refine ⟨flushFS (reducedRoot n Y) txt fs, ?_⟩
  rintro w rfl hns
  unfold mpiClose mpiFlush
  rw [wpc_bind, wpc_bind]
  refine wpc_mono (wpc_blockFlush_cases (reducedRoot n Y) txt w hns htxt) ?_ fun _ _ => trivial
  rintro ⟨rc, b⟩ w1 ⟨hf, h⟩
  dsimp only at h ⊢
  by_cases hrc : rc = 0
  · subst hrc
    rw [if_neg (by simp)]
    rcases h with ⟨_, _, h⟩ | ⟨h, _⟩ | ⟨h, _⟩
    · exact ⟨hf, Or.inl rfl, fun _ => h⟩
    · cases h
    · cases h
  · rw [if_pos hrc]
    refine ⟨hf, ?_, fun h => absurd h hrc⟩
    rcases h with ⟨h, _⟩ | ⟨h, _⟩ | ⟨h, _⟩
    · exact absurd h hrc
    · exact Or.inr h
    · exact Or.inr h

omit hn hm in
/-- When all have left, nobody goes on. -/
theorem allLeft_stuck {es : List CopyEvent} {s : FilesConf} (hi : KInv env K S T bb H nd n size chunk job loc F es s) (hl : AllLeft n s.queue) :
    FilesStuck job faultless n size s ∧ ∀ r, r < n → ∀ o l, s.queue.worker r ≠ .copying o l := by
  obtain ⟨hsrv, hw⟩ := hl
  have hno : ∀ r, r < n → ∀ o l, s.queue.worker r ≠ .copying o l := by
    intro r hrn o l
    by_cases h0 : r = 0
    · subst h0
      rw [(copyRun_zero hc hi.queue).1]
      nofun
    · rw [hw r (by omega) hrn]
      nofun
  have hq : ∀ e q, ¬ CopyStep n size s.queue e q := by
    intro e q h
    cases h with
    | hand offset chunk r q h hlt hr hm => rw [hsrv] at h; cases h
    | giveUp offset chunk r q h hlt hr hm => rw [hsrv] at h; cases h
    | allOut offset chunk h hge => rw [hsrv] at h; cases h
    | dismiss i h hi => rw [hsrv] at h; cases h
    | leave i h hi => rw [hsrv] at h; cases h
    | start r hr h => rw [hw r hr.1 hr.2] at h; cases h
    | take r offset len q hr h hm => rw [hw r hr.1 hr.2] at h; cases h
    | quit r q hr h hm => rw [hw r hr.1 hr.2] at h; cases h
    | copied r offset len hr h => rw [hw r hr.1 hr.2] at h; cases h
    | failed r offset len hr h => rw [hw r hr.1 hr.2] at h; cases h
  refine ⟨fun e s' h => ?_, hno⟩
  cases h with
  | talk _ q h ht => exact hq _ _ h
  | take r' o' l' q x t h ht => exact hq _ _ h
  | copied r' o' l' q x t h ht hx => exact hq _ _ h
  | failed r' o' l' q x t h ht hx => exact hq _ _ h
  | file e p h =>
    cases h with
    | file r op k t a nd hrn ht he =>
      obtain ⟨x, c, e, _⟩ := hi.idle r hrn (hno r hrn)
      rw [ht] at e
      cases e
    | coll c hne hall =>
      obtain ⟨r, hmem⟩ := List.exists_mem_of_ne_nil _ hne
      obtain ⟨hrn, hwait⟩ := hall r hmem
      obtain ⟨x, c', e, _⟩ := hi.idle r hrn (hno r hrn)
      rw [e] at hwait
      exact hwait

/-- Nothing is lost by leaving out that nobody is killed. -/
theorem jobs_files {es : List FilesEvent} {s : FilesConf} (t : FilesRun job F n size (filesStart chunk H mem nd) es s) :
    KFilesRun job F n size (filesStart chunk H mem nd) (queueEvents es) s := by
  induction t with
  | nil => exact .nil
  | @snoc s1 s' es e t h ih =>
    rw [queueEvents_append]
    cases e with
    | queue e => exact ih.queue h
    | file e =>
      cases h with
      | file _ p h =>
        rw [show queueEvents [FilesEvent.file e] = [] from rfl, List.append_nil]
        cases h with
        | file r op k c a nd' hrn ht he =>
          have hd : op.does (F r c) s1.procs.nodes = (some a, nd') := by
            unfold FOp.exec at he
            unfold FOp.does
            split at he
            · rename_i e
              rw [e]
              simp only [Option.some.injEq, Prod.mk.injEq] at he
              obtain ⟨rfl, rfl⟩ := he
              rfl
            · cases he
          have := ih.file r op k c hrn ht
          rw [hd] at this
          exact this
        | coll c hne hall =>
          exfalso
          obtain ⟨r, hmem⟩ := List.exists_mem_of_ne_nil _ hne
          obtain ⟨hrn, hwait⟩ := hall r hmem
          have hi := kinv_run hr hn hc hm ih
          by_cases hb : ∃ o l, s1.queue.worker r = .copying o l
          · obtain ⟨o, l, hol⟩ := hb
            exact (work_ends hr hn hm (busy_range hr hc hi.queue ((busy_taken hi.queue).1 r o l hol)) (hi.busy r hrn o l hol)).2.1 c hwait
          · obtain ⟨x, c', e, _⟩ := hi.idle r hrn fun o l h => hb ⟨o, l, h⟩
            rw [e] at hwait
            exact hwait

omit hn in
/-- All have left and nobody has reported a failure: everything is right, also if operations fail when the new block is closed. -/
theorem jobs_success (h2 : 2 ≤ n) {es : List CopyEvent} {s : FilesConf} (t : KFilesRun job F n size (filesStart chunk H mem nd) es s)
    (hl : AllLeft n s.queue) (hf : failedRanges es = []) :
    ∃ X : Nat → Worker, (∀ r, r < n → (s.procs.thr r).prog = .ret (X r)) ∧ Holds env K bb ⟨s.procs.nodes, []⟩ S ∧
      (∀ r, r < n → Holds env K (X r).bb ⟨s.procs.nodes, []⟩ { B with rows := T.rows }) ∧
      ∀ w : World, w.fs.node = s.procs.nodes → NoSilent w.faults →
        wpc (mpiClose env n fun r => (X r).bb) w
          (fun rc w' => SameOutside (H 0).basename w.fs w'.fs ∧ Holds env K bb w'.fs S ∧ (rc = 0 ∨ rc = -1) ∧ (rc = 0 →
            OnDisk env K w'.fs (H 0).basename (Content.closed { B with rows := T.rows }) ∧
            ∃ b w1 w2, w1.fs = w'.fs ∧ w1.faults = noFaults ∧ blockOpen env (H 0).basename w1 = .ok (0, some b) w2 ∧
              ∀ f, f < (H 0).nfile →
                b.fchecksum.getD f 0 = rowsSum (H 0) 0 (fun i => (T.rows i).getD []) f B.size % 4294967296))
          (fun w' => SameOutside (H 0).basename w.fs w'.fs ∧ Holds env K bb w'.fs S) := by
  have hn : 0 < n := by omega
  have hi := kinv_run hr hn hc hm t
  obtain ⟨hst, hno⟩ := allLeft_stuck hr hc hi hl
  rcases jobs_spoiled hr hn hc hm t with hsp | ⟨es', hrun, rfl⟩
  · rcases hsp with h | ⟨r, o, l, hrn, hw, _⟩
    · exact absurd hf h
    · exact absurd hw (hno r hrn o l)
  · obtain ⟨_, X, k1, k2, k3, k4⟩ := (jobsRun hr h2 hc es' s hrun).2.2 hst
    refine ⟨X, k1, k2, k3, fun w hw hns => ?_⟩
    have hbase : (X 0).bb.basename = (H 0).basename := by
      obtain ⟨x, c, e, hx⟩ := hi.idle 0 hn (hno 0 hn)
      have h0 := k1 0 hn
      rw [e] at h0
      injection h0 with h0
      rw [← h0]
      exact hx.shape.base
    have ht := mpiClose_touches (env := env) (n := n) (fun r => (X r).bb) w
    rw [hbase] at ht
    obtain ⟨fs', hfs⟩ := mpiClose_faults (n := n) (Y := fun r => (X r).bb) ((k3 0 hn).node (fs' := w.fs) hw)
    have hwc := hfs w rfl hns
    obtain ⟨w0', e0, _, _, d0, b, w2, e2, hck⟩ := k4 ⟨w.fs, noFaults, 0⟩ hw rfl
    have h0 := wpc_ok (hfs ⟨w.fs, noFaults, 0⟩ rfl (by intro i n; simp [noFaults])) e0
    have hsrc : ∀ w' : World, SameOutside (H 0).basename w.fs w'.fs → Holds env K bb w'.fs S := fun w' h =>
      (k2.node hw).outside hr.apart h
    unfold wpc at hwc ⊢
    unfold wlp at ht
    cases e : mpiClose env n (fun r => (X r).bb) w with
    | ok rc w' =>
      rw [e] at hwc ht
      refine ⟨ht, hsrc w' ht, hwc.2.1, fun hrc => ?_⟩
      have efs : w'.fs = w0'.fs := (hwc.2.2 hrc).trans (h0.2.2 rfl).symm
      rw [efs]
      exact ⟨d0, b, w0', w2, rfl, h0.1, e2, hck⟩
    | crash w' =>
      rw [e] at hwc ht
      exact ⟨ht, hsrc w' ht⟩
    | ub => rw [e] at hwc; exact hwc.elim
    | hang => rw [e] at hwc; exact hwc.elim

end

end Verif
