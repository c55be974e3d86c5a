import Verif.Proof.Durable
import Verif.Props.Copy
import Verif.Props.AttrBad
/-!
# C70: what survives failures and kills
-/

set_option autoImplicit false

namespace Verif

open Spec

/-! ## A session -/

/-- **C70, from any state.** Any program that uses the block as it should runs without undefined behaviour and without
hanging, whatever file operations fail and wherever the process is killed (but no write is lost without an error code).
Every operation has one of the outcomes that the specification allows, and the disk is left in a state that the
specification allows. -/
theorem C70_session_partial (env : Env) (K : Kind) (p : Session) : ∀ (bb : Block) (w : World) (S : Durable),
    HoldsD env K bb w.fs S → NoSilent w.faults → p.Safe env K S →
    wpc (runSession env bb p) w
      (fun b w' => b.basename = bb.basename ∧ ∃ S', Leaves env K S p S' ∧ HoldsD env K b w'.fs S')
      (fun w' => ∃ b S', b.basename = bb.basename ∧ Leaves env K S p S' ∧ HoldsD env K b w'.fs S') := by
  induction p with
  | stop => intro bb w S h _ _; exact ⟨rfl, S, .stop S, h⟩
  | call op k ih =>
    intro bb w S h hns hp
    unfold runSession
    rw [wpc_bind]
    apply wpc_mono (bop_may h hns op hp.1)
    · rintro ⟨x, bb1⟩ w1 ⟨hb, hf, S1, ho, h1⟩
      simp only at hb ho h1
      apply wpc_mono (ih x bb1 w1 S1 h1 (by rw [hf]; exact hns) (hp.2 x S1 ho))
      · rintro b w2 ⟨hb2, S', hl, hh⟩
        exact ⟨hb2.trans hb, S', .step S S1 S' op x k ho hl, hh⟩
      · rintro w2 ⟨b, S', hb2, hl, hh⟩
        exact ⟨b, S', hb2.trans hb, .step S S1 S' op x k ho hl, hh⟩
    · rintro w1 ⟨S', b, hk, hb, hh⟩
      exact ⟨b, S', hb, .killed S S' op k hk, hh⟩

/-! ## The next session -/

theorem take_sum_le_sum (l : List Nat) (k : Nat) : (l.take k).sum ≤ l.sum := by
  have : l.sum = (l.take k).sum + (l.drop k).sum := by rw [← List.sum_append, List.take_append_drop]
  omega

theorem opened_holdsD {env : Env} {K : Kind} {b : Block} {fs : FS} {A : Content} (h : Holds env K b fs A)
    (hd : b.dirty = false) (hp : A.pending = false) : HoldsD env K b fs (Durable.opened A) := by
  have hh := h.header hd
  refine ⟨h.ok, h.kind, h.size, h.nfile, h.savable, h.attrs, h.pending, ⟨h.tame.1, fun _ => h.tame.2 hp⟩, fun _ => h.saved hp,
    fun _ => ⟨rfl, hh⟩, ?_, h.dir, h.noOld, h.noDirs, fun _ => h.data, h.rows⟩
  intro n k hs
  exact headerSays_stored (bb := b) (bb' := b) ⟨rfl, rfl, rfl, rfl, rfl, rfl, rfl⟩ rfl h.ok.layout hh n k
    (by rw [h.size, h.nfile]; exact hs)

theorem Spec.HoldsD.holds {env : Env} {K : Kind} {b : Block} {fs : FS} {S : Durable} (h : HoldsD env K b fs S)
    (hk : S.attrsKnown = true) (hw : S.whole = true) : Holds env K b fs S.now :=
  ⟨h.ok, h.kind, h.size, h.nfile, h.savable, h.attrs, h.pending, ⟨h.tame.1, fun _ => h.tame.2 hk⟩, fun _ => h.saved hk,
    fun hd => (h.clean hd).2, h.dir, h.noOld, h.noDirs, h.data hw, h.rows⟩

/-- **C70, recovery.** If the header file records `n` rows in `k` files and the attribute file is not damaged, the next
session opens the block and finds the first `n` rows and the stored attributes. -/
theorem C70_recover_partial (env : Env) (K : Kind) (bb : Block) (w : World) (S : Durable) (n k : Nat)
    (h : HoldsD env K bb w.fs S) (hnf : w.faults = noFaults) (hst : S.stored = some (n, k)) (hk : S.attrsKnown = true) :
    ∃ b w', blockOpen env bb.basename w = .ok (0, some b) w' ∧ w'.fs = w.fs ∧ w'.faults = noFaults ∧
      b.basename = bb.basename ∧ b.dirty = false ∧
      HoldsD env K b w'.fs ⟨S.recovered n k, some (n, k), true, S.whole⟩ := by
  obtain ⟨h1, h2, ck, h3, h4, h5⟩ := h.header n k hst
  have hL := h.ok.layout
  have hsv := h.savable
  have hsm := hL.small
  have hle := take_sum_le_sum bb.fsize k
  have hlen : (bb.fsize.take k).length = k := by rw [List.length_take, hL.nfile]; omega
  have hlast := runningSums_last (bb.fsize.take k) (by omega)
  let b0 : Block := { bb with nfile := k, fsize := bb.fsize.take k, fchecksum := ck, size := n, foffset := runningSums 0 (bb.fsize.take k) }
  have hl0 : Layout b0 := by
    refine ⟨hlen, h3, ?_, h2, by show (bb.fsize.take k).sum < _; omega, h4⟩
    show runningSums 0 (bb.fsize.take k) = (List.range (k + 1)).map (start (bb.fsize.take k))
    rw [runningSums_eq _ 0 (by omega), hlen]
    apply List.map_congr_left
    intro f _
    simp [start]
  have hok0 : BlockOk env b0 K.w K.nm :=
    ⟨hl0, h.ok.item, h.ok.item0, h.ok.memb, h.ok.memb0, h.ok.felInt, h.ok.buf, h.ok.bufMax,
      Nat.lt_of_le_of_lt (Nat.mul_le_mul_right _ hle) h.ok.offs⟩
  have hsv0 : Savable env b0 := by
    refine ⟨hsv.fmt, ⟨hsv.header.dt, hsv.header.nmemb0, hsv.header.nmembMax, hlen, h3, ?_, ?_, h4⟩, rfl, ?_, hsv.attrs,
      hsv.storable, hsv.base, hsv.notMeta⟩
    · exact Nat.le_trans h1 hsv.header.nfileMax
    · intro s hs
      exact hsv.header.sizes s (List.mem_of_mem_take hs)
    · show n = (runningSums 0 (bb.fsize.take k)).getLastD 0
      rw [hlast]; exact h2
  obtain ⟨r, w1, e1, g1, g2, b, hr, hs, hck, hwa, hv, hd1, hd2⟩ :=
    wpc_returns (wpc_blockOpen_says (env := env) (bb := b0) (C := fun _ => False) hnf hsv0.base hsv0.notMeta
      hsv0.offsets hsv0.size h5 (h.saved hk)) (fun _ hc => hc)
  subst hr
  have hl' : Layout b := hs.layout hl0 (by rw [hck, hs.nfile]; exact hl0.nck) (by rw [hck]; exact hl0.ck32)
  have hhead : HeaderSays w1.fs b := by
    unfold HeaderSays at h5 ⊢
    rw [g1, hs.base, hs.dtype, hs.nmemb, hs.nfile, hs.fsize, hck]
    exact h5
  have hbase : b.basename = bb.basename := hs.base
  refine ⟨b, w1, e1, g1, g2, hbase, hd1, ?_⟩
  refine ⟨hok0.shape hs hl', by rw [hs.dtype]; exact h.kind, hs.size, hs.nfile,
    hsv0.shape hs hl' hwa (by rw [hv]; exact (h.tame.2 hk).storable), hv, hd2, ⟨h.tame.2 hk, fun _ => h.tame.2 hk⟩,
    fun _ => by rw [hbase, g1]; exact h.saved hk, fun _ => ⟨rfl, hhead⟩, ?_, by rw [hbase, g1]; exact h.dir,
    by rw [hbase, g1]; exact h.noOld, fun f => by rw [hbase, g1]; exact h.noDirs f, ?_, ?_⟩
  · intro n' k' hs'
    exact headerSays_stored (bb := b) (bb' := b) ⟨rfl, rfl, rfl, rfl, rfl, rfl, rfl⟩ rfl hl' hhead n' k'
      (by rw [hs.size, hs.nfile]; exact hs')
  · intro hw f hf
    rw [hbase, g1]
    have : f < k := by rw [hs.nfile] at hf; exact hf
    exact h.data hw f (by omega)
  · intro r bytes hr
    simp only [Durable.recovered] at hr
    split at hr
    · rename_i hrn
      obtain ⟨_, k2, k3⟩ := h.rows r bytes hr
      have hloc : locate (bb.fsize.take k) r = locate bb.fsize r := by
        rw [← locate_append (bb.fsize.take k) (bb.fsize.drop k) r (by omega), List.take_append_drop]
      have hrow : row env.m w1.fs b r = row env.m w.fs bb r := by
        rw [hs.row, g1]
        unfold row rowFile rowOff
        show ((w.fs.bytes (fileKey bb.basename (.data (locate (bb.fsize.take k) r).1))).drop
          ((locate (bb.fsize.take k) r).2 * rowSize env.m bb)).take (rowSize env.m bb) = _
        rw [hloc]
      refine ⟨hrn, hrow.trans k2, ?_⟩
      unfold Stored
      rw [hrow, hs.rowSize]
      exact k3
    · cases hr

/-! ## The two together -/

/-- The disk that a computation leaves, whether it returned or was killed. -/
def leftDisk {α : Type} : Res α → Option FS
  | .ok _ w => some w.fs
  | .crash w => some w.fs
  | _ => none

/-- **C70** (partial: rows must have been written before they are read; all attributes are in machine byte order and can
be represented in the attribute file; at most 16^6 files; no attribute file of the old format). A block was opened and has the content
`A`; a program that uses it as it should works on it, while any file operations fail and the process may be killed at any
moment. It does not crash by itself; it leaves a disk in a state `S'` that the outcomes of its operations allow.
If in this state the header file records `n` rows in `k` files and the attribute file is not damaged, a later process can open
the block and finds the first `n` rows as they were written and the stored attributes; and if no growing failed, this
handle holds that content in the sense of `C56`. -/
theorem C70_survives_partial (env : Env) (K : Kind) (b : Block) (w : World) (A : Content) (p : Session)
    (h : Holds env K b w.fs A) (hd : b.dirty = false) (hp : A.pending = false) (hns : NoSilent w.faults)
    (hs : p.Safe env K (Durable.opened A)) :
    ∃ fs S', leftDisk (runSession env b p w) = some fs ∧ Leaves env K (Durable.opened A) p S' ∧
      ∀ n k, S'.stored = some (n, k) → S'.attrsKnown = true → ∀ c, ∃ b' w', blockOpen env b.basename ⟨fs, noFaults, c⟩ = .ok (0, some b') w' ∧
        w'.fs = fs ∧ b'.dirty = false ∧ HoldsD env K b' fs ⟨S'.recovered n k, some (n, k), true, S'.whole⟩ ∧
        (S'.whole = true → Holds env K b' fs (S'.recovered n k)) := by
  have key := C70_session_partial env K p b w _ (opened_holdsD h hd hp) hns hs
  have fin : ∀ (bb : Block) (fs : FS) (S' : Durable), bb.basename = b.basename → HoldsD env K bb fs S' →
      ∀ n k, S'.stored = some (n, k) → S'.attrsKnown = true → ∀ c, ∃ b' w', blockOpen env b.basename ⟨fs, noFaults, c⟩ = .ok (0, some b') w' ∧
        w'.fs = fs ∧ b'.dirty = false ∧ HoldsD env K b' fs ⟨S'.recovered n k, some (n, k), true, S'.whole⟩ ∧
        (S'.whole = true → Holds env K b' fs (S'.recovered n k)) := by
    intro bb fs S' hb hh n k h1 h2 c
    obtain ⟨b', w', e, g1, _, _, g4, g5⟩ := C70_recover_partial env K bb ⟨fs, noFaults, c⟩ S' n k hh rfl h1 h2
    rw [hb] at e
    rw [g1] at g5
    exact ⟨b', w', e, g1, g4, g5, fun hw => g5.holds rfl hw⟩
  unfold wpc at key
  split at key
  · rename_i b1 w1 heq
    obtain ⟨hb, S', hl, hh⟩ := key
    exact ⟨w1.fs, S', by rw [heq]; rfl, hl, fin b1 w1.fs S' hb hh⟩
  · rename_i w1 heq
    obtain ⟨b1, S', hb, hl, hh⟩ := key
    exact ⟨w1.fs, S', by rw [heq]; rfl, hl, fin b1 w1.fs S' hb hh⟩
  · exact key.elim
  · exact key.elim

/-! ## Consequences for a user -/

/-- **C70, untouched rows.** A row that the program does not write keeps its content, whatever fails and whenever the
process is killed. -/
theorem C70_untouched (env : Env) (K : Kind) (r : Nat) (S S' : Durable) (p : Session) (h : Leaves env K S p S')
    (hp : p.Spares K r) : S'.now.rows r = S.now.rows r := by
  induction h with
  | stop S => rfl
  | killed S S' op k hk =>
    cases hk with
    | write q a mem sw _ =>
      have := hp.1
      simp only [Content.forget]
      rw [if_neg this]
    | read | grow | flush | attrs _ => rfl
  | step S S1 S' op x k ho hl ih =>
    rw [ih (hp.2 x)]
    have h1 := hp.1
    cases ho with
    | done _ _ _ =>
      cases op with
      | write q a mem sw =>
        simp only [Durable.next, Content.next]
        split
        · exact if_neg h1
        · rfl
      | read | grow | attr => rfl
      | flush =>
        simp only [Durable.next, Durable.flushed]
        split <;> rfl
      | reopen => exact h1.elim
    | write q a mem sw _ _ _ =>
      simp only [Content.forget]
      rw [if_neg h1]
    | read | grow | flush | attrs => rfl

/-- **C70, before a flush.** A program that does not flush leaves the recorded size, the stored attributes and the existence of
files as they were; only growing that failed makes the block incomplete. -/
theorem C70_unflushed (env : Env) (K : Kind) (S S' : Durable) (p : Session) (h : Leaves env K S p S') (hp : p.NoFlush) :
    S'.stored = S.stored ∧ S'.attrsKnown = S.attrsKnown ∧ S'.now.saved = S.now.saved := by
  induction h with
  | stop S => exact ⟨rfl, rfl, rfl⟩
  | killed S S' op k hk =>
    cases hk with
    | write | read | grow => exact ⟨rfl, rfl, rfl⟩
    | flush | attrs => exact hp.1.elim
  | step S S1 S' op x k ho hl ih =>
    obtain ⟨i1, i2, i3⟩ := ih (hp.2 x)
    rw [i1, i2, i3]
    have h1 := hp.1
    cases ho with
    | done _ _ _ =>
      cases op with
      | write q a mem sw =>
        simp only [Durable.next, Content.next]
        split <;> exact ⟨trivial, trivial, rfl⟩
      | read | grow | attr => exact ⟨rfl, rfl, rfl⟩
      | flush => exact h1.elim
      | reopen => exact h1.elim
    | write | read | grow => exact ⟨rfl, rfl, rfl⟩
    | flush | attrs => exact h1.elim

/-- **C70, a flush that returned 0.** The header file records the present size; if there were new attributes, or the stored ones were
known, the attribute file holds them; all rows are kept. -/
theorem C70_flushed (env : Env) (K : Kind) (S S' : Durable) (x : BAns) (h : S.Outcome env K .flush x S') (hx : x.rc = 0) :
    S'.stored = some (S.now.size, S.now.nfile) ∧ S'.now.rows = S.now.rows ∧
      (S.now.pending = true → S'.attrsKnown = true ∧ S'.now.saved = S.now.attrs) ∧
      (S.now.pending = false → S'.attrsKnown = S.attrsKnown ∧ S'.now.saved = S.now.saved) := by
  cases h with
  | done _ _ _ =>
    simp only [Durable.next, Durable.flushed]
    refine ⟨trivial, ?_, ?_, ?_⟩
    · split <;> rfl
    · intro hp; rw [hp]; simp
    · intro hp; rw [hp]; simp
  | flush _ h0 => rw [hx] at h0; exact absurd h0 (by decide)
  | attrs _ h0 _ => rw [hx] at h0; exact absurd h0 (by decide)

/-- **C70, a session without a flush.** Whatever it does, whatever fails and whenever it is killed: the block can be opened
afterwards, has its old size, number of files and attributes, and every row that the session does not write is as it was. -/
theorem C70_old_data_partial (env : Env) (K : Kind) (b : Block) (w : World) (A : Content) (p : Session)
    (h : Holds env K b w.fs A) (hd : b.dirty = false) (hp : A.pending = false) (hns : NoSilent w.faults)
    (hs : p.Safe env K (Durable.opened A)) (hnf : p.NoFlush) :
    ∃ fs, leftDisk (runSession env b p w) = some fs ∧ ∀ c, ∃ b' w', blockOpen env b.basename ⟨fs, noFaults, c⟩ = .ok (0, some b') w' ∧
      b'.size = A.size ∧ b'.nfile = A.nfile ∧ attrView env.m b'.attrset = A.saved ∧
      ∀ r bytes, A.rows r = some bytes → p.Spares K r → row env.m fs b' r = bytes := by
  obtain ⟨fs, S', h1, h2, h3⟩ := C70_survives_partial env K b w A p h hd hp hns hs
  obtain ⟨u1, u2, u3⟩ := C70_unflushed env K _ S' p h2 hnf
  refine ⟨fs, h1, fun c => ?_⟩
  obtain ⟨b', w', e, _, _, g, _⟩ := h3 A.size A.nfile u1 u2 c
  refine ⟨b', w', e, g.size, g.nfile, g.attrs.trans u3, fun r bytes hr hsp => ?_⟩
  have hlt := (h.rows r bytes hr).1
  refine (g.rows r bytes ?_).2.1
  show (if r < A.size then S'.now.rows r else none) = some bytes
  rw [if_pos hlt, C70_untouched env K r _ S' p h2 hsp]
  exact hr

/-! ## What is lost -/

/-- Set attribute `a` on the example block; flush while opening the attribute file fails; flush again without failures; open the
block. The three return codes, and whether the attribute is there. -/
def exRetry : Option (Int × Int × Int × Bool) :=
  match attrRun exEnv exB.attrset [.set b!"a" b!"i4" 1 exMem 100] with
  | none => none
  | some (_, s) =>
    match blockFlush exEnv { exB with attrset := s } ⟨exW.fs, fun k => if k = 0 then .fail else .none, 0⟩ with
    | .ok (r1, b1) w1 =>
      match blockFlush exEnv b1 { w1 with faults := noFaults } with
      | .ok (r2, _) w2 =>
        match blockOpen exEnv exB.basename w2 with
        | .ok (r3, some b3) _ => some (r1, r2, r3, (attrView exEnv.m b3.attrset b!"a").isSome)
        | _ => none
      | _ => none
    | _ => none

/-- **C70 is false of attributes.** A flush that could not write the attributes returns -1, but a second flush returns 0
without having written them: the attribute is lost although the last flush succeeded. (Header and rows do not have this
problem, see `C70_flushed`.) -/
theorem C70_retry_loses_attrs : exRetry = some (-1, 0, 0, false) := by decide +kernel

/-- In general: after a flush that failed to write the attributes, further flushes never store them. -/
theorem C70_retry_useless (env : Env) (K : Kind) (S S2 : Durable) (y : BAns)
    (h : S.attrsLost.Outcome env K .flush y S2) : S2.attrsKnown = false ∧ S2.now.pending = false := by
  cases h with
  | done _ _ _ => exact ⟨rfl, rfl⟩
  | flush _ _ => exact ⟨rfl, rfl⟩
  | attrs _ _ hp => exact absurd hp (by simp [Durable.attrsLost])

/-! ## The example -/

/-- Write rows 1 to 3, add a file of four rows, flush; if that fails, flush once more. -/
def exSession : Session :=
  .call (.write 1 exSrc exMem 8) fun _ => .call (.grow [4]) fun _ => .call .flush fun z =>
    if z.rc = 0 then .stop else .call .flush fun _ => .stop

theorem exSession_safe : exSession.Safe exEnv exKind (Durable.opened exCopyA) := by
  refine ⟨⟨by decide, exSrc_array, fun h => absurd h (by decide), fun _ => by decide +kernel⟩, fun x S1 h1 => ⟨?_, fun y S2 _ => ⟨trivial, fun z S3 _ => ?_⟩⟩⟩
  · have h5 : S1.now.size = 5 ∧ S1.now.nfile = 3 := by
      cases h1 with
      | done _ _ _ => exact ⟨rfl, rfl⟩
      | write _ _ _ _ _ _ _ _ _ => exact ⟨rfl, rfl⟩
    show S1.now.size + 4 < _ ∧ (S1.now.size + 4) * (4 * 1) < _ ∧ S1.now.nfile + 1 ≤ _
    rw [h5.1, h5.2]
    decide
  · show Session.Safe exEnv exKind (if z.rc = 0 then .stop else .call .flush fun _ => .stop) S3
    split
    · trivial
    · exact ⟨trivial, fun _ _ _ => trivial⟩

/-- The hypotheses of `C70_survives_partial` are met, for any failures and any moment of the kill. -/
example (faults : Nat → Fault) (hf : NoSilent faults) : ∃ b w A, Holds exEnv exKind b w.fs A ∧ b.dirty = false ∧ A.pending = false ∧
    w.faults = faults ∧ exSession.Safe exEnv exKind (Durable.opened A) ∧
    ∃ fs S', leftDisk (runSession exEnv b exSession w) = some fs ∧ Leaves exEnv exKind (Durable.opened A) exSession S' := by
  obtain ⟨w, _, _, _, hp, _, b, _, hd, h⟩ := exCopy_src
  obtain ⟨fs, S', h1, h2, _⟩ := C70_survives_partial exEnv exKind b ⟨w.fs, faults, 0⟩ exCopyA exSession h hd hp hf exSession_safe
  exact ⟨b, ⟨w.fs, faults, 0⟩, exCopyA, h, hd, hp, rfl, exSession_safe, fs, S', h1, h2⟩

/-- The session spares row 0 and row 4. -/
example : exSession.Spares exKind 0 ∧ exSession.Spares exKind 4 := by
  refine ⟨⟨by decide, fun _ => ⟨trivial, fun _ => ⟨trivial, fun z => ?_⟩⟩⟩, ⟨by decide, fun _ => ⟨trivial, fun _ => ⟨trivial, fun z => ?_⟩⟩⟩⟩
  all_goals
    show Session.Spares exKind _ (if z.rc = 0 then .stop else .call .flush fun _ => .stop)
    split
    · trivial
    · exact ⟨trivial, fun _ => trivial⟩

/-- Without its flushes it is a session for `C70_unflushed`. -/
example : Session.NoFlush (.call (.write 1 exSrc exMem 8) fun _ => .call (.grow [4]) fun _ => .stop) :=
  ⟨trivial, fun _ => ⟨trivial, fun _ => trivial⟩⟩

end Verif
