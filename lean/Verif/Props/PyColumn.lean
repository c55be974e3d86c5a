import Verif.Model.PyColumn
import Verif.Props.Readers
import Verif.Props.Sample
/-!
# C98: pickled columns
-/

set_option autoImplicit false

namespace Verif

open Spec

theorem unpickled_eq {env env' : Env} {bb : Block} (hm : env'.m = env.m) (hl : Layout bb)
    (hname : (0 : Byte) ∉ bb.basename) (hlen : bb.basename.length ≤ 8192) (ha : WellAttrs env.m bb.attrset) :
    ∃ s, blockUnpack env' (blockPack env bb) = { bb with attrset := s } ∧ WellAttrs env.m s ∧ s.dirty = bb.attrset.dirty ∧
      attrView env.m s = attrView env.m bb.attrset := by
  obtain ⟨⟨⟨s1, s2, s3, s4, s5⟩, ⟨f1, f2⟩, ⟨d1, d2⟩, wl, at1, _⟩, k2⟩ := C34_pack_unpack env env' bb hm hl hname hlen ha
  refine ⟨(blockUnpack env' (blockPack env bb)).attrset, ?_, wl, d2, at1⟩
  generalize blockUnpack env' (blockPack env bb) = c at s1 s2 s3 s4 s5 f1 f2 d1 k2
  cases c; cases bb
  simp only at s1 s2 s3 s4 s5 f1 f2 d1 k2
  subst s1 s2 s3 s4 s5 f1 f2 d1 k2
  rfl

/-- **C98, a column can move.** A column that was pickled, in whatever state, and unpickled in another process of the same kind of machine
stands for the same block with the same contents, stored or not yet stored, as the column itself: whatever is true of a column with these
contents is true of it. -/
theorem C98_moves (env env' : Env) (K : Kind) (A : Content) (bb : Block) (fs : FS) (hm : env'.m = env.m)
    (hname : (0 : Byte) ∉ bb.basename) (h : Holds env K bb fs A) :
    ∃ copy, pyColSetstate env' (pyColGetstate env (some bb)) = some copy ∧ Holds env K copy fs A ∧ copy.basename = bb.basename ∧
      copy.dirty = bb.dirty := by
  obtain ⟨s, e, hw, hd, hv⟩ := unpickled_eq hm h.ok.layout hname h.savable.base h.savable.attrs
  refine ⟨_, rfl, ?_, ?_, ?_⟩
  · rw [e]
    have g := h.savable.header
    have hl : Layout { bb with attrset := s } := ⟨h.ok.layout.nfile, h.ok.layout.nck, h.ok.layout.foff, h.ok.layout.size, h.ok.layout.small, h.ok.layout.ck32⟩
    exact { ok := ⟨hl, h.ok.item, h.ok.item0, h.ok.memb, h.ok.memb0, h.ok.felInt, h.ok.buf, h.ok.bufMax, h.ok.offs⟩
            kind := h.kind, size := h.size, nfile := h.nfile
            savable := ⟨h.savable.fmt, ⟨g.1, g.2, g.3, g.4, g.5, g.6, g.7, g.8⟩, h.savable.offsets, h.savable.size, hw, by
              show AllStorable (attrView env.m s)
              rw [hv]; exact h.savable.storable, h.savable.base, h.savable.notMeta⟩
            attrs := hv.trans h.attrs
            pending := hd.trans h.pending
            tame := h.tame, saved := h.saved
            header := h.header, dir := h.dir, noOld := h.noOld, noDirs := h.noDirs, data := h.data, rows := h.rows }
  · rw [e]
  · rw [e]

/-- **C98, copies of clean columns are harmless.** If a column has nothing to store when it is pickled, then the end of the copy, whenever
it comes and whatever has been done to the block in the meantime, changes nothing on the disk. -/
theorem C98_harmless (env env' : Env) (bb : Block) (hm : env'.m = env.m) (hl : Layout bb)
    (hname : (0 : Byte) ∉ bb.basename) (hlen : bb.basename.length ≤ 8192) (ha : WellAttrs env.m bb.attrset)
    (hd : bb.dirty = false) (had : bb.attrset.dirty = false) (w : World) :
    pyColDel env' (pyColSetstate env' (pyColGetstate env (some bb))) w = .ok () w := by
  obtain ⟨s, e, _, hs, _⟩ := unpickled_eq hm hl hname hlen ha
  show pyColDel env' (some (blockUnpack env' (blockPack env bb))) w = _
  rw [e]
  have hf : flushHeader { bb with attrset := s } = pure (true, { bb with attrset := s }) := by
    unfold flushHeader
    rw [if_neg (by rw [hd]; simp)]
  have hb : blockFlush env' { bb with attrset := s } = pure (0, { bb with attrset := s }) := by
    unfold blockFlush
    rw [hf]
    show (if s.dirty = true then _ else _) = _
    rw [hs, had]
    rfl
  have hc : blockClose env' { bb with attrset := s } = pure 0 := by
    unfold blockClose
    rw [hb]
    rfl
  show (do
    let _ ← blockClose env' { bb with attrset := s }
    pure ()) w = _
  rw [hc]
  rfl

/-- A column that was never opened can be pickled, and its copy too has nothing to close. -/
theorem C98_closed (env env' : Env) (w : World) : pyColDel env' (pyColSetstate env' (pyColGetstate env none)) w = .ok () w := rfl

/-- A column writes a row, is pickled, grows and is closed; then the copy ends. The sizes that others see before and after. -/
def exPickle (flush : Bool) : M (Option Nat × Option Nat) := do
  match ← createBlock exEnv b!"d" b!"x" (some b!"i4") 1 [2, 0, 3] with
  | (_, some bb) => do
    let (_, bb) ← runBOp exEnv bb (.write 0 exSrc exMem 8)
    let (_, bb) ← if flush then blockFlush exEnv bb else pure (0, bb)
    let copy := pyColSetstate exEnv2 (pyColGetstate exEnv (some bb))
    let (_, bb) ← blockGrow bb [4]
    let _ ← blockClose exEnv bb
    let before ← openBlock exEnv b!"d" b!"x"
    pyColDel exEnv2 copy
    let after ← openBlock exEnv b!"d" b!"x"
    pure (before.2.map (·.size), after.2.map (·.size))
  | _ => pure (none, none)

/-- **C98, copies of columns with something to store.** If the column was not flushed before it was pickled, the end of the copy sets the
header back to what it was then: rows that were added since are lost. If it was flushed they remain. -/
theorem C98_sets_back_partial : (exPickle false exEmpty).val? = some (some 9, some 5) ∧ (exPickle true exEmpty).val? = some (some 9, some 9) := by
  decide +kernel

-- a column with five rows that were written
example : ∃ bb w copy, pyColSetstate exEnv2 (pyColGetstate exEnv (some bb)) = some copy ∧ Holds exEnv exKind copy (World.fs w) exCopyA ∧
    copy.basename = b!"d/z" := by
  obtain ⟨w, bb, w1, bn, w2, e, e1, e2, hb, hbn, nf, h1, h2⟩ := exSample_ready
  obtain ⟨copy, k1, k2, k3, _⟩ := C98_moves exEnv exEnv2 exKind exCopyA bb w2.fs rfl (by rw [hb]; decide) h1
  exact ⟨bb, w2, copy, k1, k2, k3.trans hb⟩

example (w : World) : pyColDel exEnv2 (pyColSetstate exEnv2 (pyColGetstate exEnv (some exB))) w = .ok () w :=
  C98_harmless exEnv exEnv2 exB rfl ⟨by decide, by decide, by decide, by decide, by decide, by decide⟩ (by decide)
    (by decide) ⟨[], attrsetCreate_inv exEnv⟩ (by decide) (by decide) w

end Verif
