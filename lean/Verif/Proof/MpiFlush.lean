import Verif.Spec.MpiBlock
import Verif.Props.Mpi
import Verif.Proof.Reopen
import Verif.Props.Pack
/-!
# Collective writes followed by a collective flush
-/

set_option autoImplicit false

namespace Verif

open Spec

/-- What a history of successful collective writes leaves. -/
structure WritesDone (bb : Block) (n : Nat) (L : List (Nat × List (List Byte))) (H : Nat → Block) (fs : FS)
    (H' : Nat → Block) (fs' : FS) : Prop where
  sums : ∀ f, rankSum n H' f % 4294967296 = (rankSum n H f + bytesWritten bb L f) % 4294967296
  attrs : ∀ r, r < n → (H' r).attrset = (H r).attrset
  kept : ∀ r, r < n → (H r).dirty = true → (H' r).dirty = true
  set : (∃ e ∈ L, e.2 ≠ []) → ∃ r, r < n ∧ (H' r).dirty = true
  shape : ∀ r, r < n → SameShape bb (H r) → SameShape bb (H' r)
  layout : ∀ r, r < n → Layout (H r) → Layout (H' r)
  other : ∀ k, (∀ f, f < bb.nfile → k ≠ fileKey bb.basename (.data f)) → fs'.node k = fs.node k

theorem rankSum_congr {n : Nat} {H H' : Nat → Block} (h : ∀ r, r < n → H r = H' r) (f : Nat) : rankSum n H f = rankSum n H' f := by
  unfold rankSum
  congr 1
  apply List.map_congr_left
  intro r hr
  rw [h r (List.mem_range.mp hr)]

theorem Spec.Writes.done {env : Env} {bb : Block} {w nm n : Nat} {L : List (Nat × List (List Byte))} {H H' : Nat → Block}
    {fs fs' : FS} (h : Writes env bb w nm n L H fs H' fs') : WritesDone bb n L H fs H' fs' := by
  induction h with
  | nil H fs =>
    refine ⟨fun f => ?_, fun _ _ => rfl, fun _ _ h => h, ?_, fun _ _ h => h, fun _ _ h => h, fun _ _ => rfl⟩
    · simp [bytesWritten]
    · rintro ⟨e, he, _⟩; simp at he
  | @cons F R st p rows sw stored conc thr es s L H H' fs fs' hR hw hc hF hrun hret _ ih =>
    obtain ⟨B, hB⟩ := write_runs hw conc thr hc hF fs
    obtain ⟨_, htouch, hout⟩ := hB es s hrun
    have hfin : s.Finished n := fun r hr => ⟨_, hret r hr⟩
    have hn0 := hw.procs.1
    rcases hout hfin.stuck with ⟨st', hst, hck, hdt, _, _⟩ | ⟨_, e, r0, he, _, hst⟩
    · have hst' : ∀ r, r < n → st' r = st r := by
        intro r hr
        have h1 := (hst r hr).1
        rw [hret r hr] at h1
        injection h1 with h1
        injection h1 with _ h1
        exact h1.symm
      have hlen := allRows_length n rows nm stored
      have e1 : ∀ f, totalChecksum n st' f = rankSum n (fun r => (st r).bb) f := by
        intro f
        unfold totalChecksum rankSum
        congr 1
        apply List.map_congr_left
        intro r hr
        rw [hst' r (List.mem_range.mp hr)]
      have e2 : ∀ f, totalChecksum n R f = rankSum n H f := by
        intro f
        unfold totalChecksum rankSum
        congr 1
        apply List.map_congr_left
        intro r hr
        rw [hR r (List.mem_range.mp hr)]
      refine ⟨fun f => ?_, fun r hr => ?_, fun r hr hd => ?_, ?_, fun r hr hs => ?_, fun r hr hs => ?_, fun k hk => ?_⟩
      · have h1 := hck f
        have h2 := ih.sums f
        rw [e1, e2] at h1
        have h3 : bytesWritten bb ((p, allRows n rows nm stored) :: L) f =
            rowsSum bb p (fun i => (allRows n rows nm stored).getD i []) f (rowsBefore rows n) + bytesWritten bb L f := by
          unfold bytesWritten
          rw [List.map_cons, List.sum_cons, hlen]
        rw [h2, h3]
        generalize rowsSum bb p (fun i => (allRows n rows nm stored).getD i []) f (rowsBefore rows n) = a at *
        omega
      · rw [ih.attrs r hr, ← hR r hr, ← hst' r hr]
        exact (hst r hr).2.attrs
      · apply ih.kept r hr
        rw [← hst' r hr]
        apply (hst r hr).2.dirty
        rw [hR r hr]
        exact hd
      · rintro ⟨e, he, hne⟩
        rcases List.mem_cons.mp he with rfl | he
        · have : 0 < rowsBefore rows n := by
            rw [← hlen]
            exact List.length_pos_iff.mpr hne
          obtain ⟨r, hr, hd⟩ := hdt this
          refine ⟨r, hr, ih.kept r hr ?_⟩
          rw [← hst' r hr]
          exact hd
        · exact ih.set ⟨e, he, hne⟩
      · apply ih.shape r hr
        rw [← hst' r hr]
        exact (hst r hr).2.shape
      · apply ih.layout r hr
        rw [← hst' r hr]
        exact (hst r hr).2.layout
      · rw [ih.other k hk]
        exact htouch.other k hk
    · obtain ⟨x, hx, _⟩ := hst 0 hn0
      rw [hret 0 hn0] at hx
      injection hx with hx
      injection hx with hx _
      exact absurd hx.symm he

theorem reducedChecksums_get (n : Nat) (H : Nat → Block) (f : Nat) (hf : f < (H 0).nfile) :
    (reducedChecksums n H).getD f 0 = rankSum n H f % 4294967296 := by
  unfold reducedChecksums rankSum
  rw [List.getD_eq_getElem?_getD, List.getElem?_map, List.getElem?_range hf]
  rfl

/-- The handle that rank 0 flushes can be flushed if its own could. -/
theorem reducedRoot_savable {env : Env} {n : Nat} {H : Nat → Block} (h : Savable env (H 0)) : Savable env (reducedRoot n H) := by
  refine ⟨h.fmt, ⟨h.header.dt, h.header.nmemb0, h.header.nmembMax, h.header.nfile, ?_, h.header.nfileMax, h.header.sizes, ?_⟩,
    h.offsets, h.size, h.attrs, h.storable, h.base, h.notMeta⟩
  · show (reducedChecksums n H).length = (H 0).nfile
    simp [reducedChecksums]
  · intro c hc
    obtain ⟨f, _, rfl⟩ := List.mem_map.mp (show c ∈ reducedChecksums n H from hc)
    exact Nat.mod_lt _ (by decide)

/-- What a collective flush leaves in the handles and on disk. -/
structure FlushDone (env : Env) (n : Nat) (H H' : Nat → Block) (b : Block) (fs fs' : FS) : Prop where
  shape : SameShape (H 0) b
  sums : ∀ f, f < (H 0).nfile → b.fchecksum.getD f 0 = rankSum n H f % 4294967296
  attrs : attrView env.m b.attrset = attrView env.m (H 0).attrset
  same : ∀ r, SameShape (H 0) (H' r) ∧ (H' r).fchecksum = b.fchecksum ∧ (H' r).dirty = false ∧ (H' r).attrset.dirty = false
  other : ∀ k, k ≠ fileKey (H 0).basename .header → k ≠ fileKey (H 0).basename .attrV2 → fs'.node k = fs.node k

theorem flushOpen_spec {env : Env} {n : Nat} {H : Nat → Block} {w : World} (hnf : w.faults = noFaults)
    (hsv : Savable env (H 0)) (hl : Layout (H 0)) (hname : (0 : Byte) ∉ (H 0).basename) (hfl : Flushable env w.fs (H 0))
    (hd : ∃ r, r < n ∧ (H r).dirty = true) :
    ∃ H' b w', flushOpen env n H w = .ok ((0, H'), 0, some b) w' ∧ FlushDone env n H H' b w.fs w'.fs := by
  obtain ⟨es, hi⟩ := hsv.attrs
  let root := reducedRoot n H
  have hroot : root.dirty = true := by
    obtain ⟨r, hr, hdr⟩ := hd
    exact List.any_eq_true.mpr ⟨r, List.mem_range.mpr hr, hdr⟩
  have hsv' : Savable env root := reducedRoot_savable hsv
  have hsync : Synced env w.fs root := ⟨fun h => by rw [hroot] at h; exact absurd h (by decide), hfl.attrs⟩
  have hold := hfl.old
  rw [hi.view_eq] at hold
  obtain ⟨txt, s1, hlin, ⟨es1, hi1, _⟩, hh, ha⟩ := flushFS_says (bb := root) hsv' hi hold hsync
  have key : wpc (flushOpen env n H) w (fun x w' => ∃ H' b, x = ((0, H'), 0, some b) ∧ FlushDone env n H H' b w.fs w'.fs)
      (fun _ => False) := by
    unfold flushOpen mpiFlush
    rw [wpc_bind, wpc_bind]
    apply wpc_mono (wpc_blockFlush env root txt s1 w hlin)
    · rintro ⟨rc, bb'⟩ w1 ⟨f1, _, _, k3, k4⟩
      have hrc : rc = 0 := k4 hnf hfl.dir
      subst hrc
      obtain ⟨rfl, hfs⟩ := k3 rfl
      have hfs := hfs (by rw [hnf]; intro i n; simp [noFaults])
      simp only [ne_eq, not_true_eq_false, if_false]
      rw [wpc_pure, wpc_bind]
      rw [← hfs] at hh ha
      apply wpc_mono (wpc_blockOpen_says (bb := root) (f1.trans hnf) hsv.base hsv.notMeta hsv.offsets hsv.size hh ha)
      · rintro r w2 ⟨e2, f2, b, rfl, j1, j2, j3, j4, j5, j6⟩
        rw [wpc_pure]
        refine ⟨_, b, rfl, ⟨⟨j1.dtype, j1.nmemb, j1.base, j1.size, j1.fsize, j1.foffset, j1.nfile⟩, ?_, ?_, ?_, ?_⟩⟩
        · intro f hf
          rw [j2]
          exact reducedChecksums_get n H f hf
        · rw [j4, hi.view_eq]
        · intro r
          have hS : SameShape (H 0) (flushed root s1) := ⟨rfl, rfl, rfl, rfl, rfl, rfl, rfl⟩
          have hL : Layout (flushed root s1) :=
            ⟨hl.nfile, hsv'.header.nck, hl.foff, hl.size, hl.small, hsv'.header.cks⟩
          have hda : (flushed root s1).attrset.dirty = false := by
            show (if root.attrset.dirty then { s1 with dirty := false } else root.attrset).dirty = false
            split
            · rfl
            · rename_i h; simpa using h
          have hwa : WellAttrs env.m (flushed root s1).attrset := by
            show WellAttrs env.m (if root.attrset.dirty then { s1 with dirty := false } else root.attrset)
            split
            · exact ⟨es1, hi1.dirty false⟩
            · exact ⟨es, hi⟩
          unfold mpiBroadcast
          by_cases hr0 : r = 0
          · rw [if_pos hr0]
            exact ⟨hS, j2.symm, rfl, hda⟩
          · rw [if_neg hr0]
            obtain ⟨hp, hoff⟩ := C34_pack_unpack env env (flushed root s1) rfl hL hname hsv.base hwa
            obtain ⟨p1, p2, p3, p4, p5⟩ := hp.shape
            exact ⟨⟨p1, p2, p3, p4, hp.files.1, hoff, p5⟩, hp.files.2.trans j2.symm, hp.dirty.1, hp.dirty.2.trans hda⟩
        · intro k h1 h2
          rw [e2, hfs]
          exact flushFS_other root txt w.fs k h1 h2
      · intro _ h; exact h
    · rintro w1 ⟨h, _⟩
      exact absurd hnf h
  obtain ⟨a, w', h1, H', b, rfl, h2⟩ := wpc_returns key (fun _ h => h)
  exact ⟨H', b, w', h1, h2⟩

theorem Spec.Flushable.congr {env : Env} {fs fs' : FS} {b b' : Block} (h : Flushable env fs b) (hb : b'.basename = b.basename)
    (ha : b'.attrset = b.attrset) (h1 : fs'.node (resolve b.basename) = fs.node (resolve b.basename))
    (h2 : ∀ id, id = .header ∨ id = .attrV2 ∨ id = .attr → fs'.node (fileKey b.basename id) = fs.node (fileKey b.basename id)) :
    Flushable env fs' b' := by
  have hv1 : ∀ s, readsV1 env fs' b.basename s = readsV1 env fs b.basename s := fun s => readsV1_congr (h2 .attr (by simp))
  have hv2 : ∀ s, readsV2 env fs' b.basename s = readsV2 env fs b.basename s := fun s => readsV2_congr (h2 .attrV2 (by simp))
  refine ⟨?_, ?_, ?_⟩
  · rw [hb]
    exact ⟨h1 ▸ h.dir.dir, (h2 .header (by simp)) ▸ h.dir.header, (h2 .attrV2 (by simp)) ▸ h.dir.attr⟩
  · rw [hb, ha]
    intro hd
    obtain ⟨s1, g1, g2, g3⟩ := h.old hd
    exact ⟨s1, (hv1 _).trans g1, g2, g3⟩
  · rw [hb, ha]
    intro hd
    obtain ⟨s1, s2, g1, g2, g3, g4⟩ := h.attrs hd
    exact ⟨s1, s2, (hv1 _).trans g1, (hv2 _).trans g2, g3, g4⟩

end Verif
