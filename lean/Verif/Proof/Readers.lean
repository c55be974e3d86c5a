import Verif.Spec.Readers
import Verif.Props.Holes
import Verif.Props.Durable
import Verif.Props.Pack
/-!
# Readers alongside a writer
-/

set_option autoImplicit false

namespace Verif

open Spec

variable {env : Env} {K : Kind}

/-- The handle of a reader. -/
structure ReaderOf (env : Env) (K : Kind) (bb rb : Block) (s : Snapshot) : Prop where
  ok : BlockOk env rb K.w K.nm
  kind : dtypeNormalize env.m rb.dtype = K.dtype
  base : rb.basename = bb.basename
  files : rb.fsize = bb.fsize.take s.nfile
  nfile : s.nfile ≤ bb.fsize.length
  size : rb.size = s.size
  clean : rb.dirty = false
  cleanAttrs : rb.attrset.dirty = false
  well : WellAttrs env.m rb.attrset
  attrs : attrView env.m rb.attrset = s.attrs

/-- The handles, and the directory of the block. -/
structure HoldsW (env : Env) (K : Kind) (hs : Handles) (fs : FS) (W : Watched) : Prop where
  main : HoldsH env K hs.main fs W.main
  disk : HoldsD env K hs.main fs ⟨W.main.content, some W.stored, true, true⟩
  nul : (0 : Byte) ∉ hs.main.basename
  count : hs.readers.length = W.readers.length
  readers : ∀ (i : Nat) rb s, hs.readers[i]? = some rb → W.readers[i]? = some s → ReaderOf env K hs.main rb s

theorem ReaderOf.main {bb bb' rb : Block} {s : Snapshot} (h : ReaderOf env K bb rb s) (hb : bb'.basename = bb.basename)
    {new : List Nat} (hf : bb'.fsize = bb.fsize ++ new) : ReaderOf env K bb' rb s :=
  ⟨h.ok, h.kind, h.base.trans hb.symm, by rw [h.files, hf, List.take_append_of_le_length h.nfile],
    by rw [hf, List.length_append]; have := h.nfile; omega, h.size, h.clean, h.cleanAttrs, h.well, h.attrs⟩

/-- The rows that a reader sees. -/
theorem ReaderOf.rowsH {bb rb : Block} {fs : FS} {W : Watched} {s : Snapshot} (h : ReaderOf env K bb rb s)
    (hm : HoldsH env K bb fs W.main) : RowsH env K rb fs (W.seen s) := by
  have hsum : (bb.fsize.take s.nfile).sum = s.size := by rw [← h.files, ← h.ok.layout.size, h.size]
  have hrs : rowSize env.m rb = rowSize env.m bb := by
    rw [hm.pos.1]
    unfold rowSize
    rw [h.ok.item, h.ok.memb]
    rfl
  have hle : s.size ≤ W.main.content.size := by
    have h1 := take_sum_le_sum bb.fsize s.nfile
    have h2 := hm.holds.ok.layout.size
    have h3 := hm.holds.size
    omega
  have hrow : ∀ r, r < s.size → row env.m fs rb r = row env.m fs bb r := by
    intro r hr
    have hloc : locate (bb.fsize.take s.nfile) r = locate bb.fsize r := by
      rw [← locate_append (bb.fsize.take s.nfile) (bb.fsize.drop s.nfile) r (by omega), List.take_append_drop]
    unfold row rowOff rowFile
    rw [h.base, h.files, hrs, hloc]
  have hreach : ∀ r, (W.seen s).reached r ↔ W.main.reached r := fun _ => Iff.rfl
  refine ⟨h.ok, h.kind, h.size, fun r hr => ?_, fun r hr hs => ?_⟩
  · have hr' : r < s.size := hr
    rw [hreach, ← hm.reach r (by omega)]
    unfold Stored
    rw [hrow r hr', hrs]
  · have hr' : r < s.size := hr
    rw [hrow r hr']
    exact hm.row_eq (by omega) hs

/-- The header file and the attribute file after an operation of the writer. -/
theorem durable_step {bb bb' : Block} {w w' : World} {A : Content} {st : Nat × Nat} {op : BOp} {x : BAns}
    (h : HoldsD env K bb w.fs ⟨A, some st, true, true⟩) (hnf : w.faults = noFaults) (hl : A.legal env K op)
    (e : runBOp env bb op w = .ok (x, bb') w') :
    HoldsD env K bb' w'.fs ⟨A.next env K op, some (match op with
      | .flush => (A.size, A.nfile)
      | .reopen => (A.size, A.nfile)
      | _ => st), true, true⟩ := by
  have hns : NoSilent w.faults := by rw [hnf]; intro i n; simp [noFaults]
  obtain ⟨x1, b1, w1, e1, d⟩ := bop_step (h.holds rfl rfl) hnf op hl
  rw [e] at e1
  injection e1 with e1 e2
  injection e1 with e1 e3
  subst e1 e2 e3
  have hans := d.ans
  cases op with
  | write p a mem sw =>
    obtain ⟨_, _, S', ho, hh⟩ := wpc_ok (bop_may h hns (.write p a mem sw) hl) e
    cases ho with
    | done _ _ _ => exact hh
    | write _ _ _ _ _ h1 h2 _ _ =>
      simp only [Content.answers] at hans
      rw [if_pos h2] at hans
      rw [h1] at hans
      exact absurd hans.1 (by decide)
  | read p a mem sw =>
    obtain ⟨_, _, S', ho, hh⟩ := wpc_ok (bop_may h hns (.read p a mem sw) hl) e
    cases ho with
    | done _ _ _ => exact hh
    | read _ _ _ _ _ _ _ => exact hh
  | grow sizes =>
    obtain ⟨_, _, S', ho, hh⟩ := wpc_ok (bop_may h hns (.grow sizes) hl) e
    cases ho with
    | done _ _ _ => exact hh
    | grow _ _ h1 =>
      have h0 : x.rc = 0 := hans
      rw [h0] at h1
      exact absurd h1 (by decide)
  | attr op =>
    obtain ⟨_, _, S', ho, hh⟩ := wpc_ok (bop_may h hns (.attr op) hl) e
    cases ho with
    | done _ _ _ => exact hh
  | flush =>
    obtain ⟨_, _, S', ho, hh⟩ := wpc_ok (bop_may h hns .flush hl) e
    have hrc : x.rc = 0 := hans
    cases ho with
    | done _ _ _ => simpa [Durable.next, Durable.flushed, Content.next] using hh
    | flush _ h1 => rw [hrc] at h1; exact absurd h1 (by decide)
    | attrs _ h1 _ => rw [hrc] at h1; exact absurd h1 (by decide)
  | reopen =>
    have hp : (A.next env K .reopen).pending = false := by
      simp only [Content.next]
      split
      · rfl
      · rename_i h1; simpa using h1
    have := opened_holdsD d.holds (d.clean rfl) hp
    unfold Durable.opened at this
    have h1 : (A.next env K .reopen).size = A.size ∧ (A.next env K .reopen).nfile = A.nfile := by
      simp only [Content.next]
      split <;> exact ⟨rfl, rfl⟩
    rw [h1.1, h1.2] at this
    exact this

/-- What a reader does. -/
theorem reader_step {bb rb : Block} {w : World} {W : Watched} {s : Snapshot} (h : ReaderOf env K bb rb s)
    (hm : HoldsH env K bb w.fs W.main) (hnf : w.faults = noFaults) (op : BOp)
    (hl : W.mayRead env K s op) :
    ∃ x rb' w', runBOp env rb op w = .ok (x, rb') w' ∧ w'.fs = w.fs ∧ w'.faults = noFaults ∧
      ReaderOf env K bb rb' (s.next env.m op) ∧ W.shows env K s op x := by
  cases op with
  | read p a mem sw =>
    obtain ⟨x, w', e, h1, h2, h3⟩ := (h.rowsH hm).read hnf p a mem sw hl
    exact ⟨x, rb, w', e, h2, h1, h, h3⟩
  | attr op =>
    obtain ⟨hset, hl⟩ := hl
    obtain ⟨es, hi⟩ := h.well
    have hes : findE es = s.attrs := hi.view_eq.symm.trans h.attrs
    rw [← hes] at hl
    obtain ⟨ans, s', es', e1, hi', hn, ha⟩ := attrStep_spec hi op hl
    have hd := attrStep_dirty hi op hl e1
    rw [hes] at hn ha
    have hs : SameShape rb { rb with attrset := s' } := ⟨rfl, rfl, rfl, rfl, rfl, rfl, rfl⟩
    refine ⟨⟨ans.rc, ans.mem, some ans⟩, { rb with attrset := s' }, w, ?_, rfl, hnf,
      ⟨h.ok.shape hs (hs.layout h.ok.layout h.ok.layout.nck h.ok.layout.ck32), h.kind, h.base, h.files, h.nfile, h.size,
        h.clean, ?_, ⟨es', hi'⟩, hi'.view_eq.trans hn⟩, ans, rfl, ha⟩
    · unfold runBOp
      show M.bind (M.lift _) _ w = _
      rw [e1]
      rfl
    · show s'.dirty = false
      rw [hd, h.cleanAttrs, hset]
      rfl
  | flush =>
    refine ⟨⟨0, env.junk, none⟩, rb, w, ?_, rfl, hnf, h, rfl⟩
    unfold runBOp
    simp only [bind, M.bind]
    rw [blockFlush_clean env rb h.clean h.cleanAttrs]
    rfl
  | write p a mem sw => exact hl.elim
  | grow sizes => exact hl.elim
  | reopen => exact hl.elim

/-- A reader joins. -/
theorem attach_step {hs : Handles} {w : World} {W : Watched} (h : HoldsW env K hs w.fs W) (hnf : w.faults = noFaults) :
    ∃ rb w', blockOpen env hs.main.basename w = .ok (0, some rb) w' ∧ w'.fs = w.fs ∧ w'.faults = noFaults ∧
      ReaderOf env K hs.main rb ⟨W.stored.1, W.stored.2, W.main.content.saved⟩ := by
  obtain ⟨b, w', e, g1, g2, g3, g4, g5⟩ :=
    C70_recover_partial env K hs.main w _ W.stored.1 W.stored.2 h.disk hnf rfl rfl
  obtain ⟨k1, _, ck, _, _, k5⟩ := h.disk.header W.stored.1 W.stored.2 rfl
  have k6 := (g5.clean g4).2
  refine ⟨b, w', e, g1, g2, g5.ok, g5.kind, g3, ?_, by rw [h.main.holds.ok.layout.nfile]; exact k1, g5.size, g4, g5.pending,
    g5.savable.attrs, g5.attrs⟩
  have k7 := k5.2
  have k8 := k6.2
  simp only at k7
  rw [g3, g1, k7] at k8
  injection k8 with _ _ _ k8 _
  exact k8.symm

/-- A copy of a reader. -/
theorem copy_step {bb rb : Block} {s : Snapshot} (h : ReaderOf env K bb rb s) (hn : (0 : Byte) ∉ bb.basename)
    (hlen : bb.basename.length ≤ 8192) : ReaderOf env K bb (blockUnpack env (blockPack env rb)) s := by
  obtain ⟨k1, k2⟩ := C34_pack_unpack env env rb rfl h.ok.layout (by rw [h.base]; exact hn) (by rw [h.base]; exact hlen) h.well
  obtain ⟨⟨s1, s2, s3, s4, s5⟩, ⟨f1, f2⟩, ⟨d1, d2⟩, wl, at1, _⟩ := k1
  have hsame : SameShape rb (blockUnpack env (blockPack env rb)) := ⟨s1, s2, s3, s4, f1, k2, s5⟩
  have hlay := hsame.layout h.ok.layout (by rw [f2, s5]; exact h.ok.layout.nck) (by rw [f2]; exact h.ok.layout.ck32)
  exact ⟨h.ok.shape hsame hlay, by rw [s1]; exact h.kind, s3.trans h.base, f1.trans h.files, h.nfile, s4.trans h.size,
    d1.trans h.clean, d2.trans h.cleanAttrs, wl, at1.trans h.attrs⟩

theorem fresh_dirty {env : Env} {bf name dt : CStr} {nmemb : Int} {fsize : List Nat} {w w' : World} {b : Block}
    (hlen : (pathJoin bf name).length ≤ 8192) (hmeta : isMeta (pathJoin bf name) = false)
    (h : createBlock env bf name (some dt) nmemb fsize w = .ok (0, some b) w') : b.dirty = false := by
  have key : wpc (createBlock env bf name (some dt) nmemb fsize) w
      (fun r _ => r = (-1, none) ∨ r = (0, some (freshBlock env (pathJoin bf name) dt nmemb fsize)))
      (fun _ => True) := by
    unfold createBlock
    rw [wpc_bind]
    apply wpc_mono (wpc_mksubdirR bf name w)
    · rintro rc w1 ⟨_, _, h2, _⟩
      rcases h2 with rfl | rfl
      · simp only [ne_eq, not_true_eq_false, if_false]
        apply wpc_mono (wpc_blockCreate hlen hmeta)
        · rintro r w2 ⟨_, _, (h3 | ⟨h3, _⟩), _⟩
          · exact Or.inl h3
          · exact Or.inr h3
        · intro _ _; trivial
      · simp only [ne_eq, show (-1 : Int) ≠ 0 by decide, not_false_eq_true, if_true]
        rw [wpc_pure]
        exact Or.inl rfl
    · intro _ _; trivial
  rcases wpc_ok key h with h0 | h0
  · exact absurd h0 (by simp)
  · injection h0 with _ h0
    injection h0 with h0
    subst h0
    rfl

/-- **One operation** of the writer or of a reader. -/
theorem shared_step {hs : Handles} {w : World} {W : Watched} (h : HoldsW env K hs w.fs W) (hnf : w.faults = noFaults)
    (op : SharedOp) (hl : W.legal env K op) :
    ∃ x hs' w', runSharedOp env hs op w = .ok (x, hs') w' ∧ w'.faults = noFaults ∧ hs'.main.basename = hs.main.basename ∧
      W.answers env K op x ∧ HoldsW env K hs' w'.fs (W.next env K op) := by
  cases op with
  | main op =>
    obtain ⟨x, bb', w', e, h1, h2, h3, h4⟩ := holey_step h.main hnf op hl
    have e' : runSharedOp env hs (.main op) w = .ok (x, { hs with main := bb' }) w' := by
      unfold runSharedOp
      simp only [bind, M.bind]
      rw [e]
      rfl
    refine ⟨x, _, w', e', h1, h2, h3, ⟨h4, ?_, by show (0 : Byte) ∉ bb'.basename; rw [h2]; exact h.nul, h.count, ?_⟩⟩
    · cases op with
      | read p a mem sw =>
        obtain ⟨x2, w2, k1, k2, k3, _⟩ := h.main.rowsH.read hnf p a mem sw hl
        rw [e] at k1
        injection k1 with k1 k4
        injection k1 with k1 k5
        subst k1 k4 k5
        show HoldsD env K hs.main w'.fs _
        rw [k3]
        exact h.disk
      | write p a mem sw => exact durable_step (op := .write p a mem sw) h.disk hnf hl e
      | grow sizes => exact durable_step (op := .grow sizes) h.disk hnf hl e
      | attr op => exact durable_step (op := .attr op) h.disk hnf hl e
      | flush => exact durable_step (op := .flush) h.disk hnf hl e
      | reopen => exact durable_step (op := .reopen) h.disk hnf hl e
    · intro i rb s hi hj
      have hr := h.readers i rb s hi hj
      obtain ⟨new, hnew⟩ : ∃ new, (W.main.next env K op).sizes = W.main.sizes ++ new := by
        cases op with
        | grow new => exact ⟨new, rfl⟩
        | write p a mem sw => exact ⟨[], (List.append_nil _).symm⟩
        | read p a mem sw => exact ⟨[], (List.append_nil _).symm⟩
        | attr op => exact ⟨[], (List.append_nil _).symm⟩
        | flush => exact ⟨[], (List.append_nil _).symm⟩
        | reopen => exact ⟨[], (List.append_nil _).symm⟩
      exact hr.main h2 (new := new) (by rw [h.main.sizes, ← hnew]; exact h4.sizes)
  | attach =>
    obtain ⟨rb, w', e, h1, h2, h3⟩ := attach_step h hnf
    refine ⟨⟨0, env.junk, none⟩, { hs with readers := hs.readers ++ [rb] }, w', ?_, h2, rfl, rfl, ?_⟩
    · unfold runSharedOp
      simp only [bind, M.bind]
      rw [e]
      rfl
    · rw [h1]
      refine ⟨h.main, h.disk, h.nul, ?_, ?_⟩
      · show (hs.readers ++ [rb]).length = (W.readers ++ [_]).length
        rw [List.length_append, List.length_append, h.count]
        rfl
      · intro i rb' s hi hj
        have hi : (hs.readers ++ [rb])[i]? = some rb' := hi
        have hj : (W.readers ++ [⟨W.stored.1, W.stored.2, W.main.content.saved⟩])[i]? = some s := hj
        by_cases hlt : i < hs.readers.length
        · rw [List.getElem?_append_left hlt] at hi
          rw [List.getElem?_append_left (by rw [← h.count]; exact hlt)] at hj
          exact h.readers i rb' s hi hj
        · rw [List.getElem?_append_right (by omega)] at hi
          rw [List.getElem?_append_right (by rw [← h.count]; omega), ← h.count] at hj
          cases hk : i - hs.readers.length with
          | zero =>
            rw [hk] at hi hj
            simp only [List.getElem?_cons_zero, Option.some.injEq] at hi hj
            subst hi hj
            exact h3
          | succ k =>
            rw [hk] at hi
            simp at hi
  | reader i op =>
    obtain ⟨s, hs1, hl⟩ := hl
    have hlt : i < hs.readers.length := by
      rw [h.count]
      exact (List.getElem?_eq_some_iff.mp hs1).1
    obtain ⟨rb, hrb⟩ : ∃ rb, hs.readers[i]? = some rb := ⟨_, List.getElem?_eq_getElem hlt⟩
    obtain ⟨x, rb', w', e, g1, g2, g3, g4⟩ := reader_step (h.readers i rb s hrb hs1) h.main hnf op hl
    refine ⟨x, { hs with readers := hs.readers.set i rb' }, w', ?_, g2, rfl, ⟨s, hs1, g4⟩, ?_⟩
    · unfold runSharedOp
      simp only [hrb, bind, M.bind]
      rw [e]
      rfl
    · rw [g1]
      have hn : W.next env K (.reader i op) = { W with readers := W.readers.set i (s.next env.m op) } := by
        simp only [Watched.next, hs1]
      rw [hn]
      refine ⟨h.main, h.disk, h.nul, ?_, ?_⟩
      · show (hs.readers.set i rb').length = (W.readers.set i _).length
        rw [List.length_set, List.length_set, h.count]
      · intro j rb2 s2 hi hj
        have hi : (hs.readers.set i rb')[j]? = some rb2 := hi
        have hj : (W.readers.set i (s.next env.m op))[j]? = some s2 := hj
        by_cases hij : i = j
        · subst hij
          rw [List.getElem?_set_self hlt] at hi
          rw [List.getElem?_set_self (by rw [← h.count]; exact hlt)] at hj
          injection hi with hi
          injection hj with hj
          subst hi hj
          exact g3
        · rw [List.getElem?_set_ne hij] at hi hj
          exact h.readers j rb2 s2 hi hj
  | copy i =>
    have hi : i < W.readers.length := hl
    have hlt : i < hs.readers.length := by rw [h.count]; exact hi
    obtain ⟨rb, hrb⟩ : ∃ rb, hs.readers[i]? = some rb := ⟨_, List.getElem?_eq_getElem hlt⟩
    obtain ⟨s, hs1⟩ : ∃ s, W.readers[i]? = some s := ⟨_, List.getElem?_eq_getElem hi⟩
    have h3 := copy_step (h.readers i rb s hrb hs1) h.nul h.main.holds.savable.base
    refine ⟨⟨0, env.junk, none⟩, { hs with readers := hs.readers ++ [blockUnpack env (blockPack env rb)] }, w, ?_, hnf, rfl,
      trivial, ?_⟩
    · unfold runSharedOp
      simp only [hrb]
      rfl
    · have hn : W.next env K (.copy i) = { W with readers := W.readers ++ [s] } := by
        simp only [Watched.next, hs1]
      rw [hn]
      refine ⟨h.main, h.disk, h.nul, ?_, ?_⟩
      · show (hs.readers ++ [_]).length = (W.readers ++ [_]).length
        rw [List.length_append, List.length_append, h.count]
        rfl
      · intro j rb' s' hi hj
        have hi : (hs.readers ++ [blockUnpack env (blockPack env rb)])[j]? = some rb' := hi
        have hj : (W.readers ++ [s])[j]? = some s' := hj
        by_cases hlt : j < hs.readers.length
        · rw [List.getElem?_append_left hlt] at hi
          rw [List.getElem?_append_left (by rw [← h.count]; exact hlt)] at hj
          exact h.readers j rb' s' hi hj
        · rw [List.getElem?_append_right (by omega)] at hi
          rw [List.getElem?_append_right (by rw [← h.count]; omega), ← h.count] at hj
          cases hk : j - hs.readers.length with
          | zero =>
            rw [hk] at hi hj
            simp only [List.getElem?_cons_zero, Option.some.injEq] at hi hj
            subst hi hj
            exact h3
          | succ k =>
            rw [hk] at hi
            simp at hi

end Verif
