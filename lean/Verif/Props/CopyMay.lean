import Verif.Spec.Stored
import Verif.Proof.CopyMay
import Verif.Props.Cut
/-!
# C51: `bigfile-copy` while file operations fail or the process is killed
-/

set_option autoImplicit false

namespace Verif

open Spec

variable {env : Env} {K : Kind} {A : Content} {w : World}

/-- New attributes in a handle, not stored yet. -/
theorem Spec.HoldsD.withAttrs {bn : Block} {fs : FS} {C : Content} {st : Option (Nat × Nat)} {N : AttrMap} {p : Bool} {s' : AttrSet}
    (h : HoldsD env K bn fs ⟨C, st, true, true⟩) (ha1 : WellAttrs env.m s') (ha2 : attrView env.m s' = N) (ha3 : s'.dirty = p)
    (ht : Tame env.m N) : HoldsD env K { bn with attrset := s' } fs ⟨{ C with attrs := N, pending := p }, st, true, true⟩ := by
  have hl : Layout { bn with attrset := s' } :=
    ⟨h.ok.layout.nfile, h.ok.layout.nck, h.ok.layout.foff, h.ok.layout.size, h.ok.layout.small, h.ok.layout.ck32⟩
  have hsv := h.savable
  refine ⟨⟨hl, h.ok.item, h.ok.item0, h.ok.memb, h.ok.memb0, h.ok.felInt, h.ok.buf, h.ok.bufMax, h.ok.offs⟩, h.kind, h.size, h.nfile,
    ⟨hsv.fmt, ⟨hsv.header.dt, hsv.header.nmemb0, hsv.header.nmembMax, hsv.header.nfile, hsv.header.nck, hsv.header.nfileMax, hsv.header.sizes,
      hsv.header.cks⟩, hsv.offsets, hsv.size, ha1, by have := ht.storable; rw [← ha2] at this; exact this, hsv.base, hsv.notMeta⟩,
    ha2, ha3, ⟨ht, h.tame.2⟩, h.saved, h.clean, h.header, h.dir, h.noOld, h.noDirs, h.data, h.rows⟩

/-- **C51, incomplete sources.** As `C51_faults_partial`, but rows of the source may be missing; `A` is the content of all rows whose bytes
are there. If the program reports success, no row was missing. -/
theorem copy_stored (env : Env) (K : Kind) (A : Content) (file block newfile newblock : CStr) (nfile : Option Nat)
    (buffersize : Nat) (buf : Int) (mem : Mem) (w : World) (hdr : Block) (hns : NoSilent w.faults) (ht : TreeOk w.fs)
    (hfl : file.length ≤ 8192) (hnew : newfile ≠ []) (hnewl : newfile.length ≤ 8192)
    (hsrc : OnDisk env K w.fs (pathJoin file block) A) (hcut : HeaderCut w.fs (pathJoin file block) hdr) 
    (hk : ∀ N b r, Holds env K b w.fs { A with attrs := N } → b.basename = pathJoin file block → b.dirty = false → r < A.size →
      Stored env.m w.fs b r → (A.rows r).isSome = true)
    (hap : Apart (pathJoin file block) (pathJoin newfile newblock)) (hroom : Room w.fs (pathJoin newfile newblock))
    (hlen : (pathJoin newfile newblock).length ≤ 8192) (hmeta : isMeta (pathJoin newfile newblock) = false)
    (hn : 0 < copyFiles nfile A.nfile ∨ A.size = 0) (hnmax : copyFiles nfile A.nfile ≤ 16777216)
    (hov : copyFiles nfile A.nfile * A.size < 18446744073709551616)
    (hbuf : K.w * K.nm ≤ buffersize) (hbufm : A.size + buffersize < 9223372036854775808) :
    wpc (copyMain env file block newfile newblock nfile buffersize buf mem) w
      (fun e w' => OnlyMade (pathJoin newfile newblock) w.fs w'.fs ∧ OnDisk env K w'.fs (pathJoin file block) A ∧
        (e = .failed ∨ e = .done ∧ A.full ∧
          (OnDisk env K w'.fs (pathJoin newfile newblock) (A.inFiles (copyFiles nfile A.nfile)) ∨
            (∃ i, w.faults i = .fail) ∧ OnDisk env K w'.fs (pathJoin newfile newblock)
              { A.inFiles (copyFiles nfile A.nfile) with attrs := AttrMap.empty, saved := AttrMap.empty })))
      (fun w' => OnlyMade (pathJoin newfile newblock) w.fs w'.fs ∧ OnDisk env K w'.fs (pathJoin file block) A) := by
  have hres := resolve_join newfile newblock hnew
  have hpre : ∀ k, k <+: resolve newfile → k <+: resolve (pathJoin newfile newblock) := by
    intro k hk
    rw [hres]
    exact hk.trans (List.prefix_append _ _)
  have key : ∀ {fs : FS}, OnlyMade (pathJoin newfile newblock) w.fs fs →
      OnlyMade (pathJoin newfile newblock) w.fs fs ∧ OnDisk env K fs (pathJoin file block) A :=
    fun hm => ⟨hm, hsrc.unmade hm hap⟩
  have fin : ∀ {fs : FS} {P : Prop}, OnlyMade (pathJoin newfile newblock) w.fs fs →
      OnlyMade (pathJoin newfile newblock) w.fs fs ∧ OnDisk env K fs (pathJoin file block) A ∧ (Exit.failed = .failed ∨ P) :=
    fun hm => ⟨hm, hsrc.unmade hm hap, Or.inl rfl⟩
  unfold copyMain
  rw [wpc_bind]
  refine wpc_mono (bigFileOpen_may hfl) ?_ (fun w1 e => key (by rw [e]; exact OnlyMade.refl _ _))
  rintro ⟨rc, bf⟩ w1 ⟨e1, f1, hbf⟩
  dsimp only
  by_cases hrc : rc ≠ 0
  · rw [if_pos hrc, wpc_pure]
    exact fin (by rw [e1]; exact OnlyMade.refl _ _)
  rw [if_neg hrc]
  rw [ne_eq, Decidable.not_not] at hrc
  obtain rfl : bf = file := hbf hrc
  rw [wpc_bind]
  have made1 : ∀ {fs : FS}, OnlyNewDirs w1.fs fs → (∀ k, fs.node k ≠ w1.fs.node k → k <+: resolve newfile) →
      OnlyMade (pathJoin newfile newblock) w.fs fs := by
    intro fs h1 h2 k hk
    rw [e1] at h1 h2
    rcases h1 k with h | ⟨h, h'⟩
    · exact absurd h hk
    · exact Or.inr ⟨hpre k (h2 k hk), h, h'⟩
  refine wpc_mono (bigFileCreate_may hnew hnewl) ?_ (fun w2 h => key (made1 h.1 h.2))
  rintro ⟨rc2, bf2⟩ w2 ⟨f2, t2, d2, p2, hbf2, i2⟩
  have m2 := made1 d2 p2
  dsimp only at hbf2 i2 ⊢
  subst hbf2
  by_cases hrc2 : rc2 ≠ 0
  · rw [if_pos hrc2, wpc_pure]
    exact fin m2
  rw [if_neg hrc2]
  rw [ne_eq, Decidable.not_not] at hrc2
  have t2 : TreeOk w2.fs := t2 (by rw [e1]; exact ht)
  have room2 : Room w2.fs (pathJoin bf2 newblock) :=
    hroom.newDirs (by rw [← e1]; exact d2) (fun k hk => hpre k (p2 k (by rw [e1]; exact hk)))
  have ff2 : w2.faults = w.faults := f2.trans f1
  -- open the source
  have src2 := hsrc.unmade m2 hap
  have hcut2 : HeaderCut w2.fs (pathJoin bf block) hdr := by
    obtain ⟨g, n, hn⟩ := hcut
    refine ⟨g, n, ?_⟩
    have hsrcdir : w.fs.node (resolve (pathJoin bf block)) = some .dir := by
      obtain ⟨_, _, b, hb, _, h⟩ := hsrc
      rw [← hb]
      exact h.dir.dir
    rw [(m2.source hap hsrcdir).2]
    exact hn
  rw [wpc_bind]
  unfold openBlock
  refine wpc_mono (C75_content_partial env K A (pathJoin bf block) w2 hdr src2 hcut2) ?_ (fun w3 h => key (by rw [h]; exact m2))
  rintro r w3 ⟨e3, f3, hr⟩
  have m3 : OnlyMade (pathJoin bf2 newblock) w.fs w3.fs := by rw [e3]; exact m2
  rcases hr with rfl | ⟨bb, rfl, b3, hd3, hs3⟩
  · exact fin m3
  dsimp only
  -- the content that was found
  obtain ⟨N, hs3, hN⟩ : ∃ N, Holds env K bb w3.fs { A with attrs := N } ∧
      (N = A.attrs ∨ N = AttrMap.empty ∧ ∃ i, w.faults i = .fail) := by
    rw [e3]
    rcases hs3 with h | ⟨h, i, hi⟩
    · exact ⟨A.attrs, h, Or.inl rfl⟩
    · exact ⟨AttrMap.empty, h, Or.inr ⟨rfl, i, by rw [← ff2]; exact hi⟩⟩
  have hsz : bb.size = A.size := hs3.size
  have hnfl : bb.nfile = A.nfile := hs3.nfile
  have ff3 : w3.faults = w.faults := f3.trans ff2
  have hnsel : pickFiles nfile bb.nfile = copyFiles nfile A.nfile := by
    unfold copyFiles pickFiles
    rw [hnfl]
    cases nfile with
    | none => rfl
    | some n =>
      dsimp only
      split
      · assumption
      · rfl
  rw [hnsel, show copySizes (copyFiles nfile A.nfile) bb.size = copySizes (copyFiles nfile A.nfile) A.size by rw [hsz]]
  have hsum := copySizes_sum (copyFiles nfile A.nfile) A.size hov hn
  have hlenS := copySizes_length (copyFiles nfile A.nfile) A.size
  generalize hcs : copySizes (copyFiles nfile A.nfile) A.size = sizes at hsum hlenS ⊢
  rw [wpc_bind]
  have t3 : TreeOk w3.fs := by rw [e3]; exact t2
  refine wpc_mono (wpc_run (createBlock_may t3 hnew hlen hmeta)) ?_ (fun w4 h => key (m3.trans h))
  rintro r w4 ⟨⟨f4, m4, hr⟩, hrun⟩
  have m4 := m3.trans m4
  rcases hr with rfl | rfl
  · exact fin m4
  dsimp only
  have hplain : PlainDtype (dtypeNormalize env.m bb.dtype) := hs3.savable.header.dt.normalize env.m
  have hsmall := hs3.ok.layout.small
  have hszl := hs3.ok.layout.size
  have hitem : itemsize env.m (dtypeNormalize env.m bb.dtype) = K.w := by rw [itemsize_normalize]; exact hs3.ok.item
  have room3 : Room w3.fs (pathJoin bf2 newblock) := by rw [e3]; exact room2
  obtain ⟨h4, _⟩ := fresh_holds_may hs3.savable.fmt (by rw [ff3]; exact hns) hlen hmeta hplain hitem hs3.ok.item0 hs3.ok.memb hs3.ok.memb0
    hs3.ok.felInt hs3.ok.buf hs3.ok.bufMax (by rw [hlenS]; exact hnmax) (by rw [hsum]; omega) (by rw [hsum, ← hsz, hszl]; exact hs3.ok.offs)
    hrun (fun d hd => room3.way _ (List.prefix_refl _) ⟨d, hd⟩) room3.noOld (fun f => room3.files _)
  rw [normalize_idem, hs3.kind] at h4
  change Holds env K _ w4.fs _ at h4
  generalize hbn : freshBlock env (pathJoin bf2 newblock) bb.dtype bb.nmemb sizes = bn at h4 hrun
  have hbase : bn.basename = pathJoin bf2 newblock := by rw [← hbn]; rfl
  have hdirtyb : bn.dirty = false := by rw [← hbn]; rfl
  have hns' : bn.size = A.size := by rw [h4.size]; exact hsum
  rw [if_neg (by simp [hns', hsz])]
  have hd : w.fs.node (resolve (pathJoin bf block)) = some .dir := by
    obtain ⟨_, _, b, hb, _, h⟩ := hsrc
    rw [← hb]
    exact h.dir.dir
  have hk4 : ∀ r, r < A.size → Stored env.m w4.fs bb r → (A.rows r).isSome = true := by
    intro r hr hst
    refine hk N bb r (hs3.congr ?_ fun id => ?_) b3 hd3 hr ((stored_congr (fun id => ?_) r).mp hst)
    · rw [b3, (m3.source hap hd).1]
    · rw [b3, (m3.source hap hd).2]
    · rw [b3, (m4.source hap hd).2]
  have hs4 : Holds env K bb w4.fs { A with attrs := N } := by
    refine hs3.congr ?_ fun id => ?_
    · rw [b3, (m4.source hap hd).1, (m3.source hap hd).1]
    · rw [b3, (m4.source hap hd).2, (m3.source hap hd).2]
  -- attributes
  obtain ⟨s', ea, ha1, ha2, ha3⟩ := copyAttrs_all (env := env) hs4.savable.attrs hs4.attrs hs4.tame.1 h4.savable.attrs h4.attrs
  have hdirty : bn.attrset.dirty = false := h4.pending
  rw [hdirty, Bool.false_or] at ha3
  rw [ea, M.lift_some_bind]
  dsimp only
  rw [show ({ bb with attrset := bb.attrset } : Block) = bb from rfl]
  have h5 := (opened_holdsD h4 hdirtyb rfl).withAttrs ha1 ha2 ha3 hs4.tame.1
  -- data
  have hap' : Apart bb.basename (pathJoin bf2 newblock) := by rw [b3]; exact hap
  rw [wpc_bind]
  have hdata : wpc (copyData env bb { bn with attrset := s' } buffersize buf mem) w4
      (fun r w' => w'.faults = w4.faults ∧ SameOutside (pathJoin bf2 newblock) w4.fs w'.fs ∧ (r.1 = .done ∨ r.1 = .failed) ∧
        r.2.basename = pathJoin bf2 newblock ∧
        (r.1 = .done → A.full ∧ HoldsD env K r.2 w'.fs ⟨{ Content.fresh sizes with
          attrs := N, pending := !bb.attrset.list.isEmpty, rows := A.rows }, some (sizes.sum, sizes.length), true, true⟩))
      (fun w' => SameOutside (pathJoin bf2 newblock) w4.fs w'.fs) := by
    unfold copyData
    have hnm : 0 < bb.nmemb := by rw [hs4.ok.memb]; have := hs4.ok.memb0; omega
    by_cases hz : 0 < bb.size
    · rw [if_pos ⟨hnm, hz⟩]
      have hw := hs4.ok.felInt
      have hpos : 0 < K.nm * K.w := Nat.mul_pos hs4.ok.memb0 hs4.ok.item0
      have hrow : bb.nmemb * itemsize env.m bb.dtype = ((K.nm * K.w : Nat) : Int) := by
        rw [hs4.ok.memb, hs4.ok.item, Int.natCast_mul]
      have hcw : K.nm * K.w = K.w * K.nm := Nat.mul_comm _ _
      have hfi : fitsInt ((K.nm * K.w : Nat) : Int) = true := by
        unfold fitsInt
        simp only [Bool.and_eq_true, decide_eq_true_eq]
        omega
      have hchunk : 0 < buffersize / (K.nm * K.w) := Nat.div_pos (by omega) hpos
      have hchunkle : buffersize / (K.nm * K.w) ≤ buffersize := Nat.div_le_self _ _
      have hne : ¬ (((K.nm * K.w : Nat) : Int) = 0) := by omega
      rw [hrow]
      dsimp only
      rw [hfi, u64_of_nat (by omega)]
      simp only [Bool.not_true, Bool.false_or, hne, decide_false, Bool.false_eq_true, if_false]
      rw [M.lift_some_bind]
      refine copyLoop_may (A := { A with attrs := N }) (buffersize / (K.nm * K.w)) hchunk (by show A.size + _ < _; omega) buf
        (pathJoin bf2 newblock) hap' { Content.fresh sizes with attrs := N, pending := !bb.attrset.list.isEmpty }
        (some (sizes.sum, sizes.length)) hsum (bb.size + 1) { bn with attrset := s' } 0 mem w4 (by show A.size - 0 < _; omega) (Nat.zero_le _) hs4 hk4
        (fun r hr => absurd hr (Nat.not_lt_zero r)) (by rw [f4, ff3]; exact hns) hbase ?_
      refine Eq.mp ?_ h5
      congr 3
    · rw [if_neg (fun hc => hz hc.2), wpc_pure]
      refine ⟨rfl, SameOutside.refl _ _, Or.inl rfl, hbase, fun _ => ⟨fun r hr => by omega, ?_⟩⟩
      have hnone : (Content.fresh sizes).rows = A.rows := by
        funext r
        show none = A.rows r
        cases h2 : A.rows r with
        | none => rfl
        | some bytes =>
          have := (hs4.rows r bytes h2).1
          have h3 : ({ A with attrs := N } : Content).size = A.size := rfl
          omega
      rw [← hnone]
      exact h5
  refine wpc_mono hdata ?_ (fun w5 h => key (m4.trans (OnlyMade.of_outside h)))
  rintro ⟨e, bn5⟩ w5 ⟨f5, o5, he, hb5, h5'⟩
  have m5 := m4.trans (OnlyMade.of_outside o5)
  dsimp only at he hb5 h5' ⊢
  rcases he with rfl | rfl
  rotate_left
  · rw [if_pos (by decide), wpc_pure]
    exact fin m5
  rw [if_neg (by decide), wpc_bind]
  obtain ⟨hall, h5⟩ := h5' rfl
  refine wpc_mono (close_may h5 (by rw [f5, f4, ff3]; exact hns)) ?_ (fun w6 h => key (m5.trans (OnlyMade.of_outside (by rw [← hb5]; exact h))))
  rintro rc6 w6 ⟨f6, o6, h6⟩
  rw [hb5] at o6
  have m6 := m5.trans (OnlyMade.of_outside o6)
  by_cases hrc6 : rc6 ≠ 0
  · rw [if_pos hrc6, wpc_pure]
    exact fin m6
  rw [if_neg hrc6]
  rw [ne_eq, Decidable.not_not] at hrc6
  have h6 := h6 hrc6
  have hcl : blockClose env bb w6 = .ok 0 w6 := blockClose_clean hd3 (by rw [hs3.pending]; exact hsrc.1)
  rw [wpc_bind]
  have hcl' : wpc (blockClose env bb) w6 (fun _ w' => w' = w6) (fun _ => False) := by
    unfold wpc
    rw [hcl]
  refine wpc_mono hcl' ?_ (fun _ h => h.elim)
  rintro _ w7 rfl
  rw [wpc_pure]
  refine ⟨m6, hsrc.unmade m6 hap, Or.inr ⟨rfl, hall, ?_⟩⟩
  have hA : A = ⟨A.size, A.nfile, A.rows, A.attrs, A.attrs, false⟩ := by
    have h1 := hsrc.1
    have h2 := hsrc.2.1
    cases A
    simp_all
  have hc : OnDisk env K w7.fs (pathJoin bf2 newblock)
      ⟨A.size, copyFiles nfile A.nfile, A.rows, N, N, false⟩ := by
    refine ⟨rfl, rfl, cleaned bn5, hb5, rfl, ?_⟩
    refine Eq.mp ?_ (h6.holds (by simp [Durable.flushed]) rfl)
    congr 1
    simp only [Durable.flushed, Content.fresh]
    rw [hsum, hlenS]
    cases hem : bb.attrset.list.isEmpty with
    | false => rfl
    | true =>
      have hemp : N = AttrMap.empty := by
        have := hs4.attrs
        obtain ⟨es, hi⟩ := hs4.savable.attrs
        rw [hi.view_eq] at this
        have he : es = [] := by
          have h1 := hi.list
          rw [List.isEmpty_iff.mp hem] at h1
          simpa using h1.symm
        rw [he] at this
        exact this.symm.trans rfl
      rw [hemp]
      rfl
  rcases hN with rfl | ⟨rfl, hi⟩
  · left
    rw [hA]
    exact hc
  · right
    refine ⟨hi, ?_⟩
    rw [hA]
    exact hc

/-- Where a row lies is what the header file says. -/
theorem row_of_header {fs : FS} {b b' : Block} (hb : b.basename = b'.basename) (h : HeaderSays fs b) (h' : HeaderSays fs b') (m : Machine)
    (r : Nat) : row m fs b r = row m fs b' r ∧ rowSize m b = rowSize m b' := by
  have h1 := h.2
  rw [hb, h'.2] at h1
  injection h1 with h1 h2 _ h3 _
  unfold row rowFile rowOff rowSize
  rw [h1, h2, h3, hb]
  exact ⟨rfl, rfl⟩

/-- Every block on disk has a content that tells of each row whether it is there, and that content says the same of the rows that are
known. -/
theorem C93_whole {fs : FS} {base : CStr} (h : OnDisk env K fs base A) : ∃ A', A'.Extends A ∧ WholeOnDisk env K fs base A' := by
  classical
  obtain ⟨h1, h2, b, hb, hd, h⟩ := h
  refine ⟨{ A with rows := fun r => if r < A.size ∧ Stored env.m fs b r then some (row env.m fs b r) else none },
    ⟨rfl, rfl, rfl, rfl, rfl, ?_⟩, ⟨h1, h2, b, hb, hd, ⟨h.ok, h.kind, h.size, h.nfile, h.savable, h.attrs, h.pending, h.tame, h.saved,
      h.header, h.dir, h.noOld, h.noDirs, h.data, ?_⟩⟩, ?_⟩
  · intro r bytes hr
    obtain ⟨g1, g2, g3⟩ := h.rows r bytes hr
    show (if r < A.size ∧ Stored env.m fs b r then _ else _) = _
    rw [if_pos ⟨g1, g3⟩, g2]
  · intro r bytes hr
    change (if r < A.size ∧ Stored env.m fs b r then _ else _) = _ at hr
    split at hr
    case isTrue hc =>
      injection hr with hr
      exact ⟨hc.1, hr, hc.2⟩
    case isFalse => cases hr
  · intro b' r hb' hh hr
    change r < A.size at hr
    have hrow := row_of_header (hb.trans hb'.symm) (h.header hd) hh env.m r
    show (if r < A.size ∧ Stored env.m fs b r then some (row env.m fs b r) else none).isSome = true ↔ _
    have hst : Stored env.m fs b r ↔ Stored env.m fs b' r := by
      unfold Stored
      rw [hrow.1, hrow.2]
    by_cases hs : Stored env.m fs b r
    · rw [if_pos ⟨hr, hs⟩]
      exact ⟨fun _ => hst.mp hs, fun _ => rfl⟩
    · rw [if_neg (fun hc => hs hc.2)]
      exact ⟨fun hc => absurd hc (by simp), fun hc => absurd (hst.mpr hc) hs⟩

/-- What is on disk is there, whatever else is. -/
theorem Spec.OnDisk.less {fs : FS} {base : CStr} {A' : Content} (h : OnDisk env K fs base A') (hx : A'.Extends A) : OnDisk env K fs base A := by
  obtain ⟨h1, h2, b, hb, hd, h⟩ := h
  refine ⟨hx.pending.symm.trans h1, by rw [← hx.saved, ← hx.attrs]; exact h2, b, hb, hd, ⟨h.ok, h.kind, h.size.trans hx.size,
    h.nfile.trans hx.nfile, h.savable, h.attrs.trans hx.attrs, h.pending.trans hx.pending, ?_, ?_, h.header, h.dir, h.noOld, h.noDirs, h.data, ?_⟩⟩
  · rw [← hx.attrs, ← hx.pending, ← hx.saved]; exact h.tame
  · rw [← hx.pending, ← hx.saved]; exact h.saved
  · intro r bytes hr
    rw [← hx.size]
    exact h.rows r bytes (hx.rows r bytes hr)

/-- **C51, failures** (partial: as `C51_copy_partial`, but rows of the source may be missing; the header file of the source is one the library wrote, and no failure goes
unreported). Whatever file operations fail, `bigfile-copy` ends, and if it reports success the new block has all the rows of the source that
were written and all its attributes; if the attribute file of the source could not be opened it has none. In any case, also when it is killed, the source is
as it was, and nothing is touched but the new block and directories on the way to it. -/
theorem C51_faults_partial (env : Env) (K : Kind) (A : Content) (file block newfile newblock : CStr) (nfile : Option Nat)
    (buffersize : Nat) (buf : Int) (mem : Mem) (w : World) (hdr : Block) (hns : NoSilent w.faults) (ht : TreeOk w.fs)
    (hfl : file.length ≤ 8192) (hnew : newfile ≠ []) (hnewl : newfile.length ≤ 8192)
    (hsrc : OnDisk env K w.fs (pathJoin file block) A) (hcut : HeaderCut w.fs (pathJoin file block) hdr)
    (hap : Apart (pathJoin file block) (pathJoin newfile newblock)) (hroom : Room w.fs (pathJoin newfile newblock))
    (hlen : (pathJoin newfile newblock).length ≤ 8192) (hmeta : isMeta (pathJoin newfile newblock) = false)
    (hn : 0 < copyFiles nfile A.nfile ∨ A.size = 0) (hnmax : copyFiles nfile A.nfile ≤ 16777216)
    (hov : copyFiles nfile A.nfile * A.size < 18446744073709551616)
    (hbuf : K.w * K.nm ≤ buffersize) (hbufm : A.size + buffersize < 9223372036854775808) :
    wpc (copyMain env file block newfile newblock nfile buffersize buf mem) w
      (fun e w' => OnlyMade (pathJoin newfile newblock) w.fs w'.fs ∧ OnDisk env K w'.fs (pathJoin file block) A ∧
        (e = .failed ∨ e = .done ∧
          (OnDisk env K w'.fs (pathJoin newfile newblock) (A.inFiles (copyFiles nfile A.nfile)) ∨
            (∃ i, w.faults i = .fail) ∧ OnDisk env K w'.fs (pathJoin newfile newblock)
              { A.inFiles (copyFiles nfile A.nfile) with attrs := AttrMap.empty, saved := AttrMap.empty })))
      (fun w' => OnlyMade (pathJoin newfile newblock) w.fs w'.fs ∧ OnDisk env K w'.fs (pathJoin file block) A) := by
  obtain ⟨A', hx, hA⟩ := C93_whole hsrc
  rw [← hx.nfile] at hn hnmax hov ⊢
  rw [← hx.size] at hn hov hbufm
  refine wpc_mono (copy_stored env K A' file block newfile newblock nfile buffersize buf mem w hdr hns ht hfl hnew hnewl hA.1 hcut
    (fun _ b r hb hbase hd hr hst => (hA.2 b r hbase (hb.header hd) hr).mpr hst) hap hroom hlen hmeta hn hnmax hov hbuf hbufm) ?_
    (fun _ h => ⟨h.1, h.2.less hx⟩)
  rintro e w' ⟨h1, h2, h3⟩
  refine ⟨h1, h2.less hx, ?_⟩
  rcases h3 with h3 | ⟨h3, _, h4⟩
  · exact Or.inl h3
  · refine Or.inr ⟨h3, ?_⟩
    rcases h4 with h4 | ⟨h4, h5⟩
    · exact Or.inl (h4.less ⟨hx.size, rfl, hx.attrs, hx.saved, hx.pending, hx.rows⟩)
    · exact Or.inr ⟨h4, h5.less ⟨hx.size, rfl, rfl, rfl, hx.pending, hx.rows⟩⟩

/-! ### The example -/

/-- The source of the example, and what the header says. -/
theorem exCopy_ready : ∃ w, exCopySrc exTreeWorld = .ok 0 w ∧ TreeOk w.fs ∧ OnDisk exEnv exKind w.fs b!"d/z" exCopyA ∧
    HeaderCut w.fs b!"d/z" exCopyHdr ∧ Room w.fs b!"e/f/new/y" := by
  obtain ⟨w, e, _, ht, h⟩ := exCopy_src
  have hchk : (exCopySrc exTreeWorld).fs?.map (fun fs =>
      ((fs.node (fileKey b!"d/z" .header) = some (.file ((headerText exCopyHdr).take 1000))) ∧ fs.node (resolve b!"e/f/new/y") = none ∧
      ∀ k ∈ fs.dom, k <+: resolve b!"e/f/new/y" → fs.node k = some .dir : Bool)) = some true := by decide +kernel
  rw [e] at hchk
  simp only [Res.fs?, Option.map_some, Option.some.injEq, decide_eq_true_eq] at hchk
  exact ⟨w, e, ht, h, ⟨⟨exB_good.dt, by decide, by decide, rfl, rfl, by decide, by decide, by decide⟩, 1000, hchk.1⟩,
    Room.of_absent ht hchk.2.1 hchk.2.2⟩

/-- The hypotheses of `C51_faults_partial` hold for the example of `C51_copy_partial`, with any reported failures. -/
example (faults : Nat → Fault) (hns : NoSilent faults) : ∃ w, exCopySrc exTreeWorld = .ok 0 w ∧
    wpc (copyMain exEnv b!"d" b!"z" b!"e/f" b!"new/y" (some 2) 9 500 exMem) { w with faults := faults }
      (fun e w' => OnDisk exEnv exKind w'.fs b!"d/z" exCopyA ∧
        (e = .failed ∨ e = .done ∧ (OnDisk exEnv exKind w'.fs b!"e/f/new/y" (exCopyA.inFiles 2) ∨
          (∃ i, faults i = .fail) ∧ OnDisk exEnv exKind w'.fs b!"e/f/new/y"
            { exCopyA.inFiles 2 with attrs := AttrMap.empty, saved := AttrMap.empty })))
      (fun w' => OnDisk exEnv exKind w'.fs b!"d/z" exCopyA) := by
  obtain ⟨w, e, ht, h, hc, hr⟩ := exCopy_ready
  refine ⟨w, e, wpc_mono (C51_faults_partial exEnv exKind exCopyA b!"d" b!"z" b!"e/f" b!"new/y" (some 2) 9 500 exMem
    { w with faults := faults } exCopyHdr hns ht (by decide) (by decide) (by decide) h hc
    ⟨by decide, fun id he => by
        rw [fileKey_eq] at he
        exact absurd (congrArg List.length he) (by simp; decide), fun id he => by
        rw [fileKey_eq] at he
        exact absurd (List.IsPrefix.trans (List.prefix_append _ _) he) (by decide)⟩
    hr (by decide) (by decide) (by decide) (by decide) (by decide) (by decide) (by decide)) ?_ ?_⟩
  · rintro e w' ⟨_, h1, h2⟩
    exact ⟨h1, h2⟩
  · rintro w' ⟨_, h1⟩
    exact h1

/-- The copy of the example with a failure of operation `n` of the program: how it ends. -/
def exCopyFail (n : Nat) : Option Exit :=
  (exCopySrc exTreeWorld).fs?.bind fun fs =>
    (copyMain exEnv b!"d" b!"z" b!"e/f" b!"new/y" (some 2) 9 500 exMem ⟨fs, fun i => if i = n then .fail else .none, 0⟩).val?

/-- Without failures the program is done; it fails if a file cannot be read or written. -/
example : exCopyFail 1000 = some .done ∧ exCopyFail 0 = some .failed ∧ exCopyFail 20 = some .failed := by decide +kernel

/-- If the attribute file of the source cannot be opened, the program reports success all the same, and the copy has no attributes. -/
theorem C51_attrs_lost : exCopyFail 4 = some .done ∧ ((exCopySrc exTreeWorld).fs?.bind fun fs =>
    ((copyMain exEnv b!"d" b!"z" b!"e/f" b!"new/y" (some 2) 9 500 exMem ⟨fs, fun i => if i = 4 then .fail else .none, 0⟩).fs?.map fun fs' =>
      (fs.bytes (fileKey b!"d/z" .attrV2), fs'.bytes (fileKey b!"e/f/new/y" .attrV2)))) =
    some (b!"a <i4 1 0A000000 #HUMANE [ 10 ]\n", []) := by decide +kernel

end Verif
