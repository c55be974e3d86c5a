import Verif.Proof.Sample
import Verif.Props.Python
/-!
# C53, C64: `bigfile-sample-mpi`
-/

set_option autoImplicit false

namespace Verif

open Spec

/-- **C53**, the selection in one chunk: whatever numbers the generator gives, if at most as many rows are asked for as the chunk
has, exactly so many different ones are taken, in order, and nothing else in memory changes. `p` is the address of the
buffer for the selected rows, `q` that of the chunk. -/
theorem C53_selection (draw : Nat → Nat → Nat) (hd : FairDraw draw) (step chunk nsel : Nat) (hn : nsel ≤ chunk) (p q : Int) (mem : Mem)
    (hdis : p + ((nsel * step : Nat) : Int) ≤ q ∨ q + ((chunk * step : Nat) : Int) ≤ p) :
    ∃ sel, Choice sel nsel chunk ∧ (sampleSelect draw step chunk 0 chunk nsel p q mem).1 = 0 ∧
      (∀ j (hj : j < sel.length), peek (sampleSelect draw step chunk 0 chunk nsel p q mem).2 (p + ((j * step : Nat) : Int)) step =
        peek mem (q + ((sel[j] * step : Nat) : Int)) step) ∧
      ∀ x, x < p ∨ p + ((nsel * step : Nat) : Int) ≤ x → (sampleSelect draw step chunk 0 chunk nsel p q mem).2 x = mem x := by
  obtain ⟨h1, h2, _⟩ := samplePicks_range draw chunk 0 chunk nsel
  have h3 := samplePicks_count draw hd chunk 0 nsel hn
  obtain ⟨s1, s2, s3⟩ := sampleSelect_spec draw step p q nsel chunk hdis chunk 0 chunk nsel p mem (by omega) (by omega) (by omega)
  rw [Nat.zero_mul, Int.natCast_zero, Int.add_zero] at s1 s2 s3
  exact ⟨samplePicks draw chunk 0 chunk nsel, ⟨h3, h2, fun r hr => by have := h1 r hr; omega⟩, by rw [s1, h3, Nat.sub_self], s3, s2⟩

/-- If more rows are asked for than the chunk has, the program calls `abort`. -/
theorem C53_too_many (draw : Nat → Nat → Nat) (step chunk nsel : Nat) (hn : chunk < nsel) (p q : Int) (mem : Mem)
    (hdis : p + ((nsel * step : Nat) : Int) ≤ q ∨ q + ((chunk * step : Nat) : Int) ≤ p) :
    (sampleSelect draw step chunk 0 chunk nsel p q mem).1 ≠ 0 := by
  obtain ⟨s1, _, _⟩ := sampleSelect_spec draw step p q nsel chunk hdis chunk 0 chunk nsel p mem (by omega) (by omega) (by omega)
  rw [Nat.zero_mul, Int.natCast_zero, Int.add_zero] at s1
  have := samplePicks_few draw chunk 0 chunk nsel
  omega

/-- **C53**, the pieces of work: they divide the rows of the block into consecutive chunks, and the rows of the new block, of which there
are as many as `filesize` says, into consecutive ranges. -/
theorem C53_work (g : Rng) (all : Bool) (size : Nat) :
    ((sampleWork g all size).flatMap fun wk => List.range' wk.offset wk.chunksize) = List.range size ∧
    ((sampleWork g all size).flatMap fun wk => List.range' wk.offsetnew wk.nsel) = List.range (sampleSize g all size) := by
  have h := sampleWork_from g all size
  refine ⟨?_, ?_⟩
  · have key : ∀ {off new stop : Nat} {ws : List Work}, WorkFrom size off new ws stop →
        (ws.flatMap fun wk => List.range' wk.offset wk.chunksize) = List.range' off (size - off) := by
      intro off new stop ws h
      induction h with
      | nil => simp
      | @cons off new stop wk ws h1 h2 h3 h4 h5 h ih =>
        rw [List.flatMap_cons, ih, h1]
        have := List.range'_append (s := off) (m := wk.chunksize) (n := size - (off + wk.chunksize)) (step := 1)
        rw [Nat.one_mul] at this
        rw [this]
        congr 1
        omega
    rw [key h, List.range_eq_range', Nat.sub_zero]
  · have := h.tiles
    rw [Nat.sub_zero] at this
    rw [← this, List.range_eq_range']

theorem map_flatMap_congr {α β : Type} (ws : List α) (f g : α → List β) (h : ∀ a ∈ ws, f a = g a) : ws.flatMap f = ws.flatMap g := by
  induction ws with
  | nil => rfl
  | cons a ws ih =>
    rw [List.flatMap_cons, List.flatMap_cons, h a (by simp), ih (fun b hb => h b (by simp [hb]))]

/-- The rows that the pieces of work put together. -/
theorem sample_rows (A B : Content) (g : Rng) (all : Bool) (draw : Nat → Nat → Nat → Nat) (hdr : ∀ seed, FairDraw (draw seed)) (ws : List Work)
    (hB : B.size = sampleSize g all A.size) (hws : ws.Perm (sampleWork g all A.size)) (hn : ∀ wk ∈ ws, wk.nsel ≤ wk.chunksize) :
    ∃ sel, Choice sel B.size A.size ∧ (List.range B.size).map (ws.foldl (A.worked draw) B).rows = sel.map A.rows := by
  have hf := sampleWork_from g all A.size
  have hmem : ∀ wk, wk ∈ ws ↔ wk ∈ sampleWork g all A.size := fun wk => hws.mem_iff
  have happ : ws.Pairwise WorkApart := (hws.pairwise_iff (fun h => Or.symm h)).mpr hf.apart
  obtain ⟨c1, c2, c3⟩ := hf.choice draw hdr (fun wk hwk => hn wk ((hmem wk).mpr hwk))
  refine ⟨_, ⟨?_, c2, fun r hr => (c3 r hr).2⟩, ?_⟩
  · rw [c1, hB]
    rfl
  · have ht := hf.tiles
    rw [Nat.sub_zero] at ht
    rw [List.range_eq_range', hB, ht, List.map_flatMap, List.map_flatMap]
    apply map_flatMap_congr
    intro wk hwk
    have hw := (hmem wk).mpr hwk
    have hc : (picksOf draw wk).length = wk.nsel := samplePicks_count _ (hdr _) _ _ _ (hn wk hw)
    rw [List.map_map]
    apply List.ext_getElem
    · simp [hc]
    · intro i h1 h2
      have hi : i < wk.nsel := by simpa using h1
      simp only [List.getElem_map, List.getElem_range', Function.comp_apply, Nat.one_mul]
      rw [worked_rows draw ws happ wk hw (wk.offsetnew + i) (by omega), show wk.offsetnew + i - wk.offsetnew = i by omega,
        List.getD_eq_getElem?_getD, List.getElem?_eq_getElem (by rw [hc]; exact hi), Option.getD_some]

/-- **C64** (partial: no chunk is asked for more rows than it has, see `C53_too_many`; all rows of the source were written; no faults;
the workers take turns, in any order). The new block gets exactly as many rows as it was made for; they are different rows of the
source, in the order they have there. The source is as it was. -/
theorem C64_sample_partial (env : Env) (K : Kind) (A B : Content) (bb bn : Block) (w : World) (g : Rng) (all : Bool)
    (draw : Nat → Nat → Nat → Nat) (hdr : ∀ seed, FairDraw (draw seed)) (ws : List Work) (buf abuf : Int) (mem : Mem)
    (hs : Holds env K bb w.fs A) (hd : Holds env K bn w.fs B) (hnf : w.faults = noFaults) (hap : Apart bb.basename bn.basename)
    (hfull : A.full) (hB : B.size = sampleSize g all A.size) (hws : ws.Perm (sampleWork g all A.size))
    (hn : ∀ wk ∈ ws, wk.nsel ≤ wk.chunksize)
    (hbuf : buf + ((sampleChunkRows * (K.nm * K.w) : Nat) : Int) ≤ abuf ∨ abuf + ((sampleChunkRows * (K.nm * K.w) : Nat) : Int) ≤ buf) :
    ∃ bn' mem' w' B' sel, sampleRun env bb draw buf abuf ws bn mem w = .ok (.done, bn', mem') w' ∧
      Holds env K bb w'.fs A ∧ Holds env K bn' w'.fs B' ∧ B'.size = B.size ∧ B'.nfile = B.nfile ∧ B'.attrs = B.attrs ∧
      Choice sel B.size A.size ∧ (List.range B.size).map B'.rows = sel.map A.rows := by
  have hf := sampleWork_from g all A.size
  have hmem : ∀ wk, wk ∈ ws ↔ wk ∈ sampleWork g all A.size := fun wk => hws.mem_iff
  have hbnd := hf.bounds.2.2
  obtain ⟨bn', m', w', e, nf, _, _, hs', hd'⟩ := sampleRun_holds hap hfull draw hdr buf abuf ws bn B mem w hs hd hnf rfl (by
    intro wk hwk
    have h1 := hbnd wk ((hmem wk).mp hwk)
    have h2 := hn wk hwk
    have h3 : wk.nsel * (K.nm * K.w) ≤ sampleChunkRows * (K.nm * K.w) := Nat.mul_le_mul_right _ (by omega)
    have h4 : wk.chunksize * (K.nm * K.w) ≤ sampleChunkRows * (K.nm * K.w) := Nat.mul_le_mul_right _ (by omega)
    refine ⟨by omega, h2, by rw [hB]; omega, by omega⟩)
  obtain ⟨q1, q2, q3⟩ := worked_shape (A := A) (B := B) draw ws
  obtain ⟨sel, c1, c2⟩ := sample_rows A B g all draw hdr ws hB hws hn
  exact ⟨bn', m', w', _, sel, e, hs', hd', q1, q2, q3, c1, c2⟩

/-- With a ratio of 1 there are as many rows as before. -/
theorem C64_all (g : Rng) (size : Nat) : sampleSize g true size = size := by
  have key : ∀ fuel off s, off ≤ size → size - off < fuel → sampleSizeLoop g true size fuel off off s = size := by
    intro fuel
    induction fuel with
    | zero => intro off s h1 h2; omega
    | succ fuel ih =>
      intro off s h1 h2
      unfold sampleSizeLoop
      by_cases hlt : off < size
      · rw [if_pos hlt]
        obtain ⟨c1, c2, _⟩ := chunk_pos hlt
        simp only [if_true]
        exact ih _ _ c2 (by omega)
      · rw [if_neg hlt]
        omega
  exact key _ _ _ (Nat.zero_le _) (by omega)

/-! ### Examples -/

/-- A generator that asks for three rows of each chunk. -/
def exRng (n : Nat) : Rng := ⟨Unit, (), fun _ => (7, ()), fun _ _ => (n, ())⟩

/-- Its draws. -/
def exDraw (seed i n : Nat) : Nat := (seed * 3 + i * i) % n

theorem exDraw_fair (seed : Nat) : FairDraw (exDraw seed) := fun _ _ h => Nat.mod_lt _ h

theorem exSample_work (n : Nat) : sampleWork (exRng n) false 5 = [⟨0, 7, 5, 0, n⟩] := by
  unfold sampleWork
  unfold sampleWorkLoop
  rw [if_pos (by decide)]
  unfold sampleWorkLoop
  unfold sampleChunkRows exRng
  simp

theorem exSample_size (n : Nat) : sampleSize (exRng n) false 5 = n := by
  unfold sampleSize
  unfold sampleSizeLoop
  rw [if_pos (by decide)]
  unfold sampleSizeLoop
  unfold sampleChunkRows exRng
  simp

theorem exSampleA_size : exCopyA.size = 5 := by decide +kernel

theorem exSample_apart : Apart b!"d/z" (pathJoin b!"d" b!"y") :=
  ⟨by decide, fun id he => by
    rw [fileKey_eq] at he
    exact absurd (congrArg List.length he) (by simp; decide), fun id he => by
    rw [fileKey_eq] at he
    exact absurd (List.IsPrefix.trans (List.prefix_append _ _) he) (by decide)⟩

/-- The block `d/z` opened and a new block `d/y` of two files made. -/
theorem exNew_ready (sizes : List Nat) (hsizes : sizes = [1, 2] ∨ sizes = [3, 2]) : ∃ w bb w1 bn w2, exCopySrc exTreeWorld = .ok 0 w ∧ blockOpen exEnv b!"d/z" w = .ok (0, some bb) w1 ∧
    createBlock exEnv b!"d" b!"y" (some b!"i4") 1 sizes w1 = .ok (0, some bn) w2 ∧ bb.basename = b!"d/z" ∧
    bn.basename = pathJoin b!"d" b!"y" ∧ w2.faults = noFaults ∧
    Holds exEnv exKind bb w2.fs exCopyA ∧ Holds exEnv exKind bn w2.fs (Content.fresh sizes) ∧
    ∀ f, bn.fchecksum.getD f 0 = 0 := by
  obtain ⟨w, e, nf, ht, h⟩ := exCopy_src
  have hchk : (exCopySrc exTreeWorld).fs?.map (fun fs => ((fs.node (resolve b!"d/y") = none ∧ fs.node (resolve b!"d") = some .dir) ∧
      ∀ k ∈ fs.dom, k <+: resolve b!"d/y" → fs.node k = some .dir : Bool)) = some true := by decide +kernel
  rw [e] at hchk
  simp only [Res.fs?, Option.map_some, Option.some.injEq, decide_eq_true_eq] at hchk
  obtain ⟨bb, w1, e1, f1, nf1, hb1, _, h1⟩ := h.opens nf
  rw [← f1] at hchk h1 ht
  have hroom : Room w1.fs (pathJoin b!"d" b!"y") := Room.of_absent ht hchk.1.1 hchk.2
  obtain ⟨w2, e2⟩ := createBlock_succeeds (env := exEnv) (w := w1) (bf := b!"d") (name := b!"y") (dt := b!"i4")
    (nmemb := 1) (fsize := sizes) nf1 (by decide) hchk.1.2 (by decide) (by decide) (by decide) hroom
  obtain ⟨h2, nf2⟩ := fresh_holds (dt := b!"i4") exFmt nf1 (by decide) (by decide) exB_good.dt (by decide : _ = ((4 : Nat) : Int))
    (by decide) (by decide : (1 : Int) = ((1 : Nat) : Int)) (by decide) (by decide) (by decide)
    (by rcases hsizes with rfl | rfl <;> decide) (by rcases hsizes with rfl | rfl <;> decide)
    (by rcases hsizes with rfl | rfl <;> decide) (by rcases hsizes with rfl | rfl <;> decide) e2 (fun d hd => hroom.way _ (List.prefix_refl _) ⟨d, hd⟩)
    hroom.noOld (fun f => hroom.files _)
  have hK : (⟨dtypeNormalize exEnv.m (dtypeNormalize exEnv.m b!"i4"), 4, 1⟩ : Kind) = exKind := by
    unfold exKind; congr 1
  rw [hK] at h2
  obtain ⟨⟨t4, l4⟩, c4, _⟩ := wlp_ok (createBlock_out exEnv b!"d" b!"y" (some b!"i4") 1 sizes w1 ht (by decide) (by decide)) e2
  refine ⟨w, bb, w1, _, w2, e, e1, e2, hb1, rfl, nf2, ?_, h2, ?_⟩
  rotate_left
  · intro f
    rcases hsizes with rfl | rfl <;> (rcases f with _ | _ | f <;> rfl)
  refine h1.congr ?_ ?_
  · rw [h1.dir.dir]
    exact (l4 _).1 h1.dir.dir
  · intro id
    by_cases he : w2.fs.node (fileKey bb.basename id) = w1.fs.node (fileKey bb.basename id)
    · exact he
    · rw [hb1] at he
      rcases c4 _ he with ⟨id', h⟩ | ⟨t, h, hk⟩
      · exact absurd (C38_files_distinct _ _ _ _ h).1 exSample_apart.ne
      · obtain ⟨u, hu⟩ := h
        refine absurd ⟨u, ?_⟩ (exSample_apart.notBelow id)
        rw [hk, List.append_assoc, hu]
        exact (resolve_join b!"d" b!"y" (by decide)).symm

/-- With files of one and two rows. -/
theorem exSample_ready : ∃ w bb w1 bn w2, exCopySrc exTreeWorld = .ok 0 w ∧ blockOpen exEnv b!"d/z" w = .ok (0, some bb) w1 ∧
    createBlock exEnv b!"d" b!"y" (some b!"i4") 1 [1, 2] w1 = .ok (0, some bn) w2 ∧ bb.basename = b!"d/z" ∧
    bn.basename = pathJoin b!"d" b!"y" ∧ w2.faults = noFaults ∧
    Holds exEnv exKind bb w2.fs exCopyA ∧ Holds exEnv exKind bn w2.fs (Content.fresh [1, 2]) := by
  obtain ⟨w, bb, w1, bn, w2, h⟩ := exNew_ready [1, 2] (Or.inl rfl)
  exact ⟨w, bb, w1, bn, w2, h.1, h.2.1, h.2.2.1, h.2.2.2.1, h.2.2.2.2.1, h.2.2.2.2.2.1, h.2.2.2.2.2.2.1, h.2.2.2.2.2.2.2.1⟩

/-- The example of `C64_sample_partial`: three of the five rows, into a new block of two files. -/
example : ∃ w bb w1 bn w2 bn' mem' w' B' sel, exCopySrc exTreeWorld = .ok 0 w ∧ blockOpen exEnv b!"d/z" w = .ok (0, some bb) w1 ∧
    createBlock exEnv b!"d" b!"y" (some b!"i4") 1 [1, 2] w1 = .ok (0, some bn) w2 ∧
    sampleRun exEnv bb exDraw 100000000 500 (sampleWork (exRng 3) false 5) bn exMem w2 = .ok (.done, bn', mem') w' ∧
    Holds exEnv exKind bn' w'.fs B' ∧ Choice sel 3 5 ∧ (List.range 3).map B'.rows = sel.map exCopyA.rows := by
  obtain ⟨w, bb, w1, bn, w2, e, e1, e2, hb, hbn, nf, h1, h2⟩ := exSample_ready
  obtain ⟨bn', m', w', B', sel, e', _, hd', _, _, _, hc, hr⟩ := C64_sample_partial exEnv exKind exCopyA (Content.fresh [1, 2]) bb bn w2
    (exRng 3) false exDraw exDraw_fair (sampleWork (exRng 3) false 5) 100000000 500 exMem h1 h2 nf
    (by rw [hb, hbn]; exact exSample_apart) (fun r hr => exCopyA_full r (exSampleA_size ▸ hr)) (by rw [exSampleA_size, exSample_size]; decide)
    (by rw [exSampleA_size]) (by rw [exSample_work]; intro wk hwk; simp at hwk; subst hwk; decide) (by decide)
  rw [exSampleA_size] at hc
  exact ⟨w, bb, w1, bn, w2, bn', m', w', B', sel, e, e1, e2, e', hd', hc, hr⟩

/-- Two of the draws are taken: rows 1 and 3 of four. -/
example : samplePicks (exDraw 1) 4 0 4 2 = [1, 3] := by decide

/-- A generator that asks for six rows of five: the program aborts, with nothing written. -/
theorem C64_aborts : (((do
    let _ ← exCopySrc
    let (_, bb) ← blockOpen exEnv b!"d/z"
    let (_, bn) ← createBlock exEnv b!"d" b!"y" (some b!"i4") 1 [3, 3]
    match bb, bn with
    | some bb, some bn => do
      let (e, _, _) ← sampleDo exEnv bb exDraw ⟨0, 7, 5, 0, 6⟩ 600 500 bn exMem
      pure e
    | _, _ => pure .failed) exTreeWorld : Res Exit).val?) = some .aborted := by decide +kernel

end Verif
