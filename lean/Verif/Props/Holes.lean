import Verif.Proof.Holes
/-!
# C81: rows that were never written
-/

set_option autoImplicit false

namespace Verif

open Spec

/-- **C81, from any state.** If the handle and its directory hold `H` (every data file ending after its last written row,
zeros where nothing was written), then every operation of any history is answered as `H` prescribes, and handle and
directory hold the outcome. -/
theorem C81_history (env : Env) (K : Kind) (ops : List BOp) : ∀ (bb : Block) (w : World) (H : Holey),
    HoldsH env K bb w.fs H → w.faults = noFaults → H.allLegal env K ops →
    ∃ xs bb' w', runBOps env bb ops w = .ok (xs, bb') w' ∧ H.allAnswered env K ops xs ∧
      HoldsH env K bb' w'.fs (H.after env K ops) ∧ w'.faults = noFaults ∧ bb'.basename = bb.basename := by
  induction ops with
  | nil => intro bb w H h hnf _; exact ⟨[], bb, w, rfl, trivial, h, hnf, rfl⟩
  | cons op ops ih =>
    intro bb w H h hnf hl
    obtain ⟨x, bb1, w1, e1, h1, h2, h3, h4⟩ := holey_step h hnf op hl.1
    obtain ⟨xs, bb2, w2, e2, k1, k2, k3, k4⟩ := ih bb1 w1 _ h4 h1 hl.2
    refine ⟨x :: xs, bb2, w2, ?_, ⟨h3, k1⟩, k2, k3, k4.trans h2⟩
    unfold runBOps
    simp only [bind, M.bind, pure, M.pure]
    rw [e1]
    simp only
    rw [e2]

/-- The data files of a block that was just created are there and empty. -/
theorem fresh_empty {env : Env} {bf name dt : CStr} {nmemb : Int} {fsize : List Nat} {w w' : World} {b : Block}
    (hns : NoSilent w.faults) (hlen : (pathJoin bf name).length ≤ 8192) (hmeta : isMeta (pathJoin bf name) = false)
    (h : createBlock env bf name (some dt) nmemb fsize w = .ok (0, some b) w') :
    b.fsize = fsize ∧ b.basename = pathJoin bf name ∧
      ∀ f, f < fsize.length → w'.fs.node (fileKey (pathJoin bf name) (.data f)) = some (.file []) := by
  have key : wpc (createBlock env bf name (some dt) nmemb fsize) w
      (fun r w' => r = (-1, none) ∨ r = (0, some (freshBlock env (pathJoin bf name) dt nmemb fsize)) ∧
        ∃ fs1, w'.fs = createFS env (pathJoin bf name) dt nmemb fsize fs1)
      (fun _ => True) := by
    unfold createBlock
    rw [wpc_bind]
    apply wpc_mono (wpc_mksubdirR bf name w)
    · rintro rc w1 ⟨f1, h1, h2, _⟩
      rcases h2 with rfl | rfl
      · simp only [ne_eq, not_true_eq_false, if_false]
        apply wpc_mono (wpc_blockCreate hlen hmeta)
        · rintro r w2 ⟨_, _, (h3 | ⟨h3, _, h4⟩), _⟩
          · exact Or.inl h3
          · exact Or.inr ⟨h3, w1.fs, h4 (by rw [f1]; exact hns)⟩
        · intro _ _; trivial
      · simp only [ne_eq, show (-1 : Int) ≠ 0 by decide, not_false_eq_true, if_true]
        rw [wpc_pure]
        exact Or.inl rfl
    · intro _ _; trivial
  rcases wpc_ok key h with h0 | ⟨h0, fs1, hfs⟩
  · exact absurd h0 (by simp)
  injection h0 with _ h0
  injection h0 with h0
  subst h0
  refine ⟨rfl, rfl, fun f hf => ?_⟩
  rw [hfs]
  exact truncFS_data _ _ _ _ f (Nat.zero_le _) (by rw [Nat.zero_add]; exact hf)

/-- A block without written rows whose data files are empty. -/
theorem holdsH_fresh {env : Env} {K : Kind} {b : Block} {fs : FS} {fsize : List Nat}
    (h : Holds env K b fs (Content.fresh fsize)) (hf : b.fsize = fsize)
    (he : ∀ f, f < fsize.length → fs.node (fileKey b.basename (.data f)) = some (.file [])) :
    HoldsH env K b fs (Holey.fresh fsize) := by
  have hrow : ∀ r, r < fsize.sum → row env.m fs b r = [] := by
    intro r hr
    unfold row rowFile FS.bytes
    rw [hf, he _ (locate_lt fsize r hr).1]
    simp
  have hpos : 0 < rowSize env.m b := by
    unfold rowSize
    rw [h.ok.item, h.ok.memb]
    exact Nat.mul_pos h.ok.item0 h.ok.memb0
  refine ⟨h, hf, fun r hr => ?_, fun r hr _ => ?_⟩
  · constructor
    · intro hs
      unfold Stored at hs
      rw [hrow r hr] at hs
      simp at hs
      omega
    · rintro ⟨r', _, _, h3⟩
      exact absurd h3 (by simp [Holey.fresh, Content.fresh])
  · rw [hrow r hr]
    intro b hb
    cases hb

/-- **C81.** Create a block and run any history of writes, reads of any rows inside or outside the block, growing, attribute
operations, flushes and close-and-reopen. A read inside the block succeeds exactly if for each of its rows that row or a
later row of the same data file was written; it gives what was last written to each row, and zeros for rows that never
were. Otherwise it returns -1. Data of earlier files of that name never shows. -/
theorem C81_created (env : Env) (bf name dt : CStr) (nmemb : Int) (fsize : List Nat) (w w' : World) (b : Block)
    (wd nm : Nat) (ops : List BOp)
    (hfmt : FmtOk env) (hnf : w.faults = noFaults) (hlen : (pathJoin bf name).length ≤ 8192)
    (hmeta : isMeta (pathJoin bf name) = false) (hdt : PlainDtype (dtypeNormalize env.m dt))
    (hit : itemsize env.m (dtypeNormalize env.m dt) = wd) (hwd : 0 < wd) (hnm : nmemb = nm) (hnm0 : 0 < nm)
    (hrow : wd * nm < 2147483648) (hbuf : wd * nm ≤ env.chunkBytes) (hbufm : env.chunkBytes < 18446744073709551616)
    (hn : fsize.length ≤ 16777216) (hs : fsize.sum < 9223372036854775808)
    (hoff : fsize.sum * (wd * nm) < 9223372036854775808)
    (h : createBlock env bf name (some dt) nmemb fsize w = .ok (0, some b) w')
    (hdir : ∀ d, w.fs.node (resolve (pathJoin bf name)) ≠ some (.file d))
    (hold : w.fs.node (fileKey (pathJoin bf name) .attr) = none)
    (hnd : ∀ f, w.fs.node (fileKey (pathJoin bf name) (.data f)) ≠ some .dir)
    (hl : (Holey.fresh fsize).allLegal env ⟨dtypeNormalize env.m (dtypeNormalize env.m dt), wd, nm⟩ ops) :
    ∃ xs bb' w2, runBOps env b ops w' = .ok (xs, bb') w2 ∧
      (Holey.fresh fsize).allAnswered env ⟨dtypeNormalize env.m (dtypeNormalize env.m dt), wd, nm⟩ ops xs := by
  obtain ⟨h1, h2⟩ := fresh_holds hfmt hnf hlen hmeta hdt hit hwd hnm hnm0 hrow hbuf hbufm hn hs hoff h hdir hold hnd
  obtain ⟨h3, h4, h5⟩ := fresh_empty (by rw [hnf]; intro i n; simp [noFaults]) hlen hmeta h
  obtain ⟨xs, bb', w2, e, k, _⟩ := C81_history env _ ops b w' _
    (holdsH_fresh h1 h3 (by rw [h4]; exact h5)) h2 hl
  exact ⟨xs, bb', w2, e, k⟩

/-! ### The example -/

/-- Write rows 1 to 3 of a block with files of 2, 0 and 3 rows. Read rows 0 to 2: the first one was never written.
Read rows 2 to 4: the last one was never written, and is behind the end of its file. Grow, and read again. -/
def exHOps : List BOp := [.write 1 exSrc exMem 8, .read 0 exDst exMem 4, .read 2 exDst exMem 4, .grow [4], .reopen, .read 4 exDst exMem 4]

theorem exHOps_legal : (Holey.fresh [2, 0, 3]).allLegal exEnv exKind exHOps := by
  have h1 : ∀ i < 3, ∀ j < 1, (fromBlock exEnv exKind exDst
      (((Holey.fresh [2, 0, 3]).next exEnv exKind (.write 1 exSrc exMem 8)).shown exKind (0 + i)) j).isSome = true := by decide +kernel
  have h2 : ∀ i < 3, ∀ j < 1, (fromBlock exEnv exKind exDst
      (((Holey.fresh [2, 0, 3]).next exEnv exKind (.write 1 exSrc exMem 8)).shown exKind (2 + i)) j).isSome = true := by decide +kernel
  have h3 : ∀ i < 3, ∀ j < 1, (fromBlock exEnv exKind exDst
      (((Holey.fresh [2, 0, 3]).next exEnv exKind (.write 1 exSrc exMem 8)).shown exKind (4 + i)) j).isSome = true := by decide +kernel
  exact ⟨⟨by decide, exSrc_array, fun h => absurd h (by decide), fun _ => by decide +kernel⟩,
    ⟨by decide, exDst_array, exDst_disjoint, by decide, fun _ i hi _ => h1 i hi⟩,
    ⟨by decide, exDst_array, exDst_disjoint, by decide, fun _ i hi _ => h2 i hi⟩,
    ⟨by decide, by decide, by decide⟩, trivial,
    ⟨by decide, exDst_array, exDst_disjoint, by decide, fun _ i hi _ => h3 i hi⟩, trivial⟩

/-- Create a block of `i4` with files of these sizes and run a history: the return codes, and the elements of the array
of the last operation. -/
def exDivided (sizes : List Nat) (ops : List BOp) : Option (List Int × List (List Byte)) :=
  match createBlock exEnv b!"d" b!"x" (some b!"i4") 1 sizes exEmpty with
  | .ok (0, some b) w =>
    (runBOps exEnv b ops w).val?.map fun r =>
      (r.1.map (·.rc), match r.1.getLast? with
        | some x => (List.range 3).map fun e => peek x.mem (elemAddr exDst e) 4
        | none => [])
  | _ => none

example (w' : World) (b : Block)
    (h : createBlock exEnv b!"d" b!"x" (some b!"i4") 1 [2, 0, 3] exEmpty = .ok (0, some b) w') :
    ∃ xs bb' w2, runBOps exEnv b exHOps w' = .ok (xs, bb') w2 ∧ (Holey.fresh [2, 0, 3]).allAnswered exEnv exKind exHOps xs :=
  C81_created exEnv b!"d" b!"x" b!"i4" 1 [2, 0, 3] exEmpty w' b 4 1 exHOps
    exFmt rfl (by decide) (by decide) exB_good.dt (by decide) (by decide) (by decide) (by decide) (by decide) (by decide)
    (by decide) (by decide) (by decide) (by decide) h (by
      intro d
      have : exEmpty.fs.node (resolve (pathJoin b!"d" b!"x")) = none := by decide
      rw [this]
      simp)
    (by decide) (by
      intro f
      have : fileKey (pathJoin b!"d" b!"x") (.data f) = [b!"d", b!"x", (FileId.data f).name] := by
        rw [fileKey_eq]; rfl
      rw [this]
      simp only [exEmpty, exEmptyFS]
      rw [if_neg (by simp)]
      simp) exHOps_legal

-- what happens: the read of rows 0 to 2 gives zeros for row 0, the others fail
example : (exDivided [2, 0, 3] exHOps).map (·.1) = some [0, 0, -1, 0, 0, -1] := by decide +kernel
example : exDivided [2, 0, 3] (exHOps.take 2) = some ([0, 0], [[0, 0, 0, 0], [0, 0, 0, 10], [0, 0, 0, 11]]) := by decide +kernel

/-- **C81, a finding.** Whether rows that were never written can be read depends on how the block is divided into
files: write rows 3 to 5 of six rows, and read rows 0 to 2. In one file this gives zeros; in two files of three rows it fails. -/
theorem C81_division :
    (exDivided [6] [.write 3 exSrc exMem 8, .read 0 exDst exMem 4]).map (·.1) = some [0, 0] ∧
    (exDivided [3, 3] [.write 3 exSrc exMem 8, .read 0 exDst exMem 4]).map (·.1) = some [0, -1] := by
  decide +kernel

end Verif
