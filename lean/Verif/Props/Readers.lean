import Verif.Proof.Readers
/-!
# C82: readers alongside a writer
-/

set_option autoImplicit false

namespace Verif

open Spec

/-- **C82, from any state.** Whatever the writer and the readers do, in whatever order, every operation is answered as it
should. -/
theorem C82_history (env : Env) (K : Kind) (ops : List SharedOp) : ∀ (hs : Handles) (w : World) (W : Watched),
    HoldsW env K hs w.fs W → w.faults = noFaults → W.allLegal env K ops →
    ∃ xs hs' w', runShared env hs ops w = .ok (xs, hs') w' ∧ W.allAnswered env K ops xs ∧
      HoldsW env K hs' w'.fs (W.after env K ops) ∧ w'.faults = noFaults := by
  induction ops with
  | nil => intro hs w W h hnf _; exact ⟨[], hs, w, rfl, trivial, h, hnf⟩
  | cons op ops ih =>
    intro hs w W h hnf hl
    obtain ⟨x, hs1, w1, e1, h1, _, h3, h4⟩ := shared_step h hnf op hl.1
    obtain ⟨xs, hs2, w2, e2, k1, k2, k3⟩ := ih hs1 w1 _ h4 h1 hl.2
    refine ⟨x :: xs, hs2, w2, ?_, ⟨h3, k1⟩, k2, k3⟩
    unfold runShared
    simp only [bind, M.bind, pure, M.pure]
    rw [e1]
    simp only
    rw [e2]

/-- A block that was just created, and nobody reads it yet. -/
def Spec.Watched.fresh (fsize : List Nat) : Watched := ⟨Holey.fresh fsize, (fsize.sum, fsize.length), []⟩

/-- **C82.** Create a block. The writer writes, reads, grows the block, handles attributes, flushes and reopens; at any
moments other programs open the block, read rows and attributes, close their handles or pass copies to other processes.
Every reader finds as many rows as the header file recorded when it opened the block, and in each of them what the writer
has last written, flushed or not; it finds the attributes that were stored when it opened the block. Nothing a reader does
has an effect on the writer or on other readers. -/
theorem C82_created (env : Env) (bf name dt : CStr) (nmemb : Int) (fsize : List Nat) (w w' : World) (b : Block)
    (wd nm : Nat) (ops : List SharedOp)
    (hfmt : FmtOk env) (hnf : w.faults = noFaults) (hlen : (pathJoin bf name).length ≤ 8192)
    (hmeta : isMeta (pathJoin bf name) = false) (hdt : PlainDtype (dtypeNormalize env.m dt))
    (hit : itemsize env.m (dtypeNormalize env.m dt) = wd) (hwd : 0 < wd) (hnm : nmemb = nm) (hnm0 : 0 < nm)
    (hrow : wd * nm < 2147483648) (hbuf : wd * nm ≤ env.chunkBytes) (hbufm : env.chunkBytes < 18446744073709551616)
    (hn : fsize.length ≤ 16777216) (hs : fsize.sum < 9223372036854775808)
    (hoff : fsize.sum * (wd * nm) < 9223372036854775808) (hnul : (0 : Byte) ∉ pathJoin bf name)
    (h : createBlock env bf name (some dt) nmemb fsize w = .ok (0, some b) w')
    (hdir : ∀ d, w.fs.node (resolve (pathJoin bf name)) ≠ some (.file d))
    (hold : w.fs.node (fileKey (pathJoin bf name) .attr) = none)
    (hnd : ∀ f, w.fs.node (fileKey (pathJoin bf name) (.data f)) ≠ some .dir)
    (hl : (Watched.fresh fsize).allLegal env ⟨dtypeNormalize env.m (dtypeNormalize env.m dt), wd, nm⟩ ops) :
    ∃ xs hs' w2, runShared env ⟨b, []⟩ ops w' = .ok (xs, hs') w2 ∧
      (Watched.fresh fsize).allAnswered env ⟨dtypeNormalize env.m (dtypeNormalize env.m dt), wd, nm⟩ ops xs := by
  obtain ⟨h1, h2⟩ := fresh_holds hfmt hnf hlen hmeta hdt hit hwd hnm hnm0 hrow hbuf hbufm hn hs hoff h hdir hold hnd
  obtain ⟨h3, h4, h5⟩ := fresh_empty (by rw [hnf]; intro i n; simp [noFaults]) hlen hmeta h
  have h6 := fresh_dirty hlen hmeta h
  have hw : HoldsW env ⟨dtypeNormalize env.m (dtypeNormalize env.m dt), wd, nm⟩ ⟨b, []⟩ w'.fs (Watched.fresh fsize) :=
    ⟨holdsH_fresh h1 h3 (by rw [h4]; exact h5), opened_holdsD h1 h6 rfl, by show (0 : Byte) ∉ b.basename; rw [h4]; exact hnul,
      rfl, fun i rb s hi => by simp at hi⟩
  obtain ⟨xs, hs', w2, e, k, _⟩ := C82_history env _ ops _ w' _ hw h2 hl
  exact ⟨xs, hs', w2, e, k⟩

/-- The operations of the writer. -/
def Spec.mainOps : List SharedOp → List BOp
  | [] => []
  | .main op :: ops => op :: mainOps ops
  | _ :: ops => mainOps ops

/-- What the writer got. -/
def Spec.mainAnswers : List SharedOp → List BAns → List BAns
  | .main _ :: ops, x :: xs => x :: mainAnswers ops xs
  | _ :: ops, _ :: xs => mainAnswers ops xs
  | _, _ => []

theorem mainAnswered (env : Env) (K : Kind) (ops : List SharedOp) : ∀ (W : Watched) (xs : List BAns),
    W.allAnswered env K ops xs → W.main.allAnswered env K (mainOps ops) (mainAnswers ops xs) := by
  induction ops with
  | nil => intro W xs h; cases xs <;> first | trivial | exact h.elim
  | cons op ops ih =>
    intro W xs h
    cases xs with
    | nil => exact h.elim
    | cons x xs =>
      obtain ⟨h1, h2⟩ := h
      have h3 := ih _ _ h2
      cases op with
      | main op => exact ⟨h1, h3⟩
      | attach => exact h3
      | copy i =>
        have hm : (W.next env K (.copy i)).main = W.main := by
          simp only [Watched.next]
          split <;> rfl
        rw [hm] at h3
        exact h3
      | reader i op =>
        have hm : (W.next env K (.reader i op)).main = W.main := by
          simp only [Watched.next]
          split <;> rfl
        rw [hm] at h3
        exact h3

/-- **C82, the writer is not disturbed.** The writer gets what it would get if there were no readers. -/
theorem C82_undisturbed (env : Env) (K : Kind) (ops : List SharedOp) (hs : Handles) (w : World) (W : Watched)
    (h : HoldsW env K hs w.fs W) (hnf : w.faults = noFaults) (hl : W.allLegal env K ops) :
    ∃ xs hs' w', runShared env hs ops w = .ok (xs, hs') w' ∧
      W.main.allAnswered env K (mainOps ops) (mainAnswers ops xs) := by
  obtain ⟨xs, hs', w', e, h1, _⟩ := C82_history env K ops hs w W h hnf hl
  exact ⟨xs, hs', w', e, mainAnswered env K ops W xs h1⟩

/-! ### The example -/

/-- The writer writes rows 1 to 3 of a block with files of 2, 0 and 3 rows. A reader joins and reads rows 0 to 2. The
writer overwrites rows 0 to 2 and grows the block by 4 rows; the reader is passed to another process, which reads rows
0 to 2 and asks for row 4 and later ones, which it does not know. All readers flush. -/
def exSharedOps : List SharedOp := [.main (.write 1 exSrc exMem 8), .attach, .reader 0 (.read 0 exDst exMem 4),
  .main (.write 0 exSrc exMem 8), .main (.grow [4]), .copy 0, .reader 1 (.read 0 exDst exMem 4),
  .reader 1 (.read 4 exDst exMem 4), .reader 0 .flush, .reader 1 .flush, .main .flush, .attach, .reader 2 (.attr .list)]

/-- Create a block of `i4` with files of 2, 0 and 3 rows and run a history: the return codes, the elements of the array
of the last operation, and the sizes that the handles show. -/
def exWatch (ops : List SharedOp) : Option (List Int × List (List Byte) × List Nat) :=
  match createBlock exEnv b!"d" b!"x" (some b!"i4") 1 [2, 0, 3] exEmpty with
  | .ok (0, some b) w =>
    (runShared exEnv ⟨b, []⟩ ops w).val?.map fun r =>
      (r.1.map (·.rc), (match r.1.getLast? with
        | some x => (List.range 3).map fun e => peek x.mem (elemAddr exDst e) 4
        | none => []), r.2.main.size :: r.2.readers.map (·.size))
  | _ => none

theorem exSharedOps_legal : (Watched.fresh [2, 0, 3]).allLegal exEnv exKind exSharedOps := by
  have h1 : ∀ i < 3, ∀ j < 1, (fromBlock exEnv exKind exDst
      (((Holey.fresh [2, 0, 3]).next exEnv exKind (.write 1 exSrc exMem 8)).shown exKind (0 + i)) j).isSome = true := by decide +kernel
  have h2 : ∀ i < 3, ∀ j < 1, (fromBlock exEnv exKind exDst
      (((((Holey.fresh [2, 0, 3]).next exEnv exKind (.write 1 exSrc exMem 8)).next exEnv exKind (.write 0 exSrc exMem 8)).next exEnv exKind
        (.grow [4])).shown exKind (0 + i)) j).isSome = true := by decide +kernel
  refine ⟨⟨by decide, exSrc_array, fun h => absurd h (by decide), fun _ => by decide +kernel⟩, trivial,
    ⟨_, rfl, ⟨by decide, exDst_array, exDst_disjoint, by decide, fun _ i hi _ => h1 i hi⟩⟩,
    ⟨by decide, exSrc_array, fun h => absurd h (by decide), fun _ => by decide +kernel⟩,
    ⟨by decide, by decide, by decide⟩, Nat.zero_lt_one,
    ⟨_, rfl, ⟨by decide, exDst_array, exDst_disjoint, by decide, fun _ i hi _ => h2 i hi⟩⟩,
    ⟨_, rfl, ⟨by decide, exDst_array, exDst_disjoint, by decide, fun h => absurd h (by decide)⟩⟩,
    ⟨_, rfl, trivial⟩, ⟨_, rfl, trivial⟩, trivial, trivial, ⟨_, rfl, rfl, trivial⟩, trivial⟩

example (w' : World) (b : Block)
    (h : createBlock exEnv b!"d" b!"x" (some b!"i4") 1 [2, 0, 3] exEmpty = .ok (0, some b) w') :
    ∃ xs hs' w2, runShared exEnv ⟨b, []⟩ exSharedOps w' = .ok (xs, hs') w2 ∧
      (Watched.fresh [2, 0, 3]).allAnswered exEnv exKind exSharedOps xs :=
  C82_created exEnv b!"d" b!"x" b!"i4" 1 [2, 0, 3] exEmpty w' b 4 1 exSharedOps
    exFmt rfl (by decide) (by decide) exB_good.dt (by decide) (by decide) (by decide) (by decide) (by decide) (by decide)
    (by decide) (by decide) (by decide) (by decide) (by decide) h (by
      intro d
      have : exEmpty.fs.node (resolve (pathJoin b!"d" b!"x")) = none := by decide
      rw [this]
      simp)
    (by decide) (by
      intro f
      have : fileKey (pathJoin b!"d" b!"x") (.data f) = [b!"d", b!"x", (FileId.data f).name] := by
        rw [fileKey_eq]; rfl
      rw [this]
      simp only [exEmpty, exEmptyFS]
      rw [if_neg (by simp)]
      simp) exSharedOps_legal

-- what happens: the readers that joined early know five rows and see the new contents of the first three
example : (exWatch exSharedOps).map (fun r => (r.1, r.2.2)) = some ([0, 0, 0, 0, 0, 0, 0, -1, 0, 0, 0, 0, 0], [9, 5, 5, 9]) := by
  decide +kernel
example : (exWatch (exSharedOps.take 7)).map (·.2.1) = some [[0, 0, 0, 10], [0, 0, 0, 11], [0, 0, 0, 12]] := by decide +kernel

/-- An attribute for the second finding. -/
def exSetOp (name : CStr) : AttrOp := .set name b!"i4" 1 exMem 0

/-- The attributes that the last of the readers sees. -/
def exWatchAttrs (ops : List SharedOp) (names : List CStr) : Option (List Bool) :=
  match createBlock exEnv b!"d" b!"x" (some b!"i4") 1 [2, 0, 3] exEmpty with
  | .ok (0, some b) w =>
    (runShared exEnv ⟨b, []⟩ ops w).val?.bind fun r => r.2.readers.getLast?.map fun rb =>
      names.map fun n => (attrView exEnv.m rb.attrset n).isSome
  | _ => none

/-- **C82, what must not be done.** Two handles that both write. (1) The first one grows the block and flushes; the second
one, opened before, writes a row and flushes: the header file is set back to the old size, and whoever opens the block now
does not find the new rows. (2) Both set an attribute and flush: the attribute of the one that flushed first is lost. Nothing
is reported in either case. -/
theorem C82_two_writers :
    (exWatch [.attach, .main (.grow [4]), .main .flush, .attach, .reader 0 (.write 0 exSrc exMem 8), .reader 0 .flush,
      .attach]).map (fun r => (r.1, r.2.2)) = some ([0, 0, 0, 0, 0, 0, 0], [9, 5, 9, 5]) ∧
    exWatchAttrs [.attach, .main (.attr (exSetOp b!"a")), .main .flush, .reader 0 (.attr (exSetOp b!"b")), .reader 0 .flush,
      .attach] [b!"a", b!"b"] = some [false, true] := by
  decide +kernel

end Verif
