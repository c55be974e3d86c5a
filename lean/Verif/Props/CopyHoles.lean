import Verif.Props.CopyMay
import Verif.Proof.Steady
/-!
# C93: copying a block of which rows are missing
-/

set_option autoImplicit false

namespace Verif

open Spec

variable {env : Env} {K : Kind} {A : Content} {w : World}

/-- **C93, failures** (partial: as `C51_faults_partial`, but rows of the source may be missing). Whatever file operations fail, if
`bigfile-copy` reports success then no row of the source was missing, and the new block has the bytes of every row of the source, also of
rows that nobody wrote, and its attributes (none if the attribute file of the source could not be opened). So a copy of a block with a
missing row is never reported as a success. In any case, also when it is killed, the source is as it was, and nothing is touched but the new
block and directories on the way to it. -/
theorem C93_faults_partial (env : Env) (K : Kind) (A : Content) (file block newfile newblock : CStr) (nfile : Option Nat)
    (buffersize : Nat) (buf : Int) (mem : Mem) (w : World) (hdr : Block) (hns : NoSilent w.faults) (ht : TreeOk w.fs)
    (hfl : file.length ≤ 8192) (hnew : newfile ≠ []) (hnewl : newfile.length ≤ 8192)
    (hsrc : WholeOnDisk env K w.fs (pathJoin file block) A) (hcut : HeaderCut w.fs (pathJoin file block) hdr)
    (hap : Apart (pathJoin file block) (pathJoin newfile newblock)) (hroom : Room w.fs (pathJoin newfile newblock))
    (hlen : (pathJoin newfile newblock).length ≤ 8192) (hmeta : isMeta (pathJoin newfile newblock) = false)
    (hn : 0 < copyFiles nfile A.nfile ∨ A.size = 0) (hnmax : copyFiles nfile A.nfile ≤ 16777216)
    (hov : copyFiles nfile A.nfile * A.size < 18446744073709551616)
    (hbuf : K.w * K.nm ≤ buffersize) (hbufm : A.size + buffersize < 9223372036854775808) :
    wpc (copyMain env file block newfile newblock nfile buffersize buf mem) w
      (fun e w' => OnlyMade (pathJoin newfile newblock) w.fs w'.fs ∧ OnDisk env K w'.fs (pathJoin file block) A ∧
        (e = .failed ∨ e = .done ∧ A.full ∧
          (OnDisk env K w'.fs (pathJoin newfile newblock) (A.inFiles (copyFiles nfile A.nfile)) ∨
            (∃ i, w.faults i = .fail) ∧ OnDisk env K w'.fs (pathJoin newfile newblock)
              { A.inFiles (copyFiles nfile A.nfile) with attrs := AttrMap.empty, saved := AttrMap.empty })))
      (fun w' => OnlyMade (pathJoin newfile newblock) w.fs w'.fs ∧ OnDisk env K w'.fs (pathJoin file block) A) :=
  copy_stored env K A file block newfile newblock nfile buffersize buf mem w hdr hns ht hfl hnew hnewl hsrc.1 hcut
    (fun _ b r hb hbase hd hr hst => (hsrc.2 b r hbase (hb.header hd) hr).mpr hst) hap hroom hlen hmeta hn hnmax hov hbuf hbufm

/-- **C93** (partial: as `C51_copy_partial`, but rows of the source may be missing). Without failures `bigfile-copy` succeeds exactly if no row
of the source is missing, whether or not somebody wrote it, and then the new block has the bytes of all of them; if a row is missing it
reports failure. -/
theorem C93_copy_partial (env : Env) (K : Kind) (A : Content) (file block newfile newblock : CStr) (nfile : Option Nat)
    (buffersize : Nat) (buf : Int) (mem : Mem) (w : World) (hdr : Block) (hnf : w.faults = noFaults) (ht : TreeOk w.fs)
    (hf : file ≠ []) (hfl : file.length ≤ 8192) (hnew : newfile ≠ []) (hnewl : newfile.length ≤ 8192)
    (hsrc : WholeOnDisk env K w.fs (pathJoin file block) A) (hcut : HeaderCut w.fs (pathJoin file block) hdr)
    (hap : Apart (pathJoin file block) (pathJoin newfile newblock)) (hroom : Room w.fs (pathJoin newfile newblock))
    (hlen : (pathJoin newfile newblock).length ≤ 8192) (hmeta : isMeta (pathJoin newfile newblock) = false)
    (hblank : hasBlank (pathJoin newfile newblock) = false)
    (hn : 0 < copyFiles nfile A.nfile ∨ A.size = 0) (hnmax : copyFiles nfile A.nfile ≤ 16777216)
    (hov : copyFiles nfile A.nfile * A.size < 18446744073709551616)
    (hbuf : K.w * K.nm ≤ buffersize) (hbufm : A.size + buffersize < 9223372036854775808) :
    ∃ e w', copyMain env file block newfile newblock nfile buffersize buf mem w = .ok e w' ∧ w'.faults = noFaults ∧
      (A.full → e = .done ∧ OnDisk env K w'.fs (pathJoin newfile newblock) (A.inFiles (copyFiles nfile A.nfile))) ∧
      (¬ A.full → e = .failed) ∧ OnDisk env K w'.fs (pathJoin file block) A ∧ OnlyMade (pathJoin newfile newblock) w.fs w'.fs := by
  by_cases hfull : A.full
  · obtain ⟨w', e, g1, g2, g3, g4⟩ := C51_copy_partial env K A file block newfile newblock nfile buffersize buf mem w hnf ht hf hfl hnew hnewl
      hsrc.1 hfull hap hroom hlen hmeta hblank hn hnmax hov hbuf hbufm
    exact ⟨.done, w', e, g1, fun _ => ⟨rfl, g2⟩, fun hc => absurd hfull hc, g3, g4⟩
  · obtain ⟨e, w', he, g1, g2, g3, g4⟩ := (copyMain_steady env file block newfile newblock nfile buffersize buf mem).returns hnf
      (C93_faults_partial env K A file block newfile newblock nfile buffersize buf mem w hdr
        (by intro i n; rw [hnf]; exact fun hc => by cases hc) ht hfl hnew hnewl hsrc hcut hap hroom hlen hmeta hn hnmax hov hbuf hbufm)
    refine ⟨e, w', he, g1, fun hc => absurd hc hfull, fun _ => ?_, g3, g2⟩
    rcases g4 with g4 | ⟨_, g5, _⟩
    · exact g4
    · exact absurd g5 hfull

/-! ### The examples -/

/-- Rows 1, 2 and 3 of five rows, and perhaps row 4. Row 0 lies before row 1 in its file. -/
def exGapOps (all : Bool) : List BOp := .write 1 exSrc exMem 8 :: if all then [.write 2 exSrc exMem 8] else []

/-- Make them in block `z` of the file `d`. -/
def exGapSrc (all : Bool) : M Int := do
  let r ← createBlock exEnv b!"d" b!"z" (some b!"i4") 1 [2, 0, 3]
  match r.2 with
  | none => pure 7
  | some b =>
    let (_, b) ← runBOps exEnv b (exGapOps all)
    blockClose exEnv b

/-- What was written. -/
def exGapA (all : Bool) : Content := ((Content.fresh [2, 0, 3]).after exEnv exKind (exGapOps all)).closed

/-- What the header says. -/
def exGapHdr (all : Bool) : Block :=
  ⟨b!"<i4", 1, b!"d/z", 5, [2, 0, 3], [0, 2, 2, 5], [10, 0, if all then 56 else 23], 3, attrsetCreate exEnv, false⟩

theorem exGap_legal (all : Bool) : (Content.fresh [2, 0, 3]).allLegal exEnv exKind (exGapOps all) := by
  refine ⟨⟨by decide, exSrc_array, fun h => absurd h (by decide), fun _ => by decide +kernel⟩, ?_⟩
  cases all with
  | false => exact trivial
  | true => exact ⟨⟨by decide, exSrc_array, fun h => absurd h (by decide), fun _ => by decide +kernel⟩, trivial⟩

theorem exGap_ready (all : Bool) : ∃ w, exGapSrc all exTreeWorld = .ok 0 w ∧ w.faults = noFaults ∧ TreeOk w.fs ∧
    OnDisk exEnv exKind w.fs b!"d/z" (exGapA all) ∧ HeaderCut w.fs b!"d/z" (exGapHdr all) ∧ Room w.fs b!"e/f/new/y" := by
  obtain ⟨b, w0, e0, hb, nf1, h1⟩ := exCopy_fresh
  obtain ⟨xs, b2, w2, w3, e2, e3, nf3, h3⟩ := history_closed h1 nf1 (exGap_legal all)
  have e : exGapSrc all exTreeWorld = .ok 0 w3 := by
    unfold exGapSrc
    simp only [bind, M.bind]
    rw [e0]
    simp only
    rw [M.bind, e2]
    exact e3
  rw [hb] at h3
  have hk : KeepsTree (exGapSrc all) := by
    refine KeepsTree.bind (createBlock_keeps _ _ _ _ _ _) ?_
    rintro ⟨rc, o⟩
    cases o with
    | none => exact KeepsTree.pure _
    | some b => exact KeepsTree.bind (runBOps_keeps _ _ _) fun _ => blockClose_keeps _ _
  have ht : TreeOk w3.fs := hk.ok exTree_ok e
  have hchk : ∀ all, (exGapSrc all exTreeWorld).fs?.map (fun fs =>
      ((fs.node (fileKey b!"d/z" .header) = some (.file ((headerText (exGapHdr all)).take 1000))) ∧ fs.node (resolve b!"e/f/new/y") = none ∧
      ∀ k ∈ fs.dom, k <+: resolve b!"e/f/new/y" → fs.node k = some .dir : Bool)) = some true := by decide +kernel
  have hchk := hchk all
  rw [e] at hchk
  simp only [Res.fs?, Option.map_some, Option.some.injEq, decide_eq_true_eq] at hchk
  refine ⟨w3, e, nf3, ht, h3, ⟨⟨exB_good.dt, ?_, ?_, rfl, rfl, ?_, ?_, ?_⟩, 1000, hchk.1⟩,
    Room.of_absent ht hchk.2.1 hchk.2.2⟩
  all_goals cases all <;> decide

/-- The block with a hole is copied, with zeros for the row that nobody wrote; of the block with a missing row no copy is made. -/
theorem exGap_copies (all : Bool) : ∃ A w e w', A.Extends (exGapA all) ∧ exGapSrc all exTreeWorld = .ok 0 w ∧
    WholeOnDisk exEnv exKind w.fs b!"d/z" A ∧
    copyMain exEnv b!"d" b!"z" b!"e/f" b!"new/y" (some 2) 9 500 exMem w = .ok e w' ∧
    (A.full → e = .done ∧ OnDisk exEnv exKind w'.fs b!"e/f/new/y" (A.inFiles 2)) ∧ (¬ A.full → e = .failed) := by
  obtain ⟨w, e, nf, ht, h, hc, hr⟩ := exGap_ready all
  obtain ⟨A, hx, hA⟩ := C93_whole h
  have hsz : A.size = 5 := hx.size.trans (by cases all <;> decide)
  have hnf : A.nfile = 3 := hx.nfile.trans (by cases all <;> decide)
  have hcf : copyFiles (some 2) A.nfile = 2 := by rw [hnf]; rfl
  obtain ⟨x, w', g1, _, g2, g3, _⟩ := C93_copy_partial exEnv exKind A b!"d" b!"z" b!"e/f" b!"new/y" (some 2) 9 500 exMem w (exGapHdr all) nf ht
    (by decide) (by decide) (by decide) (by decide) hA hc
    ⟨by decide, fun id he => by
        rw [fileKey_eq] at he
        exact absurd (congrArg List.length he) (by simp; decide), fun id he => by
        rw [fileKey_eq] at he
        exact absurd (List.IsPrefix.trans (List.prefix_append _ _) he) (by decide)⟩
    hr (by decide) (by decide) (by decide) (by rw [hcf]; omega) (by rw [hcf]; omega) (by rw [hcf, hsz]; decide) (by decide)
    (by rw [hsz]; decide)
  rw [hcf] at g2
  exact ⟨A, w, x, w', hx, e, hA, g1, g2, g3⟩

/-- How the copy ends, and the bytes of the copy. -/
def exGapCopy (all : Bool) : Option (Exit × List Byte × List Byte) :=
  match (do let _ ← exGapSrc all; copyMain exEnv b!"d" b!"z" b!"e/f" b!"new/y" (some 2) 9 500 exMem) exTreeWorld with
  | .ok e w => some (e, w.fs.bytes (fileKey b!"e/f/new/y" (.data 0)), w.fs.bytes (fileKey b!"e/f/new/y" (.data 1)))
  | _ => none

/-- Both cases happen. A copy that failed leaves the rows that came before the missing one. -/
theorem C93_cases : exGapCopy true = some (.done, [0, 0, 0, 0, 10, 0, 0, 0], [10, 0, 0, 0, 11, 0, 0, 0, 12, 0, 0, 0]) ∧
    exGapCopy false = some (.failed, [0, 0, 0, 0, 10, 0, 0, 0], [11, 0, 0, 0, 12, 0, 0, 0]) := by decide +kernel

end Verif
